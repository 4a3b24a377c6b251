import Verif.Model.Io
/-!
# Independent specification: RFC 6455 framing as seen by a client

Nothing here refers to the model of puck's code; only the types `Bytes` and `Raw` are shared.
-/
namespace Rfc6455
open Puck (Bytes)

/-- The bits of the first byte, weight by weight (RFC 6455 5.2). -/
def firstByte (fin rsv1 rsv2 rsv3 : Bool) (nibble : Nat) : Nat :=
  fin.toNat * 128 + rsv1.toNat * 64 + rsv2.toNat * 32 + rsv3.toNat * 16 + nibble

/-- Value of a big-endian byte string, written from the least significant end. -/
def valueBE (b : Bytes) : Nat :=
  match b with
  | [] => 0
  | x :: xs => x.toNat * 256 ^ xs.length + valueBE xs

/-- A server-to-client frame as a client understands it. -/
structure WireFrame where
  fin : Bool
  rsv1 : Bool
  rsv2 : Bool
  rsv3 : Bool
  nibble : Nat
  payload : Bytes
  deriving DecidableEq, Repr

/-- Client side decoder of one unmasked frame (RFC 6455 5.2); `none` if the bytes do not start with
one.  Returns the frame and the bytes after it. -/
def decodeServer (bs : Bytes) : Option (WireFrame × Bytes) :=
  match bs with
  | b0 :: b1 :: rest =>
    let go (len : Nat) (rest : Bytes) : Option (WireFrame × Bytes) :=
      if len ≤ rest.length then
        some (⟨b0.toNat / 128 % 2 == 1, b0.toNat / 64 % 2 == 1, b0.toNat / 32 % 2 == 1,
               b0.toNat / 16 % 2 == 1, b0.toNat % 16, rest.take len⟩, rest.drop len)
      else none
    if b1.toNat < 126 then go b1.toNat rest
    else if b1.toNat = 126 then
      if 2 ≤ rest.length then go (valueBE (rest.take 2)) (rest.drop 2) else none
    else if b1.toNat = 127 then
      if 8 ≤ rest.length then go (valueBE (rest.take 8)) (rest.drop 8) else none
    else none -- a masked frame from a server is a protocol error
  | _ => none

/-- Decode as many frames as the client can, in order. -/
def decodeAll : Nat → Bytes → List WireFrame
  | 0, _ => []
  | n + 1, bs =>
    match decodeServer bs with
    | none => []
    | some (f, rest) => f :: decodeAll n rest

/-- The three length forms. -/
inductive Form where
  | short | medium | long
  deriving DecidableEq, Repr

/-- The form can carry the length. -/
def Form.Carries : Form → Nat → Prop
  | .short, len => len < 126
  | .medium, len => len < 65536
  | .long, len => len < 2 ^ 64

instance (f : Form) (n : Nat) : Decidable (f.Carries n) := by
  cases f <;> unfold Form.Carries <;> infer_instance

/-- Masking, octet by octet, rotating the key (RFC 6455 5.3). -/
def mask : UInt8 × UInt8 × UInt8 × UInt8 → Bytes → Bytes
  | _, [] => []
  | (a, b, c, d), x :: xs => (x ^^^ a) :: mask (b, c, d, a) xs

/-- The big-endian representation of `v` on `n` bytes. -/
def bigEndian (n v : Nat) : Bytes :=
  (List.range n).map fun i => UInt8.ofNat (v / 256 ^ (n - 1 - i) % 256)

/-- The header bytes announcing a payload of `len` bytes (RFC 6455 5.2), before the mask key. -/
def headBytes (fin rsv1 rsv2 rsv3 : Bool) (nibble : Nat) (masked : Bool) (form : Form) (len : Nat) :
    Bytes :=
  UInt8.ofNat (firstByte fin rsv1 rsv2 rsv3 nibble) ::
    match form with
    | .short => [UInt8.ofNat (masked.toNat * 128 + len)]
    | .medium => UInt8.ofNat (masked.toNat * 128 + 126) :: bigEndian 2 len
    | .long => UInt8.ofNat (masked.toNat * 128 + 127) :: bigEndian 8 len

/-- A mask key: four bytes. -/
abbrev Key := UInt8 × UInt8 × UInt8 × UInt8

def Key.bytes (k : Key) : Bytes := [k.1, k.2.1, k.2.2.1, k.2.2.2]

/-- A frame a client sends: flags, opcode nibble, mask key, payload, and the length form
it chose (a client may not be minimal). -/
structure ClientFrame where
  fin : Bool
  rsv1 : Bool
  rsv2 : Bool
  rsv3 : Bool
  nibble : Nat
  key : Key
  payload : Bytes
  form : Form
  deriving DecidableEq, Repr

/-- The form can carry the length, and the opcode is four bits. -/
def ClientFrame.Valid (f : ClientFrame) : Prop :=
  f.nibble < 16 ∧ f.form.Carries f.payload.length

instance (f : ClientFrame) : Decidable f.Valid := by
  unfold ClientFrame.Valid; infer_instance

/-- Header bytes before the mask key. -/
def ClientFrame.head (f : ClientFrame) : Bytes :=
  headBytes f.fin f.rsv1 f.rsv2 f.rsv3 f.nibble true f.form f.payload.length

/-- The bytes of a masked client frame. -/
def ClientFrame.encode (f : ClientFrame) : Bytes :=
  f.head ++ f.key.bytes ++ mask f.key f.payload

/-- Opcode classes of the frame API. -/
inductive Kind where
  | «continue» | text | binary | close | ping | pong | reserved
  deriving DecidableEq, Repr

/-- RFC 6455 11.8: meaning of the opcode nibble. -/
def kindOf (n : Nat) : Kind :=
  if n = 0 then .continue else if n = 1 then .text else if n = 2 then .binary
  else if n = 8 then .close else if n = 9 then .ping else if n = 10 then .pong else .reserved

end Rfc6455
