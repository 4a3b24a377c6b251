import Verif.Model.Io
/-!
# `puck/src/ws/frame.rs`, `puck/src/ws/send.rs`: WebSocket frames
-/
namespace Puck

/-- puck/src/ws/frame.rs:154-165 `OpCode`. -/
inductive OpCode where
  | «continue» | binary | text | reserved | terminate | ping | pong
  deriving DecidableEq, Repr

/-- puck/src/ws/frame.rs:167-179 `OpCode::code`. -/
def OpCode.code : OpCode → UInt8
  | .continue => 0
  | .binary => 2
  | .text => 1
  | .reserved => 3
  | .terminate => 8
  | .ping => 9
  | .pong => 10

/-- puck/src/ws/frame.rs:9-18 `Frame`. -/
structure Frame where
  fin : Bool
  rsv1 : Bool
  rsv2 : Bool
  rsv3 : Bool
  opCode : OpCode
  decoded : Bytes
  deriving DecidableEq, Repr

/-- puck/src/ws/frame.rs:181-195 `ParseFrameError`. -/
inductive ParseFrameError where
  | maskNotSet
  | ioError
  | invalidOpCode
  | insufficientData
  | waitForNextFrame (missing : Nat)
  deriving DecidableEq, Repr

/-- puck/src/ws/frame.rs:39-49: the `match first & 0x0F`; `none` is the `InvalidOpCode` arm. -/
def opCodeOfNibble (n : UInt8) : Option OpCode :=
  match n.toNat with
  | 0 => some .continue
  | 1 => some .text
  | 2 => some .binary
  | 3 | 4 | 5 | 6 | 7 => some .reserved
  | 8 => some .terminate
  | 9 => some .ping
  | 10 => some .pong
  | 11 | 12 | 13 | 14 | 15 => some .reserved
  | _ => none

/-- `byteorder`'s `read_uint::<NetworkEndian>(n)` on the bytes read: big endian. Used for puck/src/ws/frame.rs:54-55. -/
def beNat (b : Bytes) : Nat := b.foldl (fun a x => a * 256 + x.toNat) 0

/-- `byteorder`'s `write_u16/write_u64::<NetworkEndian>`: the `n` big-endian bytes of `v`. Used for puck/src/ws/frame.rs:135, :137. -/
def toBe : Nat → Nat → Bytes
  | 0, _ => []
  | n + 1, v => UInt8.ofNat (v / 256 ^ n) :: toBe n v

/-- `isize::MAX` of a target with `W`-bit `usize`: `Vec` panics ("capacity overflow") above it. Used for puck/src/ws/frame.rs:69, :79. -/
def isizeMax (W : Nat) : Nat := 2 ^ (W - 1) - 1

/-- `BufReader::new`: default capacity 8 KiB. Used for puck/src/ws/frame.rs:23. -/
def defaultCap : Nat := 8192

/-- puck/src/ws/frame.rs:79-82: `decoded[i] = encoded[i] ^ masking_key[i % 4]` for all `i`. -/
def unmask (key : Bytes) (encoded : Bytes) : Bytes :=
  encoded.mapIdx fun i b => b ^^^ key.getD (i % 4) 0

/-- puck/src/ws/frame.rs:53-57: the payload length; `bufread` is `r`. -/
def readPayloadLength (second : UInt8) (r : Buf) : Option Nat × Buf :=
  if (second &&& 0x7F) = 126 then
    match r.readExact defaultCap 2 with
    | (some b, r') => (some (beNat b), r')
    | (none, r') => (none, r')
  else if (second &&& 0x7F) = 127 then
    match r.readExact defaultCap 8 with
    | (some b, r') => (some (beNat b), r')
    | (none, r') => (none, r')
  else (some (second &&& 0x7F).toNat, r)

/-- puck/src/ws/frame.rs:63-84: mask key and payload (only called for a non-zero length).
`W` is the width of `usize`; line 69 panics if the truncated length exceeds `isize::MAX`, and so does
`read_to_end` when it would have to grow the vector beyond it (std as of mid-2022, `Vec::reserve`; newer versions return an
error): that is, when so many bytes arrive before the limit, the end or an error.  Allocation failure is not modelled.
Simplified: the vector grows exactly.  std grows it by doubling, so it can panic earlier, when between `isize::MAX / 2`
and `isize::MAX` bytes really arrive in a frame that announces at least `2^W` bytes (possible for `W < 64` only); and with such a
truncated length a read is offered the spare capacity of the vector only, which affects nothing but the read-ahead. -/
def readPayload (W : Nat) (fin : Bool) (payloadLength : Nat) (r : Buf) :
    Outcome ParseFrameError Bytes × Buf :=
  match r.read defaultCap 4 with
  | (none, r') => (.err .ioError, r')
  | (some key, r') =>
    if key.length ≠ 4 then (.err .insufficientData, r')
    else
      let asUsize := payloadLength % 2 ^ W
      if asUsize > isizeMax W then (.panic, r')
      else if min payloadLength (r'.buf.length + r'.raw.coming) > isizeMax W then (.panic, r')
      else
        match r'.takeToEnd defaultCap payloadLength with
        | (none, r'') => (.err .ioError, r'')
        | (some encoded, r'') =>
          if encoded.length ≠ asUsize then
            if !fin && decide (payloadLength > encoded.length) then
              (.err (.waitForNextFrame (payloadLength - encoded.length)), r'')
            else (.err .ioError, r'')
          else (.ok (unmask key encoded), r'')

/-- puck/src/ws/frame.rs:22-97 `Frame::parse`.  A fresh `BufReader` is created per call (line 23) and
dropped at the end, so the bytes it has read ahead are lost: the returned stream is `r.raw` only. -/
def Frame.parse (W : Nat) (raw : Raw) : Outcome ParseFrameError Frame × Raw :=
  match (Buf.mk [] raw).read defaultCap 2 with
  | (none, r) => (.err .ioError, r.raw)
  | (some [first, second], r) =>
    let fin := first &&& 0x80 != 0
    let rsv1 := first &&& 0x40 != 0
    let rsv2 := first &&& 0x20 != 0
    let rsv3 := first &&& 0x10 != 0
    match opCodeOfNibble (first &&& 0x0F) with
    | none => (.err .invalidOpCode, r.raw)
    | some opCode =>
      let masked := second &&& 0x80 != 0
      match readPayloadLength second r with
      | (none, r) => (.err .ioError, r.raw)
      | (some payloadLength, r) =>
        if payloadLength > 0 && !masked then (.err .maskNotSet, r.raw)
        else if payloadLength > 0 then
          match readPayload W fin payloadLength r with
          | (.ok decoded, r) => (.ok ⟨fin, rsv1, rsv2, rsv3, opCode, decoded⟩, r.raw)
          | (.err e, r) => (.err e, r.raw)
          | (.panic, r) => (.panic, r.raw)
        else (.ok ⟨fin, rsv1, rsv2, rsv3, opCode, []⟩, r.raw)
  | (some _, r) => (.err .insufficientData, r.raw)

/-- puck/src/ws/frame.rs:143-151 `Frame::format_length` (`u16::MAX = 65535`). -/
def formatLength (len : Nat) : UInt8 :=
  if len < 126 then UInt8.ofNat len
  else if len < 65535 then 126
  else 127

/-- puck/src/ws/frame.rs:122-126: the first header byte. -/
def Frame.byteOne (f : Frame) : UInt8 :=
  f.opCode.code ||| (if f.fin then 0x80 else 0) ||| (if f.rsv1 then 0x40 else 0)
    ||| (if f.rsv2 then 0x20 else 0) ||| (if f.rsv3 then 0x10 else 0)

/-- puck/src/ws/frame.rs:134-138: the extended length bytes. -/
def extLength (len : Nat) : Bytes :=
  if 126 ≤ len ∧ len < 65535 then toBe 2 len
  else if 126 ≤ len then toBe 8 len
  else []

/-- puck/src/ws/frame.rs:119-141 `Frame::format`: two `write_all`s (the second only if there is an
extended length). -/
def Frame.format (f : Frame) (to : Sink) : Bool × Sink :=
  match to.writeAll [f.byteOne, formatLength f.decoded.length] with
  | (false, s) => (false, s)
  | (true, s) =>
    if 126 ≤ f.decoded.length then s.writeAll (extLength f.decoded.length) else (true, s)

/-- puck/src/ws/send.rs:12-17 `send_frame` (file lines 12-17); `true` is `Ok(())`, `false` is
`Err(SendFrameError::IoError)`. -/
def sendFrame (f : Frame) (to : Sink) : Bool × Sink :=
  match f.format to with
  | (false, s) => (false, s)
  | (true, s) => s.writeAll f.decoded

/-- puck/src/ws/message.rs:10-21 `Message`. -/
inductive Message where
  | ping (payload : Option Bytes)
  | pong (payload : Option Bytes)
  | text (s : String)
  | binary (b : Bytes)
  deriving DecidableEq

/-- puck/src/ws/frame.rs:203-223 `From<Message> for Frame`. -/
def Frame.ofMessage (m : Message) : Frame :=
  { fin := true, rsv1 := false, rsv2 := false, rsv3 := false
    opCode := match m with
      | .ping _ => .ping
      | .pong _ => .pong
      | .text _ => .text
      | .binary _ => .binary
    decoded := match m with
      | .text s => strBytes s
      | .binary b => b
      | .ping p => p.getD []
      | .pong p => p.getD [] }

/-- puck/src/ws/send.rs:8-10 `send`. -/
def send (m : Message) (to : Sink) : Bool × Sink := sendFrame (Frame.ofMessage m) to

end Puck
