import Verif.Spec.FrameApi
/-!
# Specification: messages made of frames (RFC 6455 5.4 - 5.6)
-/
namespace Puck
open Rfc6455

/-- A data or control kind with a complete payload means this message.  Text must be the string whose
UTF-8 encoding is the payload; an empty ping/pong carries `None`.  No other kind means a message. -/
inductive Means : Kind → Bytes → Message → Prop
  | text (s : String) : Means .text (strBytes s) (.text s)
  | binary (b : Bytes) : Means .binary b (.binary b)
  | pingEmpty : Means .ping [] (.ping none)
  | ping (b : Bytes) : b ≠ [] → Means .ping b (.ping (some b))
  | pongEmpty : Means .pong [] (.pong none)
  | pong (b : Bytes) : b ≠ [] → Means .pong b (.pong (some b))

/-- Continuation frames up to and including the final one. -/
def Continues : List ClientFrame → Prop
  | [] => False
  | f :: fs => f.nibble = 0 ∧ (f.fin = true ∧ fs = [] ∨ f.fin = false ∧ Continues fs)

/-- The frames of one (possibly fragmented) message of kind `k`. -/
def IsMessage (k : Kind) : List ClientFrame → Prop
  | [] => False
  | f :: fs => kindOf f.nibble = k ∧ (f.fin = true ∧ fs = [] ∨ f.fin = false ∧ Continues fs)

/-- The first frames of a message of kind `k` that is not finished yet. -/
def Unfinished (k : Kind) : List ClientFrame → Prop
  | [] => False
  | f :: fs => kindOf f.nibble = k ∧ f.fin = false ∧ ∀ g ∈ fs, g.nibble = 0 ∧ g.fin = false

/-- The payload of a message is the concatenation of the payloads of its frames. -/
def payloads (fs : List ClientFrame) : Bytes := (fs.map ClientFrame.payload).flatten

/-- A message as a client encodes it in one frame: opcode nibble and payload. -/
def clientNibble : Message → Nat
  | .text _ => 1
  | .binary _ => 2
  | .ping _ => 9
  | .pong _ => 10

def clientPayload : Message → Bytes
  | .text s => strBytes s
  | .binary b => b
  | .ping (some p) => p
  | .pong (some p) => p
  | .ping none => []
  | .pong none => []

/-- "No payload" and "empty payload" are the same thing on the wire. -/
def normalise : Message → Message
  | .ping (some []) => .ping none
  | .pong (some []) => .pong none
  | m => m

end Puck
