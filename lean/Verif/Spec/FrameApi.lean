import Verif.Model.Frame
import Verif.Spec.Stream
import Verif.Spec.Rfc6455
/-!
# How the RFC 6455 vocabulary corresponds to puck's API types
-/
namespace Puck
open Rfc6455

/-- The opcode the frame API reports for a nibble. -/
def opOf (n : Nat) : OpCode :=
  match kindOf n with
  | .continue => .continue
  | .text => .text
  | .binary => .binary
  | .close => .terminate
  | .ping => .ping
  | .pong => .pong
  | .reserved => .reserved

/-- The `Frame` value the API should return for a client frame. -/
def frameOf (f : ClientFrame) : Frame :=
  ⟨f.fin, f.rsv1, f.rsv2, f.rsv3, opOf f.nibble, f.payload⟩

/-- The network does not split the first two bytes, nor the four mask key bytes that follow a header
of `h` bytes, across two reads. -/
def Raw.Unsplit (raw : Raw) (h : Nat) : Prop :=
  ¬ raw.Boundary 1 ∧ ¬ raw.Boundary (h + 1) ∧ ¬ raw.Boundary (h + 2) ∧ ¬ raw.Boundary (h + 3)

end Puck

namespace Puck
open Rfc6455

/-- The bytes begin with an RFC 6455 encoding of the frame value: either a complete masked client
frame with a payload, or a header that announces an empty payload (masked or not). -/
def Encodes (bs : Bytes) (fr : Frame) : Prop :=
  (∃ f : ClientFrame, f.Valid ∧ f.payload ≠ [] ∧ f.encode <+: bs ∧ fr = frameOf f) ∨
  (∃ fin rsv1 rsv2 rsv3 nibble masked form, nibble < 16 ∧ Form.Carries form 0 ∧
    headBytes fin rsv1 rsv2 rsv3 nibble masked form 0 <+: bs ∧
    fr = ⟨fin, rsv1, rsv2, rsv3, opOf nibble, []⟩)

end Puck
