import Verif.Model.Io
/-!
# Specification vocabulary for streams
-/
namespace Puck

/-- The bytes that arrive before the first I/O error (all of them if there is none). -/
def Raw.avail : Raw → Bytes
  | [] => []
  | .fail :: _ => []
  | .data b :: r => b ++ Raw.avail r

/-- `k` bytes into the stream there is a boundary between two reads (the network split the byte
stream there). -/
def Raw.Boundary (raw : Raw) (k : Nat) : Prop :=
  0 < k ∧ ∃ a c, raw = a ++ c ∧ (Raw.bytes a).length = k

/-- The stream ends (rather than failing) after its available bytes. -/
def Raw.EndsClean (raw : Raw) : Prop := Raw.Clean raw

end Puck
