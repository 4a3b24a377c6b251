import Verif.Model.Source
import Verif.Spec.Stream
/-!
# Specification vocabulary for readers: what a reader still has to give
-/
namespace Puck

/-- The bytes a reader delivers before its first I/O error (all it has, if there is none). -/
def Src.avail : Src → Bytes
  | .cursor b => b
  | .buf _ r => r.buf ++ r.raw.avail
  | .other r => r.avail

/-- No I/O error is pending. -/
def Src.Clean : Src → Prop
  | .cursor _ => True
  | .buf _ r => r.raw.Clean
  | .other r => r.Clean

/-- A legal reader: its blocks are not empty (an empty read means end of file) and a `BufReader` has a
non-empty buffer. -/
def Src.WF : Src → Prop
  | .cursor _ => True
  | .buf cap r => 0 < cap ∧ r.raw.WF
  | .other r => r.WF

end Puck
