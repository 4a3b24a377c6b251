import Verif.Model.Router
import Verif.Spec.Decimal
/-!
# Specification: matching URL paths segment by segment

Only the type of patterns is shared with the model.
-/
namespace Puck

/-- The path `/a/b/c` with the given segments. -/
def joinPath (parts : List String) : String := String.join (parts.map fun p => "/" ++ p)

/-- A segment of a path matches a segment of a pattern. -/
inductive SegMatch : Segment → String → Prop
  | static (s : String) : SegMatch (.static s) s
  | param (s : String) : SegMatch .param s
  | int (s : String) (n : Int) : Decimal.Denotes (strBytes s) n → -2 ^ 31 ≤ n → n < 2 ^ 31 → SegMatch .intParam s

end Puck
