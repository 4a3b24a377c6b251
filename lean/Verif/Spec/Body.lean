import Verif.Model.Body
import Verif.Spec.Source
/-!
# Specification vocabulary for bodies
-/
namespace Puck

/-- Every byte a reader will ever deliver (errors do not consume bytes). -/
def Src.bytes : Src → Bytes
  | .cursor b => b
  | .buf _ r => r.buf ++ r.raw.bytes
  | .other r => r.bytes

/-- The bytes still to be read from a body: those of its reader, cut at the declared length. -/
def Body.avail (b : Body) : Bytes :=
  match b.length with
  | none => b.reader.avail
  | some len => b.reader.avail.take (len - b.bytesRead)

/-- Reading the body to the end hits an I/O error: one is pending and comes before the declared end. -/
def Body.Fails (b : Body) : Prop :=
  ¬ b.reader.Clean ∧
    match b.length with
    | none => True
    | some len => b.reader.avail.length < len - b.bytesRead

/-- A body as the constructors make them, or as reading leaves them. -/
def Body.WF (b : Body) : Prop :=
  b.reader.WF ∧ ∀ len, b.length = some len → b.bytesRead ≤ len

end Puck
