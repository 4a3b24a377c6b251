import Verif.Spec.Path
/-!
# Specification: how two URL patterns are related

Only the type of patterns is shared with the model; matching a single segment is `SegMatch` (`Spec/Path`).
-/
namespace Puck

/-- The text is a 32-bit integer in decimal, with or without a sign. -/
def IsInteger (s : String) : Prop := ∃ n, Decimal.Denotes (strBytes s) n ∧ -2 ^ 31 ≤ n ∧ n < 2 ^ 31

/-- There is a path the pattern accepts: it has a segment, and no fixed segment has a slash in it. -/
def Matchable (p : List Segment) : Prop := p ≠ [] ∧ ∀ s, .static s ∈ p → '/' ∉ s.toList

/-- The two lists have the same length and are related segment by segment. -/
def SegwiseRel (R : Segment → Segment → Prop) : List Segment → List Segment → Prop
  | [], [] => True
  | a :: p, b :: q => R a b ∧ SegwiseRel R p q
  | _, _ => False

/-- The two segments have something in common: two fixed texts if they are equal, a fixed text and an integer if the text is one, and otherwise always. -/
def SegCompatible : Segment → Segment → Prop
  | .static s, .static t => s = t
  | .static s, .intParam => IsInteger s
  | .intParam, .static s => IsInteger s
  | _, _ => True

/-- The first segment accepts everything the second one does. -/
def SegCovers : Segment → Segment → Prop
  | .param, _ => True
  | .intParam, .intParam => True
  | .intParam, .static s => IsInteger s
  | .static s, .static t => s = t
  | _, _ => False

/-- Some path is accepted by both patterns. -/
def Overlap (p q : List Segment) : Prop := Matchable p ∧ Matchable q ∧ SegwiseRel SegCompatible p q

/-- Every path accepted by `p` is accepted by `q`. -/
def CoveredBy (p q : List Segment) : Prop := SegwiseRel SegCovers q p

end Puck
