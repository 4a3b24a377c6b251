import Verif.Spec.Tree
/-!
# Specification: which changes between two views of the same structure a browser can follow
-/
namespace Puck

mutual
/-- The elements of the two trees at the same position, in document order. -/
def pairs (a : Element) : Element → List (Element × Element)
  | ⟨bid, bname, battributes, blisteners, bchildren, btext, bkey⟩ =>
    (a, ⟨bid, bname, battributes, blisteners, bchildren, btext, bkey⟩) :: pairsAll a.children bchildren
/-- Children, paired by position. -/
def pairsAll (as : List Element) : List Element → List (Element × Element)
  | [] => []
  | b :: bs =>
    match as with
    | [] => []
    | a :: as => pairs a b ++ pairsAll as bs
end

/-- The text does not change; or it changes on an element without children, and is not taken away; or an empty text is
taken away. -/
def TextFollows (a b : Element) : Prop :=
  a.text = b.text ∨ (a.children = [] ∧ b.text ≠ none) ∨ (a.text = some "" ∧ b.text = none)

/-- At every position the text change can be followed, and below an element whose listeners change every
element which keeps its listeners has none. -/
def InStep (a b : Element) : Prop :=
  ∀ p ∈ pairs a b, TextFollows p.1 p.2 ∧
    (p.1.listeners ≠ p.2.listeners → ∀ q ∈ pairsAll p.1.children p.2.children, q.1.listeners = q.2.listeners → q.2.listeners = [])

end Puck
