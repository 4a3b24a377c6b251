import Verif.Model.Client
/-!
# Specification: two pages that cannot be told apart
-/
namespace Puck

mutual
/-- The two nodes are the same up to the order in which attributes were set: same tag, same value of every attribute, same listeners in the same order, same contents. -/
def Dom.Same : Dom → Dom → Prop
  | .text s, d => d = .text s
  | .elem tag attrs listeners children, d =>
    ∃ attrs' children', d = .elem tag attrs' listeners children' ∧ (∀ k, attrs.get k = attrs'.get k) ∧ SameDoms children children'
/-- Pointwise. -/
def SameDoms : List Dom → List Dom → Prop
  | [], ds => ds = []
  | d :: ds, es => ∃ e es', es = e :: es' ∧ d.Same e ∧ SameDoms ds es'
end

end Puck
