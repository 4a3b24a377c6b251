import Verif.Model.Field
import Verif.Spec.Page
/-!
# Specification: what the fields of a page show
-/
namespace Puck

mutual
/-- The node shows the element (as `ShownAs`), and every field shows the text `τ` gives for the element's id, or else the value the element gives it. -/
def Element.FieldsAs (τ : Nat → Option String) : Element → LiveDom → Prop
  | ⟨id, name, attributes, listeners, children, text, _⟩, d =>
    ∃ attrs typed kids, d = .elem name attrs listeners typed (freshAll (textNodes text) ++ kids) ∧
      (∀ k, attrs.get k = if k = "id" then some (toString id) else attributes.get k) ∧
      fieldText attrs typed = (τ id).getD ((attributes.get "value").getD "") ∧
      FieldsAsAll τ children kids
/-- Pointwise. -/
def FieldsAsAll (τ : Nat → Option String) : List Element → List LiveDom → Prop
  | [], ds => ds = []
  | e :: es, ds => ∃ d ds', ds = d :: ds' ∧ e.FieldsAs τ d ∧ FieldsAsAll τ es ds'
end

/-- The messages among what happened, in order. -/
def messagesIn : List Happening → List (List WireOp)
  | [] => []
  | .message ops :: hs => ops :: messagesIn hs
  | .typed _ _ :: hs => messagesIn hs

/-- The text typed last into the field with this id, if any was; `before`: what had been typed before. -/
def lastTyped (before : Option String) (id : Nat) : List Happening → Option String
  | [] => before
  | .message _ :: hs => lastTyped before id hs
  | .typed id' v :: hs => lastTyped (if id' = id then some v else before) id hs

end Puck
