import Verif.Model.Client
import Verif.Spec.SafeDiff
/-!
# Specification: what a browser shows
-/
namespace Puck

/-- The text nodes for an element's text. -/
def textNodes : Option String → List Dom
  | none => []
  | some s => if s = "" then [] else [.text s]

mutual
/-- The DOM node shows the element: its tag, its attributes plus its id, its listeners, its text followed by its
children in order, and nothing else. -/
def Element.ShownAs : Element → Dom → Prop
  | ⟨id, name, attributes, listeners, children, text, _⟩, d =>
    ∃ attrs kids, d = .elem name attrs listeners (textNodes text ++ kids) ∧
      (∀ k, attrs.get k = if k = "id" then some (toString id) else attributes.get k) ∧
      ShownAsAll children kids
/-- Pointwise. -/
def ShownAsAll : List Element → List Dom → Prop
  | [], ds => ds = []
  | e :: es, ds => ∃ d ds', ds = d :: ds' ∧ e.ShownAs d ∧ ShownAsAll es ds'
end

mutual
/-- The ids of a DOM tree. -/
def Dom.ids : Dom → List String
  | .text _ => []
  | .elem _ attrs _ children => (match attrs.get "id" with | some i => [i] | none => []) ++ domIds children
/-- The ids of a list of DOM trees. -/
def domIds : List Dom → List String
  | [] => []
  | d :: ds => d.ids ++ domIds ds
end

/-- The page has no element whose id is a number. -/
def PageOk (page : List Dom) : Prop := ∀ n : Nat, toString n ∉ domIds page

/-- Processing a message without an exception. -/
def clientAll (B : Browser) : List WireOp → List Dom → Option (List Dom)
  | [], body => some body
  | w :: ws, body =>
    match clientOp B w body with
    | none => none
    | some body' => clientAll B ws body'

/-- Without capital letters (ASCII). -/
def NoCapitals (s : String) : Prop := ∀ c ∈ s.toList, c ∉ "ABCDEFGHIJKLMNOPQRSTUVWXYZ".toList

instance (s : String) : Decidable (NoCapitals s) := by unfold NoCapitals; infer_instance

/-- Names and values that reach the browser unchanged: none contains `+` (the separator of the wire format);
tags and attribute names are accepted by the browser and in lower case; no attribute is called `id`. -/
def clientRules (B : Browser) : Rules where
  tag n := '+' ∉ n.toList ∧ B.validTag n = true ∧ NoCapitals n
  attr k v := '+' ∉ k.toList ∧ '+' ∉ v.toList ∧ B.validAttr k = true ∧ NoCapitals k ∧ k ≠ "id"
  lis l := '+' ∉ l.listenerName.toList ∧ '+' ∉ l.jsEvent.toList
  strict := True

/-- An element of a view and the elements around it, innermost first. -/
inductive Within : Element → List Element → Prop
  | here (e : Element) : Within e [e]
  | inside {e c : Element} {path : List Element} : c ∈ e.children → Within c path → Within e (path ++ [e])

end Puck
