import Verif.Spec.Page
/-!
# Specification: what a page may consist of
-/
namespace Puck

/-- Which tags, which attributes with which values, and which listeners there may be.  Texts are not restricted. -/
structure Vocabulary where
  tag : String → Prop
  attr : String → String → Prop
  lis : ListenerRef → Prop

/-- A string up to its first `+`. -/
def beforePlus (s : String) : String := String.ofList (s.toList.takeWhile (· ≠ '+'))

/-- No name contains a `+` or a capital letter, and with a value of an attribute what is before its first `+` is allowed too (the browser cuts it off there). -/
structure Vocabulary.Plain (V : Vocabulary) : Prop where
  tag : ∀ t, V.tag t → '+' ∉ t.toList ∧ NoCapitals t
  attr : ∀ k v, V.attr k v → '+' ∉ k.toList ∧ NoCapitals k ∧ V.attr k (beforePlus v)
  lis : ∀ l, V.lis l → '+' ∉ l.listenerName.toList ∧ '+' ∉ l.jsEvent.toList

mutual
/-- A view made of nothing else, whatever its texts, ids and keys. -/
def Element.Uses (V : Vocabulary) : Element → Prop
  | ⟨_, name, attributes, listeners, children, _, _⟩ =>
    V.tag name ∧ (∀ p ∈ attributes, V.attr p.1 p.2) ∧ (∀ l ∈ listeners, V.lis l) ∧ UsesAll V children
/-- Siblings. -/
def UsesAll (V : Vocabulary) : List Element → Prop
  | [] => True
  | e :: es => e.Uses V ∧ UsesAll V es
end

mutual
/-- A tree in a page made of nothing else and the ids, which are numbers. -/
def Dom.Uses (V : Vocabulary) : Dom → Prop
  | .text _ => True
  | .elem tag attrs listeners children =>
    V.tag tag ∧ (∀ p ∈ attrs, V.attr p.1 p.2 ∨ ∃ n : Nat, p = ("id", toString n)) ∧ (∀ l ∈ listeners, V.lis l) ∧ DomUsesAll V children
/-- Siblings. -/
def DomUsesAll (V : Vocabulary) : List Dom → Prop
  | [] => True
  | d :: ds => d.Uses V ∧ DomUsesAll V ds
end

/-- Reading the markup of such trees back in (`new.innerHTML = old.innerHTML`) gives such trees.  Browsers escape texts and attribute values when they write
markup; this holds if the tags include those which the parser adds by itself and none whose contents are not escaped (`script`, `style`, `noscript`, ...). -/
def Browser.Keeps (B : Browser) (V : Vocabulary) : Prop := ∀ tag cs, V.tag tag → DomUsesAll V cs → DomUsesAll V (B.reparse tag cs)

end Puck
