import Verif.Model.Navigate
import Verif.Spec.Page
/-!
# Specification: views whose elements do not lead away from the page
-/
namespace Puck

/-- The attributes an element has on the page: its own and its id. -/
def Element.shownAttr (e : Element) (k : String) : Option String := if k = "id" then some (toString e.id) else e.attributes.get k

/-- A link: `a` or `area` with an address. -/
def Element.Link (e : Element) : Prop := (e.name = "a" ∨ e.name = "area") ∧ ∃ v, e.shownAttr "href" = some v

/-- A submit button: not disabled, and a `button` that is not of type reset or button, or an `input` of type submit or image. -/
def Element.SubmitButton (e : Element) : Prop :=
  e.shownAttr "disabled" = none ∧
  ((e.name = "button" ∧ ∀ t, e.shownAttr "type" = some t → asciiLower t ≠ "reset" ∧ asciiLower t ≠ "button") ∨
   (e.name = "input" ∧ ∃ t, e.shownAttr "type" = some t ∧ (asciiLower t = "submit" ∨ asciiLower t = "image")))

/-- Nothing in the view leads away: no link, and no submit button or field in a form that does. -/
def Element.Keeps (A : Away) (e : Element) : Prop :=
  (∀ l around, Within e (l :: around) → l.Link → A.link l.shownAttr = false) ∧
  ∀ b between f around, Within e (b :: between ++ f :: around) → (b.SubmitButton ∨ b.name = "input") → f.name = "form" →
    (∀ x ∈ between, x.name ≠ "form") → A.form f.shownAttr = false

end Puck
