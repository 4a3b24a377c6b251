import Verif.Spec.InStep
import Verif.Spec.Page
/-!
# Specification: which changes between two views a browser can follow, whatever their structure
-/
namespace Puck

/-- Moving children into a new element with this tag, by `new.innerHTML = old.innerHTML`, makes copies of them (without listeners, as copies are).
Whether it does depends on the tag and on the children: the markup is parsed again. -/
def Browser.Copies (B : Browser) (tag : String) : Prop := ∀ cs, B.reparse tag cs = cloneAll cs

/-- At every position both views have: the id does not grow; if it gets smaller, the tag is the same and the listeners are the same or all gone; an
element created below under the id the old element had is nothing but a tag; the text does not change, or changes on an element without children and is
not taken away, or an empty text is taken away; if the listeners or the tag change, every position from here down has no listeners in the new view, or
others than in the old one. -/
def Followable (a b : Element) : Prop :=
  ∀ x y, Compared a b x y →
    y.id ≤ x.id ∧
    (y.id < x.id → x.name = y.name ∧ (x.listeners = y.listeners ∨ y.listeners = [])) ∧
    (∀ K, Created x y K → K.id = x.id → K.Empty) ∧
    TextFollows x y ∧
    (x.listeners ≠ y.listeners ∨ x.name ≠ y.name → ∀ x' y', Compared x y x' y' → x'.listeners = y'.listeners → y'.listeners = [])

end Puck
