import Verif.Model.Diff
import Verif.Spec.Tree
/-!
# Specification: which instructions a change of view calls for
-/
namespace Puck

/-- `K` is created as a child of the element with id `p`: it is the child of an element `x` that stays (under its old id), at a position `x` had no child at,
or the child of an element that is created. -/
inductive CreatedIn (a b : Element) : Nat → Element → Prop
  | top {x y K : Element} : Compared a b x y → K ∈ y.children.drop x.children.length → CreatedIn a b x.id K
  | inner {p : Nat} {P K : Element} : CreatedIn a b p P → K ∈ P.children → CreatedIn a b P.id K

/-- The instructions the change from view `a` to view `b` calls for.  `x` and `y` are always an old and a new element at the same position. -/
inductive CalledFor (a b : Element) : Op → Prop
  /-- another tag -/
  | tag {x y : Element} : Compared a b x y → x.name ≠ y.name → CalledFor a b ⟨y.id, .setTagName y.name⟩
  /-- an attribute has (got) another value -/
  | attr {x y : Element} {k v : String} : Compared a b x y → y.attributes.get k = some v → x.attributes.get k ≠ some v →
      CalledFor a b ⟨x.id, .setAttribute k v⟩
  /-- an attribute is gone -/
  | noAttr {x y : Element} {k : String} : Compared a b x y → x.attributes.get k ≠ none → y.attributes.get k = none →
      CalledFor a b ⟨x.id, .removeAttribute k⟩
  /-- another text -/
  | text {x y : Element} {v : String} : Compared a b x y → y.text = some v → x.text ≠ some v → CalledFor a b ⟨x.id, .setText v⟩
  /-- the text is gone -/
  | noText {x y : Element} : Compared a b x y → x.text ≠ none → y.text = none → CalledFor a b ⟨x.id, .removeText⟩
  /-- other listeners: the old ones are removed ... -/
  | oldListeners {x y : Element} : Compared a b x y → x.listeners ≠ y.listeners → CalledFor a b ⟨x.id, .removeListeners⟩
  /-- ... and the new ones attached -/
  | newListener {x y : Element} {l : ListenerRef} : Compared a b x y → x.listeners ≠ y.listeners → l ∈ y.listeners →
      CalledFor a b ⟨y.id, .attachListener l.listenerName l.jsEvent⟩
  /-- another id -/
  | id {x y : Element} : Compared a b x y → x.id ≠ y.id → CalledFor a b ⟨x.id, .setId y.id⟩
  /-- there is no element any more where the child `c` of `x` was -/
  | gone {x y c : Element} : Compared a b x y → c ∈ x.children.drop y.children.length → CalledFor a b ⟨c.id, .deleteEl⟩
  /-- a new element -/
  | created {p : Nat} {K : Element} : CreatedIn a b p K → CalledFor a b ⟨K.id, .createTag K.name (some p)⟩
  /-- its attributes -/
  | createdAttr {p : Nat} {K : Element} {k v : String} : CreatedIn a b p K → K.attributes.get k = some v → CalledFor a b ⟨K.id, .setAttribute k v⟩
  /-- its listeners -/
  | createdListener {p : Nat} {K : Element} {l : ListenerRef} : CreatedIn a b p K → l ∈ K.listeners →
      CalledFor a b ⟨K.id, .attachListener l.listenerName l.jsEvent⟩
  /-- its text -/
  | createdText {p : Nat} {K : Element} {v : String} : CreatedIn a b p K → K.text = some v → CalledFor a b ⟨K.id, .setText v⟩

/-- The instructions a created element calls for. -/
inductive Fills (K : Element) : Op → Prop
  | attr {k v : String} : K.attributes.get k = some v → Fills K ⟨K.id, .setAttribute k v⟩
  | listener {l : ListenerRef} : l ∈ K.listeners → Fills K ⟨K.id, .attachListener l.listenerName l.jsEvent⟩
  | text {v : String} : K.text = some v → Fills K ⟨K.id, .setText v⟩

/-- `K` is `c`, created as a child of the element with id `p`, or below it (`q` is the id of the element it is created in). -/
inductive CreatedAt (p : Nat) (c : Element) : Nat → Element → Prop
  | top : CreatedAt p c p c
  | inner {q : Nat} {P K : Element} : CreatedAt p c q P → K ∈ P.children → CreatedAt p c P.id K

mutual
/-- The size of a view: two for each element, and one for each attribute and each listener. -/
def Element.size : Element → Nat
  | ⟨_, _, attributes, listeners, children, _, _⟩ => 2 + attributes.length + listeners.length + sizeAll children
/-- Of a list of views. -/
def sizeAll : List Element → Nat
  | [] => 0
  | c :: cs => c.size + sizeAll cs
end

end Puck
