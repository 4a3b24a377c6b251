import Verif.Spec.Changes
/-!
# Specification: the instructions of any changeset, with and without keys
-/
namespace Puck

/-- The children of the two elements are compared by key: all of them have one. -/
def ByKey (x y : Element) : Prop := AllKeyed x.children ∧ AllKeyed y.children

/-- The pairs of an old and a new element which comparing `a` with `b` compares: by key where all children have one, by position otherwise. -/
inductive Matched : Element → Element → Element → Element → Prop
  | top (a b : Element) : Matched a b a b
  | keyed {a b m t x y : Element} : ByKey a b → t ∈ b.children → FirstKeyed a.children t.key m → Matched m t x y → Matched a b x y
  | positional {a b m t x y : Element} (i : Nat) : ¬ ByKey a b → a.children[i]? = some m → b.children[i]? = some t → Matched m t x y → Matched a b x y

/-- The child of `y` at position `i` is `t`, and no child of `x` has its key. -/
def NewAt (x y : Element) (i : Nat) (t : Element) : Prop := y.children[i]? = some t ∧ ∀ m ∈ x.children, m.key ≠ t.key

/-- How many such children there are. -/
def newCount (x y : Element) : Nat := (y.children.filter fun t => x.children.all fun m => m.key != t.key).length

/-- The instructions that comparing the elements `x` and `y` leads to, apart from those for further elements that are compared. -/
inductive LeadsTo (x y : Element) : Op → Prop
  /-- another tag -/
  | tag : x.name ≠ y.name → LeadsTo x y ⟨y.id, .setTagName y.name⟩
  /-- an attribute has (got) another value -/
  | attr {k v : String} : y.attributes.get k = some v → x.attributes.get k ≠ some v → LeadsTo x y ⟨x.id, .setAttribute k v⟩
  /-- an attribute is gone -/
  | noAttr {k : String} : x.attributes.get k ≠ none → y.attributes.get k = none → LeadsTo x y ⟨x.id, .removeAttribute k⟩
  /-- another text -/
  | text {v : String} : y.text = some v → x.text ≠ some v → LeadsTo x y ⟨x.id, .setText v⟩
  /-- the text is gone -/
  | noText : x.text ≠ none → y.text = none → LeadsTo x y ⟨x.id, .removeText⟩
  /-- other listeners: the old ones are removed ... -/
  | oldListeners : x.listeners ≠ y.listeners → LeadsTo x y ⟨x.id, .removeListeners⟩
  /-- ... and the new ones attached -/
  | newListener {l : ListenerRef} : x.listeners ≠ y.listeners → l ∈ y.listeners → LeadsTo x y ⟨y.id, .attachListener l.listenerName l.jsEvent⟩
  /-- another id -/
  | id : x.id ≠ y.id → LeadsTo x y ⟨x.id, .setId y.id⟩
  /-- compared by position: a child beyond the last of the new ones -/
  | gone {c : Element} : ¬ ByKey x y → c ∈ x.children.drop y.children.length → LeadsTo x y ⟨c.id, .deleteEl⟩
  /-- compared by position: an element that is created, because it is or is in a child beyond the last of the old ones -/
  | created {c K : Element} {q : Nat} : ¬ ByKey x y → c ∈ y.children.drop x.children.length → CreatedAt x.id c q K →
      LeadsTo x y ⟨K.id, .createTag K.name (some q)⟩
  /-- what such an element has -/
  | fills {c K : Element} {q : Nat} {op : Op} : ¬ ByKey x y → c ∈ y.children.drop x.children.length → CreatedAt x.id c q K → Fills K op →
      LeadsTo x y op
  /-- compared by key: a child whose key is gone -/
  | goneKey {c : Element} : ByKey x y → c ∈ x.children → (∀ t ∈ y.children, t.key ≠ c.key) → LeadsTo x y ⟨c.id, .deleteEl⟩
  /-- compared by key: a new first child is inserted before the second one -/
  | insertFirst {t n : Element} : ByKey x y → NewAt x y 0 t → y.children[1]? = some n → LeadsTo x y ⟨t.id, .insertBefore n.id⟩
  /-- a new child whose position is the number of new children is inserted after itself -/
  | insertAfter {i : Nat} {t : Element} : ByKey x y → NewAt x y i t → 0 < i → i = newCount x y → LeadsTo x y ⟨t.id, .insertAfter t.id⟩
  /-- every other one is inserted before the one it follows -/
  | insertBefore {i : Nat} {t n : Element} : ByKey x y → NewAt x y i t → 0 < i → i ≠ newCount x y → y.children[i - 1]? = some n →
      LeadsTo x y ⟨t.id, .insertBefore n.id⟩

/-- Carrying out the instruction for the child at position `i` puts it where it is among the children: before the one that follows it, or after the one
it follows. -/
def RightPlace (children : List Element) (i : Nat) : Instruction → Prop
  | .insertBefore n => ∃ s, children[i + 1]? = some s ∧ s.id = n
  | .insertAfter n => 0 < i ∧ ∃ s, children[i - 1]? = some s ∧ s.id = n
  | _ => False

end Puck
