import Verif.Spec.Tree
/-!
# Specification: pairs of views between which positional updates are unambiguous

`before` is the list of ids that come earlier in the document when a node is updated: those of its ancestors
(still the old ones) and those of the siblings to its left and of its ancestors' (already the new ones).
-/
namespace Puck

/-- What a consumer of changesets can cope with.  `strict` adds the restrictions of the browser client. -/
structure Rules where
  tag : String → Prop
  attr : String → String → Prop
  lis : ListenerRef → Prop
  strict : Prop

/-- No restriction. -/
def Rules.none : Rules := ⟨fun _ => True, fun _ _ => True, fun _ => True, False⟩

mutual
/-- Every tag, attribute and listener of the tree is acceptable. -/
def Element.Obeys (R : Rules) : Element → Prop
  | ⟨_, name, attributes, listeners, children, _, _⟩ =>
    R.tag name ∧ (∀ p ∈ attributes, R.attr p.1 p.2) ∧ (∀ l ∈ listeners, R.lis l) ∧ ObeysAll R children
/-- Every tree of the forest. -/
def ObeysAll (R : Rules) : List Element → Prop
  | [] => True
  | c :: cs => c.Obeys R ∧ ObeysAll R cs
end

mutual
/-- No element of the tree has a listener. -/
def Element.Silent : Element → Prop
  | ⟨_, _, _, listeners, children, _, _⟩ => listeners = [] ∧ SilentAll children
/-- Every tree of the forest. -/
def SilentAll : List Element → Prop
  | [] => True
  | c :: cs => c.Silent ∧ SilentAll cs
end

mutual
/-- Keys do not get in the way: nodes at the same position have the same key; where all children on both sides
are keyed, they have the same distinct keys in the same order (or there are no new children); created elements
have no keys.  True of all pairs of trees without keys. -/
def KeyFit (a : Element) : Element → Prop
  | ⟨_, _, _, _, bchildren, _, bkey⟩ =>
    a.key = bkey ∧
    (AllKeyed a.children → AllKeyed bchildren → bchildren = [] ∨
      ((a.children.map fun c => c.key) = (bchildren.map fun c => c.key) ∧ (a.children.map fun c => c.key).Nodup)) ∧
    KeyFitZip a.children bchildren
/-- Children, paired by position. -/
def KeyFitZip (as : List Element) : List Element → Prop
  | [] => True
  | b :: bs =>
    match as with
    | [] => UnkeyedAll (b :: bs)
    | a :: as => KeyFit a b ∧ KeyFitZip as bs
end

/-- One node of the old view against the node of the new view at the same position:
* its id is not the id of anything earlier in the document;
* if its tag changes, its id does not (strict: and it has no children and no text, and its listeners, if any, change as well);
* strict: if its text changes, it has no children, and text is not taken away;
* if its listeners change to a non-empty list, its id does not (strict: and nothing below it has listeners);
* children to be deleted have ids that occur nowhere earlier, and so have elements to be created below it, unless they are nothing but a tag. -/
def NodeSafe (R : Rules) (before : List Nat) (a b : Element) : Prop :=
  a.id ∉ before ∧
  (a.name = b.name ∨ (a.id = b.id ∧ (R.strict → a.children = [] ∧ (a.listeners = [] ∨ a.listeners ≠ b.listeners) ∧ (a.text = .none ∨ a.text = some "")))) ∧
  (R.strict → a.text = b.text ∨ (a.children = [] ∧ b.text ≠ .none) ∨ (a.text = some "" ∧ b.text = .none)) ∧
  (a.listeners = b.listeners ∨ ((a.id = b.id ∨ b.listeners = []) ∧ (R.strict → SilentAll a.children))) ∧
  (∀ c ∈ a.children.drop b.children.length, c.id ∉ a.id :: before) ∧
  (∀ K ∈ nodesAll (b.children.drop a.children.length), K.id ∈ a.id :: before → K.Empty)

mutual
/-- At every compared position: the tag changes only on an element without children and text whose listeners, if any, change as well; the text
changes only on an element without children, and is not taken away; the listeners change only on an element with
no listeners below it. -/
def Gentle (a : Element) : Element → Prop
  | ⟨_, bname, _, blisteners, bchildren, btext, _⟩ =>
    (a.name = bname ∨ (a.children = [] ∧ (a.listeners = [] ∨ a.listeners ≠ blisteners) ∧ (a.text = .none ∨ a.text = some ""))) ∧
    (a.text = btext ∨ (a.children = [] ∧ btext ≠ .none) ∨ (a.text = some "" ∧ btext = .none)) ∧
    (a.listeners = blisteners ∨ SilentAll a.children) ∧
    GentleZip a.children bchildren
/-- Children, paired by position. -/
def GentleZip (as : List Element) : List Element → Prop
  | [] => True
  | b :: bs =>
    match as with
    | [] => True
    | a :: as => Gentle a b ∧ GentleZip as bs
end

mutual
/-- Every pair of nodes at the same position is safe. -/
def Safe (R : Rules) (before : List Nat) (a : Element) : Element → Prop
  | ⟨bid, bname, battributes, blisteners, bchildren, btext, bkey⟩ =>
    NodeSafe R before a ⟨bid, bname, battributes, blisteners, bchildren, btext, bkey⟩ ∧
    SafeZip R (a.id :: before) a.children bchildren
/-- Children, paired by position. -/
def SafeZip (R : Rules) (before : List Nat) (as : List Element) : List Element → Prop
  | [] => True
  | b :: bs =>
    match as with
    | [] => True
    | a :: as => Safe R before a b ∧ SafeZip R (before ++ b.ids) as bs
end

end Puck
