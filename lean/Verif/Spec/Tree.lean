import Verif.Model.Element
/-!
# Specification: trees of elements

Only the data types are shared with the model.
-/
namespace Puck

mutual
/-- The ids of a tree in document order. -/
def Element.ids : Element → List Nat
  | ⟨id, _, _, _, children, _, _⟩ => id :: idsOf children
/-- The ids of a forest in document order. -/
def idsOf : List Element → List Nat
  | [] => []
  | c :: cs => c.ids ++ idsOf cs
end

mutual
/-- Two trees are the same view: equal in everything, attribute maps being compared as maps (any order). -/
def Element.Same : Element → Element → Prop
  | ⟨id, name, attributes, listeners, children, text, key⟩, b =>
    id = b.id ∧ name = b.name ∧ (∀ k, attributes.get k = b.attributes.get k) ∧ listeners = b.listeners ∧
    text = b.text ∧ key = b.key ∧ SameList children b.children
/-- Pointwise. -/
def SameList : List Element → List Element → Prop
  | [], bs => bs = []
  | a :: as, bs => ∃ b bs', bs = b :: bs' ∧ a.Same b ∧ SameList as bs'
end

mutual
/-- Every attribute map of the tree is a map (distinct keys). -/
def Element.AttrsOk : Element → Prop
  | ⟨_, _, attributes, _, children, _, _⟩ => attributes.Distinct ∧ AttrsOkAll children
/-- Every tree of the forest. -/
def AttrsOkAll : List Element → Prop
  | [] => True
  | c :: cs => c.AttrsOk ∧ AttrsOkAll cs
end

mutual
/-- No element of the tree has a key (true of everything `into_element` makes). -/
def Element.Unkeyed : Element → Prop
  | ⟨_, _, _, _, children, _, key⟩ => key = none ∧ UnkeyedAll children
/-- Every tree of the forest. -/
def UnkeyedAll : List Element → Prop
  | [] => True
  | c :: cs => c.Unkeyed ∧ UnkeyedAll cs
end

mutual
/-- No two siblings have the same key. -/
def Element.KeysOk : Element → Prop
  | ⟨_, _, _, _, children, _, _⟩ => (children.filterMap fun c => c.key).Nodup ∧ KeysOkAll children
/-- Every tree of the forest. -/
def KeysOkAll : List Element → Prop
  | [] => True
  | c :: cs => c.KeysOk ∧ KeysOkAll cs
end

/-- `m` is the first of the siblings `ms` whose key is `k`. -/
def FirstKeyed (ms : List Element) (k : Option String) (m : Element) : Prop :=
  ∃ l r, ms = l ++ m :: r ∧ m.key = k ∧ ∀ x ∈ l, x.key ≠ k

/-- Every sibling has a key. -/
def AllKeyed (ms : List Element) : Prop := ∀ m ∈ ms, m.key ≠ none

/-- When comparing two views crashes: somewhere in positions that are compared with each other, both nodes have
only keyed children, and the new one has a single child, whose key is new. -/
inductive DiffCrash : Element → Element → Prop
  | here (a b t : Element) : AllKeyed a.children → AllKeyed b.children → b.children = [t] →
      (∀ m ∈ a.children, m.key ≠ t.key) → DiffCrash a b
  | keyed (a b m t : Element) : AllKeyed a.children → AllKeyed b.children → t ∈ b.children → FirstKeyed a.children t.key m →
      DiffCrash m t → DiffCrash a b
  | positional (a b m t : Element) (i : Nat) : ¬ (AllKeyed a.children ∧ AllKeyed b.children) → a.children[i]? = some m →
      b.children[i]? = some t → DiffCrash m t → DiffCrash a b

mutual
/-- Nodes at the same position have the same id. -/
def Aligned (a : Element) : Element → Prop
  | ⟨bid, _, _, _, bchildren, _, _⟩ => a.id = bid ∧ AlignedZip a.children bchildren
/-- Children, paired by position. -/
def AlignedZip (as : List Element) : List Element → Prop
  | [] => True
  | b :: bs =>
    match as with
    | [] => True
    | a :: as => Aligned a b ∧ AlignedZip as bs
end

mutual
/-- The two trees have the same shape: as many children everywhere. -/
def SameShape (a : Element) : Element → Prop
  | ⟨_, _, _, _, bchildren, _, _⟩ => SameShapeAll a.children bchildren
/-- Pointwise. -/
def SameShapeAll (as : List Element) : List Element → Prop
  | [] => as = []
  | b :: bs =>
    match as with
    | [] => False
    | a :: as => SameShape a b ∧ SameShapeAll as bs
end

mutual
/-- At every position of the new tree: the id has not grown, nothing is created, and tag and listeners are
unchanged unless the id is. -/
def Shrinks (a : Element) : Element → Prop
  | ⟨bid, bname, _, blisteners, bchildren, _, _⟩ =>
    bid ≤ a.id ∧ (a.name = bname ∨ a.id = bid) ∧ (a.listeners = blisteners ∨ a.id = bid ∨ blisteners = []) ∧
    ShrinksZip a.children bchildren
/-- Children, paired by position. -/
def ShrinksZip (as : List Element) : List Element → Prop
  | [] => True
  | b :: bs =>
    match as with
    | [] => False
    | a :: as => Shrinks a b ∧ ShrinksZip as bs
end

/-! ## The views a user describes -/

/-- The HTML tag a node stands for. -/
def BodyNode.htmlTag : BodyNode → String
  | .h1 _ => "h1" | .h2 _ => "h2" | .h3 _ => "h3" | .h4 _ => "h4" | .h5 _ => "h5" | .h6 _ => "h6"
  | .p _ => "p" | .form _ => "form" | .br => "br" | .div _ => "div" | .a _ => "a" | .input _ => "input"
  | .label _ => "label" | .select _ => "select" | .noscript _ => "noscript" | .text _ => "" | .img _ => "img"

/-- Its attributes. -/
def BodyNode.htmlAttrs : BodyNode → Headers
  | .h1 f | .h2 f | .h3 f | .h4 f | .h5 f | .h6 f | .p f | .a f | .label f => f.attrs
  | .form attrs | .div attrs | .input attrs | .select attrs | .img attrs => attrs
  | .br | .noscript _ | .text _ => []

/-- Its text. -/
def BodyNode.htmlText : BodyNode → Option String
  | .h1 f | .h2 f | .h3 f | .h4 f | .h5 f | .h6 f | .p f | .a f | .label f => some f.text
  | .noscript t | .text t => some t
  | .form _ | .div _ | .input _ | .select _ | .img _ | .br => none

/-- Whether children given to the node with `.child` are kept. -/
def BodyNode.container : BodyNode → Bool
  | .p _ | .form _ | .div _ | .input _ | .select _ => true
  | _ => false

/-- A bare text node. -/
def BodyNode.isText : BodyNode → Bool
  | .text _ => true
  | _ => false

/-- Nodes whose tag and listeners are lost in the conversion. -/
def BodyNode.lossy : BodyNode → Bool
  | .select _ | .noscript _ | .br => true
  | _ => false

mutual
/-- The view contains a bare text node at a place where it would be shown. -/
def WrappedBodyNode.showsText : WrappedBodyNode → Bool
  | ⟨node, _, children⟩ => node.isText || (node.container && anyShowsText children)
/-- One of the views does. -/
def anyShowsText : List WrappedBodyNode → Bool
  | [] => false
  | c :: cs => c.showsText || anyShowsText cs
end

mutual
/-- The element shows the view: same tag, attributes, text and listeners (except as said by the two
functions `tag` and `ls`), its children kept if it is a container and discarded otherwise; no keys. -/
def WrappedBodyNode.ShownBy (tag : BodyNode → String) (ls : BodyNode → List ListenerRef → List ListenerRef) :
    WrappedBodyNode → Element → Prop
  | ⟨node, listeners, children⟩, e =>
    e.name = tag node ∧ e.attributes = node.htmlAttrs ∧ e.text = node.htmlText ∧ e.listeners = ls node listeners ∧
    e.key = none ∧ (node.container = true → ShownByAll tag ls children e.children) ∧
    (node.container = false → e.children = [])
/-- Pointwise. -/
def ShownByAll (tag : BodyNode → String) (ls : BodyNode → List ListenerRef → List ListenerRef) :
    List WrappedBodyNode → List Element → Prop
  | [], es => es = []
  | w :: ws, es => ∃ e es', es = e :: es' ∧ w.ShownBy tag ls e ∧ ShownByAll tag ls ws es'
end

mutual
/-- The elements of a tree. -/
def Element.nodes : Element → List Element
  | ⟨id, name, attributes, listeners, children, text, key⟩ => ⟨id, name, attributes, listeners, children, text, key⟩ :: nodesAll children
/-- The elements of a forest. -/
def nodesAll : List Element → List Element
  | [] => []
  | c :: cs => c.nodes ++ nodesAll cs
end

/-- `x`, an element of the old view `a`, and `y`, an element of the new view `b`, are at the same position (so they are compared). -/
inductive Compared (a b : Element) : Element → Element → Prop
  | root : Compared a b a b
  | child {x y x' y' : Element} (k : Nat) : Compared a b x y → x.children[k]? = some x' → y.children[k]? = some y' → Compared a b x' y'

/-- `K`, an element of the new view `b`, has no counterpart in the old view `a`, or an ancestor of it has none (so it is created). -/
def Created (a b K : Element) : Prop := ∃ u v c, Compared a b u v ∧ c ∈ v.children.drop u.children.length ∧ K ∈ c.nodes

/-- Nothing but a tag: no attributes, no listeners, no text, no children. -/
def Element.Empty (e : Element) : Prop := e.attributes = [] ∧ e.listeners = [] ∧ e.text = none ∧ e.children = []

/-- The pairs of views between which updates by id are not ambiguous: no element gets a larger id than it had; an element whose
id changes keeps its tag, and keeps its listeners or loses them all; an element created below `x` (that is, below its counterpart `y`)
under the id `x` has at that moment is nothing but a tag. -/
def Unambiguous (a b : Element) : Prop :=
  ∀ x y, Compared a b x y →
    y.id ≤ x.id ∧
    (y.id < x.id → x.name = y.name ∧ (x.listeners = y.listeners ∨ y.listeners = [])) ∧
    ∀ K, Created x y K → K.id = x.id → K.Empty

end Puck
