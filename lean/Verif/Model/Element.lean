import Verif.Model.Text
/-!
# `puck_liveview/src/dom/element/mod.rs`, `dom/listener.rs`, `html/` : elements and their construction
-/
namespace Puck

/-- puck_liveview/src/dom/listener.rs:54-58 `ListenerRef`. -/
structure ListenerRef where
  listenerName : String
  jsEvent : String
  deriving DecidableEq, Repr

/-- puck_liveview/src/dom/element/mod.rs:12-23 `Element`.  `attributes` is a `HashMap`: an association list
with distinct keys (`Headers`), the order of the list being the iteration order of that map.  Theorems
quantify over every such list, hence over every iteration order. -/
structure Element where
  id : Nat
  name : String
  attributes : Headers
  listeners : List ListenerRef
  children : List Element
  text : Option String
  key : Option String

/-- puck_liveview/src/dom/element/mod.rs:12 `#[derive(Default)]`, with an id and a name. -/
def Element.blank (id : Nat) (name : String) : Element := ⟨id, name, [], [], [], none, none⟩

/-- `HashMap::remove`. Used for puck_liveview/src/dom/element/diff/changeset/apply.rs:141-143. -/
def Headers.remove (k : String) (h : Headers) : Headers := h.filter fun p => p.1 != k

/-- `HashMap::eq` (`==` on two maps): same length, and every entry of the first is in the second. Used for puck_liveview/src/dom/element/diff/mod.rs:134. -/
def Headers.same (a b : Headers) : Bool := a.length == b.length && a.all fun p => b.get p.1 == some p.2

/-- What `into_pub_fields` gives for the malvolio nodes that carry attributes and / or text (crate `malvolio`).
Used for puck_liveview/src/html/mod.rs:21, :57. -/
structure NodeFields where
  attrs : Headers
  text : String

/-- `malvolio::prelude::BodyNode`, as matched in puck_liveview/src/html/mod.rs:37-187.  `Text` is a bare text
node.  Fields a node does not have are absent or unused. -/
inductive BodyNode where
  | h1 (f : NodeFields) | h2 (f : NodeFields) | h3 (f : NodeFields)
  | h4 (f : NodeFields) | h5 (f : NodeFields) | h6 (f : NodeFields)
  | p (f : NodeFields)
  | form (attrs : Headers)
  | br
  | div (attrs : Headers)
  | a (f : NodeFields)
  | input (attrs : Headers)
  | label (f : NodeFields)
  | select (attrs : Headers)
  | noscript (text : String)
  | text (s : String)
  | img (attrs : Headers)

/-- puck_liveview/src/html/mod.rs:11-17 `WrappedBodyNode`. -/
structure WrappedBodyNode where
  node : BodyNode
  listeners : List ListenerRef
  children : List WrappedBodyNode

mutual
/-- puck_liveview/src/html/mod.rs:36-188 `WrappedBodyNode::into_element`: the element and the generator
afterwards (puck_liveview/src/html/id.rs:1-15 `IdGen` is represented by its `head`, which `new_id` returns and
then increments; overflow of `usize` is not modelled); `none` is the panic on line 174. -/
def intoElement : WrappedBodyNode → Nat → Option (Element × Nat)
  | ⟨node, listeners, children⟩, g =>
    let leaf (name : String) (attrs : Headers) (ls : List ListenerRef) (text : Option String) : Option (Element × Nat) :=
      some (⟨g, name, attrs, ls, [], text, none⟩, g + 1)
    let branch (name : String) (attrs : Headers) (text : Option String) : Option (Element × Nat) :=
      match intoElements children (g + 1) with
      | none => none
      | some (cs, g') => some (⟨g, name, attrs, listeners, cs, text, none⟩, g')
    match node with
    | .h1 f => leaf "h1" f.attrs listeners (some f.text)
    | .h2 f => leaf "h2" f.attrs listeners (some f.text)
    | .h3 f => leaf "h3" f.attrs listeners (some f.text)
    | .h4 f => leaf "h4" f.attrs listeners (some f.text)
    | .h5 f => leaf "h5" f.attrs listeners (some f.text)
    | .h6 f => leaf "h6" f.attrs listeners (some f.text)
    | .p f => branch "p" f.attrs (some f.text)
    | .form attrs => branch "form" attrs none
    | .br => leaf "br" [] [] none
    | .div attrs => branch "div" attrs none
    | .a f => leaf "a" f.attrs listeners (some f.text)
    | .input attrs => branch "input" attrs none
    | .label f => leaf "label" f.attrs listeners (some f.text)
    | .select attrs => branch "div" attrs none
    | .noscript text => leaf "div" [] [] (some text)
    | .text _ => none
    | .img attrs => leaf "img" attrs listeners none
/-- puck_liveview/src/html/mod.rs:64-68 (and the other container nodes): the children, left to right. -/
def intoElements : List WrappedBodyNode → Nat → Option (List Element × Nat)
  | [], g => some ([], g)
  | c :: cs, g =>
    match intoElement c g with
    | none => none
    | some (e, g') =>
      match intoElements cs g' with
      | none => none
      | some (es, g'') => some (e :: es, g'')
end

/-- puck_liveview/src/html/mod.rs:213-224 `wrap`. -/
def BodyNode.wrap (n : BodyNode) : WrappedBodyNode := ⟨n, [], []⟩

/-- puck_liveview/src/html/mod.rs:190-193 `listener`. -/
def WrappedBodyNode.listener (w : WrappedBodyNode) (l : ListenerRef) : WrappedBodyNode :=
  { w with listeners := w.listeners ++ [l] }

/-- puck_liveview/src/html/mod.rs:195-198 `child`. -/
def WrappedBodyNode.child (w : WrappedBodyNode) (c : WrappedBodyNode) : WrappedBodyNode :=
  { w with children := w.children ++ [c] }

/-- puck_liveview/src/html/mod.rs:200-206 `children`. -/
def WrappedBodyNode.withChildren (w : WrappedBodyNode) (cs : List WrappedBodyNode) : WrappedBodyNode :=
  { w with children := w.children ++ cs }

end Puck
