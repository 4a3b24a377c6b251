import Verif.Props.View
/-!
# Building a view (C117)

`wrap`, `listener`, `child` and `children` of `puck_liveview/src/html/mod.rs`, called in any order.
-/
namespace Puck

/-- One call of the builder. -/
inductive ViewCall where
  | listener (l : ListenerRef)
  | child (c : WrappedBodyNode)
  | children (cs : List WrappedBodyNode)

/-- The call, as made by the user. -/
def ViewCall.run (w : WrappedBodyNode) : ViewCall → WrappedBodyNode
  | .listener l => w.listener l
  | .child c => w.child c
  | .children cs => w.withChildren cs

/-- The listeners a call gives. -/
def ViewCall.listeners : ViewCall → List ListenerRef
  | .listener l => [l]
  | _ => []

/-- The children a call gives. -/
def ViewCall.kids : ViewCall → List WrappedBodyNode
  | .child c => [c]
  | .children cs => cs
  | _ => []

theorem calls_fields : ∀ (calls : List ViewCall) (w : WrappedBodyNode),
    calls.foldl ViewCall.run w = ⟨w.node, w.listeners ++ calls.flatMap ViewCall.listeners, w.children ++ calls.flatMap ViewCall.kids⟩
  | [], w => by cases w; simp
  | c :: calls, w => by
    rw [List.foldl_cons, calls_fields calls, List.flatMap_cons, List.flatMap_cons]
    cases c <;> simp [ViewCall.run, ViewCall.listeners, ViewCall.kids, WrappedBodyNode.listener, WrappedBodyNode.child, WrappedBodyNode.withChildren]

/-- **C117.** For every node and every sequence of builder calls after `wrap`, the element made from the view has the node's tag, attributes and text, exactly
the listeners given, in the order of the calls, and - if the node is a container - exactly the children given, in the order of the calls (`br` and `noscript`
lose their listeners, and `select` and `noscript` appear as `div`: `codeTag`, `codeListeners`; see C55). -/
theorem C117_builder (n : BodyNode) (calls : List ViewCall) (g : Nat) (e : Element) (g' : Nat)
    (h : intoElement (calls.foldl ViewCall.run n.wrap) g = some (e, g')) :
    e.name = codeTag n ∧ e.attributes = n.htmlAttrs ∧ e.text = n.htmlText ∧ e.listeners = codeListeners n (calls.flatMap ViewCall.listeners) ∧
    (n.container = true → ShownByAll codeTag codeListeners (calls.flatMap ViewCall.kids) e.children ∧
      e.children.length = (calls.flatMap ViewCall.kids).length) ∧ (n.container = false → e.children = []) := by
  have hs := intoElement_shows _ _ _ _ h
  rw [calls_fields] at hs
  simp only [BodyNode.wrap, List.nil_append] at hs
  rw [WrappedBodyNode.ShownBy] at hs
  obtain ⟨h1, h2, h3, h4, -, h6, h7⟩ := hs
  have hlen : ∀ (ws : List WrappedBodyNode) (es : List Element), ShownByAll codeTag codeListeners ws es → es.length = ws.length := by
    intro ws
    induction ws with
    | nil => intro es h; rw [ShownByAll] at h; rw [h]; rfl
    | cons w ws ih =>
      intro es h
      rw [ShownByAll] at h
      obtain ⟨e, es', rfl, -, h'⟩ := h
      simp [ih es' h']
  exact ⟨h1, h2, h3, h4, fun hc => ⟨h6 hc, hlen _ _ (h6 hc)⟩, h7⟩

/-- It fails exactly if a bare text node would be shown. -/
theorem C117_fails (n : BodyNode) (calls : List ViewCall) (g : Nat) : intoElement (calls.foldl ViewCall.run n.wrap) g = none ↔
    n.isText = true ∨ n.container = true ∧ anyShowsText (calls.flatMap ViewCall.kids) = true := by
  rw [intoElement_none, calls_fields, WrappedBodyNode.showsText]
  simp only [BodyNode.wrap, List.nil_append, Bool.or_eq_true, Bool.and_eq_true]

/-- non-vacuity: a `div` with two listeners and three children, given in an interleaved order -/
example : (intoElement (([.child (BodyNode.p ⟨[], "a"⟩).wrap, .listener ⟨"l1", "click"⟩, .children [(BodyNode.br).wrap, (BodyNode.p ⟨[], "b"⟩).wrap],
      .listener ⟨"l2", "input"⟩] : List ViewCall).foldl ViewCall.run (BodyNode.div [("class", "c")]).wrap) 4).map
        (fun r => (r.1.name, r.1.attributes, r.1.listeners, r.1.children.map fun c => (c.id, c.name, c.text))) =
    some ("div", [("class", "c")], [⟨"l1", "click"⟩, ⟨"l2", "input"⟩], [(5, "p", some "a"), (6, "br", none), (7, "p", some "b")]) := rfl

end Puck
