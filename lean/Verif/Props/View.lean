import Verif.Spec.Tree
/-!
# Properties of `into_element` (C54, C55)
-/
namespace Puck

/-- the five container nodes, the rest -/
theorem intoElement_container {node : BodyNode} (h : node.container = true) (ls : List ListenerRef)
    (cs : List WrappedBodyNode) (g : Nat) :
    intoElement ⟨node, ls, cs⟩ g = (intoElements cs (g + 1)).map fun r =>
      (⟨g, if node.htmlTag = "select" then "div" else node.htmlTag, node.htmlAttrs, ls, r.1, node.htmlText, none⟩, r.2) := by
  cases node <;> simp [BodyNode.container] at h <;>
    (rw [intoElement]; simp only [BodyNode.htmlTag, BodyNode.htmlAttrs, BodyNode.htmlText]
     cases intoElements cs (g + 1) <;> simp)

theorem intoElement_leaf {node : BodyNode} (h : node.container = false) (ls : List ListenerRef)
    (cs : List WrappedBodyNode) (g : Nat) :
    intoElement ⟨node, ls, cs⟩ g = if node.isText then none else
      some (⟨g, if node.htmlTag = "noscript" then "div" else node.htmlTag, node.htmlAttrs,
        if node.lossy then [] else ls, [], node.htmlText, none⟩, g + 1) := by
  cases node <;> simp [BodyNode.container] at h <;>
    (rw [intoElement]; simp [BodyNode.htmlTag, BodyNode.htmlAttrs, BodyNode.htmlText, BodyNode.lossy, BodyNode.isText])

/-! ## C54 -/

mutual
theorem intoElement_ids : ∀ (w : WrappedBodyNode) (g : Nat) (e : Element) (g' : Nat),
    intoElement w g = some (e, g') → g < g' ∧ e.ids = List.range' g (g' - g)
  | ⟨node, ls, cs⟩, g, e, g', h => by
    cases hc : node.container with
    | true =>
      rw [intoElement_container hc] at h
      cases hs : intoElements cs (g + 1) with
      | none => rw [hs] at h; simp at h
      | some r =>
        rw [hs] at h
        simp only [Option.map_some, Option.some.injEq, Prod.mk.injEq] at h
        obtain ⟨rfl, rfl⟩ := h
        obtain ⟨h1, h2⟩ := intoElements_ids cs (g + 1) r.1 r.2 hs
        refine ⟨by omega, ?_⟩
        rw [Element.ids, h2, show r.2 - g = (r.2 - (g + 1)) + 1 by omega, List.range'_succ]
    | false =>
      rw [intoElement_leaf hc] at h
      split at h
      · cases h
      · simp only [Option.some.injEq, Prod.mk.injEq] at h
        obtain ⟨rfl, rfl⟩ := h
        refine ⟨by omega, ?_⟩
        rw [Element.ids, idsOf, Nat.add_sub_cancel_left]; rfl
theorem intoElements_ids : ∀ (ws : List WrappedBodyNode) (g : Nat) (es : List Element) (g' : Nat),
    intoElements ws g = some (es, g') → g ≤ g' ∧ idsOf es = List.range' g (g' - g)
  | [], g, es, g', h => by
    rw [intoElements] at h
    simp only [Option.some.injEq, Prod.mk.injEq] at h
    obtain ⟨rfl, rfl⟩ := h
    simp [idsOf]
  | w :: ws, g, es, g', h => by
    rw [intoElements] at h
    split at h
    · cases h
    · rename_i e g1 h1
      split at h
      · cases h
      · rename_i es' g2 h2
        simp only [Option.some.injEq, Prod.mk.injEq] at h
        obtain ⟨rfl, rfl⟩ := h
        obtain ⟨a1, a2⟩ := intoElement_ids w g e g1 h1
        obtain ⟨b1, b2⟩ := intoElements_ids ws g1 es' g2 h2
        refine ⟨by omega, ?_⟩
        rw [idsOf, a2, b2, show g2 - g = (g1 - g) + (g2 - g1) by omega, ← List.range'_append_1,
          show g + (g1 - g) = g1 by omega]
end

/-- **C54.** `into_element` numbers the elements of the tree consecutively in document order, starting from
the generator's current value, and leaves the generator just past the last id used; so ids are distinct,
within a tree and between trees made from the same generator one after the other. -/
theorem C54_ids (w : WrappedBodyNode) (g : Nat) (e : Element) (g' : Nat) (h : intoElement w g = some (e, g')) :
    e.ids = List.range' g (g' - g) ∧ g' = g + e.ids.length ∧ e.id = g ∧ e.ids.Nodup ∧
    ∀ w2 e2 g2, intoElement w2 g' = some (e2, g2) → ∀ i ∈ e.ids, i ∉ e2.ids := by
  obtain ⟨h1, h2⟩ := intoElement_ids w g e g' h
  refine ⟨h2, by rw [h2]; simp; omega, ?_, by rw [h2]; exact List.nodup_range', ?_⟩
  · cases e
    rw [Element.ids, show g' - g = (g' - g - 1) + 1 by omega, List.range'_succ] at h2
    simp only [List.cons.injEq] at h2
    exact h2.1
  · intro w2 e2 g2 hw i hi hi2
    obtain ⟨h3, h4⟩ := intoElement_ids w2 g' e2 g2 hw
    rw [h2] at hi
    rw [h4] at hi2
    simp only [List.mem_range'_1] at hi hi2
    omega

/-- The example view of the code's own test: a div with a heading and an input. -/
def demoView : WrappedBodyNode :=
  ((BodyNode.div []).wrap.child (BodyNode.h1 ⟨[], "Heading 1"⟩).wrap).child
    ((BodyNode.input [("type", "submit")]).wrap.listener ⟨"a_listener", "click"⟩)

/-- non-vacuity -/
example : ∃ e, intoElement demoView 7 = some (e, 10) ∧ e.ids = [7, 8, 9] := ⟨_, rfl, rfl⟩

/-! ## C55 -/

mutual
theorem intoElement_none : ∀ (w : WrappedBodyNode) (g : Nat), intoElement w g = none ↔ w.showsText = true
  | ⟨node, ls, cs⟩, g => by
    cases hc : node.container with
    | true =>
      rw [intoElement_container hc, Option.map_eq_none_iff, intoElements_none, WrappedBodyNode.showsText, hc]
      cases node <;> simp [BodyNode.container, BodyNode.isText] at hc ⊢
    | false =>
      rw [intoElement_leaf hc, WrappedBodyNode.showsText, hc]
      cases node <;> simp [BodyNode.isText]
theorem intoElements_none : ∀ (ws : List WrappedBodyNode) (g : Nat), intoElements ws g = none ↔ anyShowsText ws = true
  | [], g => by simp [intoElements, anyShowsText]
  | w :: ws, g => by
    rw [intoElements, anyShowsText, Bool.or_eq_true, ← intoElement_none w g]
    cases h : intoElement w g with
    | none => simp
    | some r =>
      simp only [reduceCtorEq, false_or]
      rw [← intoElements_none ws r.2]
      cases h2 : intoElements ws r.2 <;> simp
end

/-- The tag and the listeners the code gives: `select` and `noscript` become `div`; `br` and `noscript` lose
their listeners. -/
def codeTag (n : BodyNode) : String := if n.htmlTag = "select" ∨ n.htmlTag = "noscript" then "div" else n.htmlTag
/-- See `codeTag`. -/
def codeListeners (n : BodyNode) (ls : List ListenerRef) : List ListenerRef :=
  match n with
  | .br | .noscript _ => []
  | _ => ls

mutual
theorem intoElement_shows : ∀ (w : WrappedBodyNode) (g : Nat) (e : Element) (g' : Nat),
    intoElement w g = some (e, g') → w.ShownBy codeTag codeListeners e
  | ⟨node, ls, cs⟩, g, e, g', h => by
    cases hc : node.container with
    | true =>
      rw [intoElement_container hc] at h
      cases hs : intoElements cs (g + 1) with
      | none => rw [hs] at h; simp at h
      | some r =>
        rw [hs] at h
        simp only [Option.map_some, Option.some.injEq, Prod.mk.injEq] at h
        obtain ⟨rfl, rfl⟩ := h
        have h2 := intoElements_shows cs (g + 1) r.1 r.2 hs
        rw [WrappedBodyNode.ShownBy]
        refine ⟨?_, rfl, rfl, ?_, rfl, fun _ => h2, fun hf => by rw [hc] at hf; cases hf⟩
        · cases node <;> simp [BodyNode.container] at hc <;> simp [codeTag, BodyNode.htmlTag]
        · cases node <;> simp [BodyNode.container] at hc <;> rfl
    | false =>
      rw [intoElement_leaf hc] at h
      split at h
      · cases h
      · rename_i ht
        simp only [Option.some.injEq, Prod.mk.injEq] at h
        obtain ⟨rfl, rfl⟩ := h
        rw [WrappedBodyNode.ShownBy]
        refine ⟨?_, rfl, rfl, ?_, rfl, (fun hf => by rw [hc] at hf; cases hf), fun _ => rfl⟩
        · cases node <;> simp [BodyNode.container] at hc <;> simp [codeTag, BodyNode.htmlTag]
        · cases node <;> simp [BodyNode.container, BodyNode.isText] at hc ht <;> simp [codeListeners, BodyNode.lossy]
theorem intoElements_shows : ∀ (ws : List WrappedBodyNode) (g : Nat) (es : List Element) (g' : Nat),
    intoElements ws g = some (es, g') → ShownByAll codeTag codeListeners ws es
  | [], g, es, g', h => by
    rw [intoElements] at h
    simp only [Option.some.injEq, Prod.mk.injEq] at h
    rw [ShownByAll]
    exact h.1.symm
  | w :: ws, g, es, g', h => by
    rw [intoElements] at h
    split at h
    · cases h
    · rename_i e g1 h1
      split at h
      · cases h
      · rename_i es' g2 h2
        simp only [Option.some.injEq, Prod.mk.injEq] at h
        obtain ⟨rfl, rfl⟩ := h
        rw [ShownByAll]
        exact ⟨e, es', rfl, intoElement_shows w g e g1 h1, intoElements_shows ws g1 es' g2 h2⟩
end

mutual
/-- None of the nodes the conversion mangles occurs where it would be shown. -/
def WrappedBodyNode.faithful : WrappedBodyNode → Bool
  | ⟨node, _, children⟩ => !node.lossy && (!node.container || allFaithful children)
/-- All of them. -/
def allFaithful : List WrappedBodyNode → Bool
  | [] => true
  | c :: cs => c.faithful && allFaithful cs
end

mutual
theorem shownBy_faithful : ∀ (w : WrappedBodyNode) (e : Element), w.faithful = true → w.ShownBy codeTag codeListeners e →
    w.ShownBy BodyNode.htmlTag (fun _ ls => ls) e
  | ⟨node, ls, cs⟩, e, hf, h => by
    rw [WrappedBodyNode.faithful, Bool.and_eq_true] at hf
    rw [WrappedBodyNode.ShownBy] at h ⊢
    obtain ⟨h1, h2, h3, h4, h5, h6, h7⟩ := h
    have hl : node.lossy = false := by simpa using hf.1
    refine ⟨?_, h2, h3, ?_, h5, ?_, h7⟩
    · rw [h1]; cases node <;> simp [BodyNode.lossy] at hl <;> rfl
    · rw [h4]; cases node <;> simp [BodyNode.lossy] at hl <;> rfl
    · intro hc
      have := hf.2
      rw [hc] at this
      exact shownByAll_faithful cs e.children (by simpa using this) (h6 hc)
theorem shownByAll_faithful : ∀ (ws : List WrappedBodyNode) (es : List Element), allFaithful ws = true →
    ShownByAll codeTag codeListeners ws es → ShownByAll BodyNode.htmlTag (fun _ ls => ls) ws es
  | [], es, _, h => by rw [ShownByAll] at h ⊢; exact h
  | w :: ws, es, hf, h => by
    rw [allFaithful, Bool.and_eq_true] at hf
    rw [ShownByAll] at h ⊢
    obtain ⟨e, es', rfl, h1, h2⟩ := h
    exact ⟨e, es', rfl, shownBy_faithful w e hf.1 h1, shownByAll_faithful ws es' hf.2 h2⟩
end

/-- **C55 (what holds).** `into_element` panics iff a bare text node would be shown; otherwise the element
shows the view, with the code's changes (`select`, `noscript` become `div`; `br` and `noscript` lose their
listeners); it is exactly the view described if none of those three nodes is in it. -/
theorem C55_preserved_partial (w : WrappedBodyNode) (g : Nat) :
    (intoElement w g = none ↔ w.showsText = true) ∧
    ∀ e g', intoElement w g = some (e, g') → w.ShownBy codeTag codeListeners e ∧
      (w.faithful = true → w.ShownBy BodyNode.htmlTag (fun _ ls => ls) e) :=
  ⟨intoElement_none w g, fun e g' h => ⟨intoElement_shows w g e g' h,
    fun hf => shownBy_faithful w e hf (intoElement_shows w g e g' h)⟩⟩

/-- **C55 is false**: whatever its attributes, listeners and children, a `select` that converts at all is not
shown as a `select`, and a `br` or `noscript` with a listener loses it. -/
theorem C55_tag_lost_refuted (ls : List ListenerRef) (cs : List WrappedBodyNode) (g : Nat) :
    (∀ attrs e g', intoElement ⟨.select attrs, ls, cs⟩ g = some (e, g') → e.name = "div") ∧
    (∀ t e g', intoElement ⟨.noscript t, ls, cs⟩ g = some (e, g') → e.name = "div" ∧ e.listeners = []) ∧
    (∀ e g', intoElement ⟨.br, ls, cs⟩ g = some (e, g') → e.listeners = []) := by
  refine ⟨?_, ?_, ?_⟩ <;> intros <;> rename_i h
  · have := intoElement_shows _ _ _ _ h
    rw [WrappedBodyNode.ShownBy] at this
    exact this.1.trans (by simp [codeTag, BodyNode.htmlTag])
  · have := intoElement_shows _ _ _ _ h
    rw [WrappedBodyNode.ShownBy] at this
    exact ⟨this.1.trans (by simp [codeTag, BodyNode.htmlTag]), this.2.2.2.1⟩
  · have := intoElement_shows _ _ _ _ h
    rw [WrappedBodyNode.ShownBy] at this
    exact this.2.2.2.1

/-- non-vacuity: the demo view is faithful and converts; a select converts; a paragraph with a bare text child
does not, a heading with one does (its children are discarded). -/
example : demoView.faithful = true ∧ (intoElement demoView 0).isSome = true ∧
    (intoElement ⟨.select [], [], []⟩ 0).isSome = true ∧
    intoElement ((BodyNode.p ⟨[], ""⟩).wrap.child (BodyNode.text "x").wrap) 0 = none ∧
    (intoElement ((BodyNode.h1 ⟨[], ""⟩).wrap.child (BodyNode.text "x").wrap) 0).isSome = true := ⟨rfl, rfl, rfl, rfl, rfl⟩

end Puck
