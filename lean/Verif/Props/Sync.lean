import Verif.Props.InStep
import Verif.Props.EndToEnd
/-!
# Whole sessions of components with a fixed layout: exactly when the browser stays in step (C84)
-/
namespace Puck

variable {D I S E P : Type}

/-- The state after some updates. -/
def Component.after (C : Component D I S E P) (p : P) (s : S) (is : List I) : S :=
  is.foldl (fun s i => (C.update s i p).1) s

/-- A component whose renders are made from `malvolio` views numbered from 0 (as `main_loop` does), all of the same structure and
tags, and whose names and values survive the trip to the browser.  Attributes, text and listeners may change in any way. -/
structure FixedLayout (B : Browser) (C : Component D I S E P) : Prop where
  views : ∀ s, ∃ w g, intoElement w 0 = some ((C.render s).1, g) ∧ w.AttrsOk
  obeys : ∀ s, (C.render s).1.Obeys (clientRules B)
  shape : ∀ s s', SameShape (C.render s).1 (C.render s').1
  tags : ∀ s s', ∀ q ∈ pairs (C.render s).1 (C.render s').1, q.1.name = q.2.name

theorem FixedLayout.trees {B : Browser} {C : Component D I S E P} (hf : FixedLayout B C) (s s' : S) :
    (C.render s).1.ids.Nodup ∧ (C.render s).1.AttrsOk ∧
    ∃ ops, (C.render s).1.diff (some (C.render s').1) = some ops ∧
      (InStep (C.render s).1 (C.render s').1 → ∀ page d, PageOk page → (C.render s).1.ShownAs d →
        ∃ d', clientMessage B (serializeOps ops) (page ++ [d]) = page ++ [d'] ∧ (C.render s').1.ShownAs d') ∧
      (¬ InStep (C.render s).1 (C.render s').1 → ∀ page d, PageOk page → (C.render s).1.ShownAs d →
        ¬ ∃ d', clientMessage B (serializeOps ops) (page ++ [d]) = page ++ [d'] ∧ (C.render s').1.ShownAs d') := by
  obtain ⟨w, g, hw, hwa⟩ := hf.views s
  obtain ⟨w', g', hw', hwa'⟩ := hf.views s'
  have ia := dense_increasing hw
  have ib := dense_increasing hw'
  exact ⟨nodup_of_increasing ia.1, intoElement_attrsOk hwa hw,
    C103_trees B _ _ (hf.shape s s') (aligned_of_dense _ _ 0 (hf.shape s s') ia.2 ib.2).1 (hf.tags s s') (nodup_of_increasing ia.1)
      (intoElement_unkeyed hw) (intoElement_unkeyed hw') (intoElement_attrsOk hwa hw) (intoElement_attrsOk hwa' hw') (hf.obeys s) (hf.obeys s')⟩

theorem session_inputs {C : Component D I S E P} {parse : String → Option ClientMessage} {p : P} (is : List I) {s s' : S} {is' : List I}
    (h : Session C parse p s (is.map .input) is' s') : s' = C.after p s is := by
  induction is generalizing s is' with
  | nil => cases h; rfl
  | cons i is ih =>
    cases h with
    | skip h1 => exact absurd (Or.inl rfl) (h1 i)
    | take h1 h2 =>
      rcases h1 with h1 | ⟨c, t, h1, -⟩
      · cases h1; exact ih h2
      · cases h1

theorem follows {B : Browser} {C : Component D I S E P} {p : P} (hf : FixedLayout B C) {parse : String → Option ClientMessage}
    {page : List Dom} (hp : PageOk page) {s s' : S} {ms : List (Mail I P)} {is : List I} (h : Session C parse p s ms is s')
    (hs : ∀ is i, InStep (C.render (C.after p s is)).1 (C.render (C.after p s (is ++ [i]))).1) :
    ∀ d, (C.render s).1.ShownAs d → ∃ os d', expectedOuts C p s is = some os ∧
      clientMessages B (sends os) (page ++ [d]) = page ++ [d'] ∧ (C.render s').1.ShownAs d' := by
  induction h with
  | nil s => intro d hd; exact ⟨[], d, rfl, rfl, hd⟩
  | skip _ _ _ _ ih => exact ih hs
  | @take s m ms i is s' hask _ ih =>
    intro d hd
    obtain ⟨-, -, ops, h1, h2, -⟩ := hf.trees s (C.update s i p).1
    obtain ⟨d1, h3, h4⟩ := h2 (hs [] i) page d hp hd
    obtain ⟨os, d2, h5, h6, h7⟩ := ih (fun is' i' => hs (i :: is') i') d1 h4
    refine ⟨_, d2, by simp only [expectedOuts, h1, h5]; rfl, ?_, h7⟩
    rw [sends_append, sends_append, sends_effects]
    simp only [sends, List.nil_append, List.cons_append, clientMessages, h3, h6]

/-- **C84 (exactly).** For every component with a fixed layout and every page without numeric ids: the browser shows the current render after
every history in which the connection stays open, if and only if every update, from every state the component can be
brought to, changes the view in a way the browser can follow: no non-empty text is taken away, the text of an element with
children does not change, and below an element whose listeners change every element which keeps its listeners has none. -/
theorem C84_fixed_layout (B : Browser) (C : Component D I S E P) (p : P) (hf : FixedLayout B C) (parse : String → Option ClientMessage)
    (data : D) (page : List Dom) (hp : PageOk page) :
    (∀ ms : List (Mail I P), (∀ m ∈ ms, m ≠ .ws (.error .connectionClosed) ∧ ∀ q, m ≠ .whoAmI q) → ShowsCurrent B C parse data p page ms) ↔
      ∀ (is : List I) (i : I), ∀ q ∈ pairs (C.render (C.after p (C.new data p).1 is)).1 (C.render (C.after p (C.new data p).1 (is ++ [i]))).1,
        (q.1.text = q.2.text ∨ (q.1.children = [] ∧ q.2.text ≠ none) ∨ (q.1.text = some "" ∧ q.2.text = none)) ∧
        (q.1.listeners ≠ q.2.listeners → ∀ r ∈ pairsAll q.1.children q.2.children, r.1.listeners = r.2.listeners → r.2.listeners = []) := by
  constructor
  · intro h is i
    change InStep _ _
    have hin : ∀ js : List I, ∀ m ∈ (js.map .input : List (Mail I P)), m ≠ .ws (.error .connectionClosed) ∧ ∀ q, m ≠ .whoAmI q := by
      intro js m hm
      obtain ⟨j, -, rfl⟩ := List.mem_map.1 hm
      exact ⟨(by simp), (by simp)⟩
    have comp : ∀ (js : List I) st os, loopRun C parse true (.waiting data) (.whoAmI p :: js.map .input) = (.running st, os) →
        st.proc = p ∧ C.render st.comp = (st.dom, st.listeners) ∧ st.comp = C.after p (C.new data p).1 js := by
      intro js st os hr
      obtain ⟨h1, h2, h3, is', h4⟩ := C64_in_step C parse true data p (js.map .input) st (by rw [hr])
      exact ⟨h1, (by rw [h2, h3]), session_inputs js h4⟩
    obtain ⟨st, os, d, h1, h2, h3⟩ := h (is.map .input) (hin is)
    obtain ⟨st', os', d', h1', h2', h3'⟩ := h ((is ++ [i]).map .input) (hin _)
    obtain ⟨c1, c2, c3⟩ := comp is st os h1
    obtain ⟨-, -, c3'⟩ := comp _ st' os' h1'
    rw [List.map_append, ← List.cons_append, run_append, h1] at h1'
    simp only [List.map_cons, List.map_nil, loopRun, List.append_nil] at h1'
    have e : loopStep C parse true (.running st) (.input i) = updateAndDiff C st i := rfl
    rw [e] at h1'
    rcases update_cases C c2 i with ⟨-, h4⟩ | ⟨ops, h4, h5⟩
    · rw [h4] at h1'; cases h1'
    · rw [h5] at h1'
      injection h1' with h6 h7
      subst h7
      have hc : st'.comp = (C.update st.comp i p).1 := by
        injection h6 with h6
        rw [← h6, c1]
      rw [sends_append, sends_append, sends_effects, clientMessages_append, h2] at h2'
      simp only [sends, List.nil_append, clientMessages] at h2'
      rw [← c3, ← c3', hc]
      rw [hc] at h3'
      obtain ⟨-, -, ops', h8, -, h9⟩ := hf.trees st.comp (C.update st.comp i p).1
      rw [c1] at h4
      cases h8.symm.trans h4
      exact Classical.byContradiction fun hno => h9 hno page d hp h3 ⟨d', h2', h3'⟩
  · intro hs ms hc
    obtain ⟨is, s', h⟩ := session_total C parse p (C.new data p).1 ms hc
    obtain ⟨h0, h0', -⟩ := hf.trees (C.new data p).1 (C.new data p).1
    obtain ⟨ops, d0, h1, h2, h3⟩ := C62_first_paint_partial B page hp (C.render (C.new data p).1).1 h0 h0' (hf.obeys _)
    obtain ⟨os, d, h4, h5, h6⟩ := follows hf hp h hs d0 h3
    refine ⟨_, _, d, C66_trace C parse data p ms is s' os h h4, ?_, h6⟩
    cases h1
    rw [sends_append, opening, sends_append, sends_effects]
    simp only [sends, List.nil_append, List.cons_append, clientMessages, h2, h5]

/-- a label that is shown or not: its listener-free view is a `noscript` (a `div` with text) or a `div` -/
def lamp : Component Unit Unit Bool String Unit where
  new := fun _ _ => (true, [])
  update := fun s _ _ => (!s, [])
  render := fun s => (⟨0, "div", [], [], [], if s then some "on" else none, none⟩, fun _ => none)

theorem lamp_layout (B : Browser) (hB : B.validTag "div" = true) : FixedLayout B lamp where
  views := fun s => by
    cases s
    · exact ⟨BodyNode.wrap (.div []), 1, rfl, by simp [BodyNode.wrap, WrappedBodyNode.AttrsOk, WrappedAttrsOk, BodyNode.htmlAttrs, Headers.Distinct]⟩
    · exact ⟨BodyNode.wrap (.noscript "on"), 1, rfl, by simp [BodyNode.wrap, WrappedBodyNode.AttrsOk, WrappedAttrsOk, BodyNode.htmlAttrs, Headers.Distinct]⟩
  obeys := fun s => by simp [lamp, Element.Obeys, ObeysAll, clientRules, hB]; decide +kernel
  shape := fun s s' => by simp [lamp, SameShape, SameShapeAll]
  tags := fun s s' => by simp [lamp, pairs, pairsAll]

/-- **C84 is false**: in any browser, on any page, one update which takes a text away leaves the old text on the page, and
with it a page that does not show the current render. -/
theorem C84_sync_refuted (B : Browser) (hB : B.validTag "div" = true) (parse : String → Option ClientMessage) (page : List Dom) (hp : PageOk page) :
    ∃ ms : List (Mail Unit Unit), (∀ m ∈ ms, m ≠ .ws (.error .connectionClosed) ∧ ∀ q, m ≠ .whoAmI q) ∧
      ¬ ShowsCurrent B lamp parse () () page ms := by
  refine Classical.byContradiction fun hno => ?_
  have h : ∀ ms : List (Mail Unit Unit), (∀ m ∈ ms, m ≠ .ws (.error .connectionClosed) ∧ ∀ q, m ≠ .whoAmI q) →
      ShowsCurrent B lamp parse () () page ms :=
    fun ms hc => Classical.byContradiction fun h => hno ⟨ms, hc, h⟩
  have := (C84_fixed_layout B lamp () (lamp_layout B hB) parse () page hp).1 h [] ()
  simp [lamp, Component.after, pairs, pairsAll] at this

/-- non-vacuity: the counter has a fixed layout, and every one of its updates can be followed -/
example (page : List Dom) (hp : PageOk page) (parse : String → Option ClientMessage) (ms : List (Mail Nat Unit))
    (hc : ∀ m ∈ ms, m ≠ .ws (.error .connectionClosed) ∧ ∀ q, m ≠ .whoAmI q) : ShowsCurrent plainBrowser counter parse () () page ms := by
  refine (C84_fixed_layout plainBrowser counter () ⟨fun s => ?_, fun s => ?_, fun s s' => ?_, fun s s' => ?_⟩ parse () page hp).2 ?_ ms hc
  · refine ⟨(BodyNode.wrap (.div [])).withChildren [BodyNode.wrap (.p ⟨[], toString s⟩), (BodyNode.wrap (.input [])).listener ⟨"inc", "click"⟩], 3, rfl, ?_⟩
    simp [BodyNode.wrap, WrappedBodyNode.withChildren, WrappedBodyNode.listener, WrappedBodyNode.AttrsOk, WrappedAttrsOk, BodyNode.htmlAttrs,
      Headers.Distinct]
  · simp [counter, Element.Obeys, ObeysAll, clientRules, plainBrowser]; decide +kernel
  · simp [counter, SameShape, SameShapeAll]
  · simp [counter, pairs, pairsAll]
  · simp [counter, pairs, pairsAll]

end Puck
