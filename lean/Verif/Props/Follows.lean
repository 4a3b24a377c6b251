import Verif.Lemmas.PaintSim
import Verif.Props.ApplyExact
import Verif.Props.Client
/-!
# Exactly which updates the browser follows, whatever the structure of the two views (C63)
-/
namespace Puck

open Shape Shape.Paint

/-- **C63, exactly, for arbitrary structures.** For two trees without keys, the old one numbered increasingly in document order and the new one
consecutively, from no larger a number, whose names and values survive the trip, in a browser that copies children faithfully wherever a tag changes: the changeset
exists, and wherever the old view is shown, the browser processes the whole message without an exception and then shows the new view, the rest of the
page unchanged, if and only if the change can be followed. -/
theorem C63_exact_partial (B : Browser) (a b : Element) (ka : a.Unkeyed) (kb : b.Unkeyed) (ia : a.ids.Pairwise (· < ·))
    (ib : b.ids = List.range' b.id b.ids.length) (hid : b.id ≤ a.id) (ha : a.AttrsOk) (hb : b.AttrsOk)
    (oa : a.Obeys (clientRules B)) (ob : b.Obeys (clientRules B)) (htag : ∀ x y, Compared a b x y → x.name = y.name ∨ B.Copies y.name) :
    ∃ ops, a.diff (some b) = some ops ∧ ∀ page d, PageOk page → a.ShownAs d →
      ((∃ d', clientAll B (serializeOps ops) (page ++ [d]) = some (page ++ [d']) ∧ b.ShownAs d') ↔ Followable a b) := by
  obtain ⟨ops, ho⟩ := diff_fit_isSome b a (keyFit_unkeyed b a ka kb)
  refine ⟨ops, ho, fun page d hp hd => ?_⟩
  have ht := tagged_of htag
  have hx := diff_exact ka kb ha hb hid ia ib ho
  rw [← good_followable, ← hx]
  have hs := sim_bsteps (B := B) hp ops (tr a) d (diff_fit b a ops ka kb oa ob ht ho) ((painted_tr a d oa).2 hd)
  constructor
  · rintro ⟨d', h1, h2⟩
    rw [h1] at hs
    cases hr : bsteps (ops.map toB) (tr a) with
    | none =>
      rw [hr] at hs
      rcases hs with h | h
      · cases h
      · simp at h
    | some t =>
      rw [hr] at hs
      obtain ⟨d'', h3, h4⟩ := hs
      simp only [Option.some.injEq, List.append_cancel_left_eq, List.cons.injEq, and_true] at h3
      subst h3
      rw [painted_inj t (tr b) d' h4 ((painted_tr b d' ob).2 h2)]
  · intro h
    rw [h] at hs
    obtain ⟨d', h1, h2⟩ := hs
    exact ⟨d', h1, (painted_tr b d' ob).1 h2⟩

/-- a followable change is followed, in the sense of `C63_update_partial` -/
theorem C63_followable_partial (B : Browser) (a b : Element) (ka : a.Unkeyed) (kb : b.Unkeyed) (ia : a.ids.Pairwise (· < ·))
    (ib : b.ids = List.range' b.id b.ids.length) (hid : b.id ≤ a.id) (ha : a.AttrsOk) (hb : b.AttrsOk)
    (oa : a.Obeys (clientRules B)) (ob : b.Obeys (clientRules B)) (htag : ∀ x y, Compared a b x y → x.name = y.name ∨ B.Copies y.name)
    (hf : Followable a b) : a.UpdatesInBrowser B b := by
  obtain ⟨ops, ho, h⟩ := C63_exact_partial B a b ka kb ia ib hid ha hb oa ob htag
  refine ⟨ops, ho, fun page d hp hd => ?_⟩
  obtain ⟨d', h1, h2⟩ := (h page d hp hd).2 hf
  exact ⟨d', clientAll_message h1, h2⟩

/-- **C63, exactly, for the views of a component**, both numbered from the same start, as the component loop does. -/
theorem C63_views_exact_partial (B : Browser) (w w' : WrappedBodyNode) (g : Nat) (a b : Element) (ga gb : Nat)
    (ha : intoElement w g = some (a, ga)) (hb : intoElement w' g = some (b, gb)) (hw : w.AttrsOk) (hw' : w'.AttrsOk)
    (oa : a.Obeys (clientRules B)) (ob : b.Obeys (clientRules B)) (htag : ∀ x y, Compared a b x y → x.name = y.name ∨ B.Copies y.name) :
    ∃ ops, a.diff (some b) = some ops ∧ ∀ page d, PageOk page → a.ShownAs d →
      ((∃ d', clientAll B (serializeOps ops) (page ++ [d]) = some (page ++ [d']) ∧ b.ShownAs d') ↔
        ∀ x y, Compared a b x y →
          y.id ≤ x.id ∧
          (y.id < x.id → x.name = y.name ∧ (x.listeners = y.listeners ∨ y.listeners = [])) ∧
          (∀ K, Created x y K → K.id = x.id → K.Empty) ∧
          (x.text = y.text ∨ (x.children = [] ∧ y.text ≠ none) ∨ (x.text = some "" ∧ y.text = none)) ∧
          (x.listeners ≠ y.listeners ∨ x.name ≠ y.name → ∀ x' y', Compared x y x' y' → x'.listeners = y'.listeners → y'.listeners = [])) := by
  have ia := dense_increasing ha
  have ib := dense_increasing hb
  have ea : a.id = g := by
    have := ia.2; rw [a.ids_eq, List.length_cons, List.range'_succ, List.cons.injEq] at this; exact this.1
  have eb : b.id = g := by
    have := ib.2; rw [b.ids_eq, List.length_cons, List.range'_succ, List.cons.injEq] at this; exact this.1
  exact C63_exact_partial B a b (intoElement_unkeyed ha) (intoElement_unkeyed hb) ia.1 (by rw [eb]; exact ib.2) (by omega)
    (intoElement_attrsOk hw ha) (intoElement_attrsOk hw' hb) oa ob htag

/-! ### Non-vacuity, on both sides -/

theorem box_attrs (inside : BodyNode) (h : inside.htmlAttrs = []) : boxBefore.AttrsOk ∧ (boxAfter inside).AttrsOk := by
  constructor
  · simp [boxBefore, WrappedBodyNode.AttrsOk, WrappedAttrsOk, BodyNode.wrap, WrappedBodyNode.withChildren, WrappedBodyNode.child, BodyNode.htmlAttrs, Headers.Distinct]
  · simp [boxAfter, WrappedBodyNode.AttrsOk, WrappedAttrsOk, BodyNode.wrap, WrappedBodyNode.withChildren, WrappedBodyNode.child, Headers.Distinct, h]
    simp [BodyNode.htmlAttrs]

/-- the two views of `boxBefore` / `boxAfter`, with the element in the box left open -/
def boxA : Element := ⟨0, "div", [], [], [⟨1, "p", [], [], [.blank 2 "br"], some "", none⟩, ⟨3, "div", [("class", "box")], [], [], none, none⟩], none, none⟩
def boxB (inside : Element) : Element :=
  ⟨0, "div", [], [], [⟨1, "p", [], [], [], some "", none⟩, ⟨2, "div", [("class", "box")], [], [inside], none, none⟩], none, none⟩

theorem box_compared {i x y : Element} (h : Compared boxA (boxB i) x y) :
    (x = boxA ∧ y = boxB i) ∨ (x = ⟨1, "p", [], [], [.blank 2 "br"], some "", none⟩ ∧ y = ⟨1, "p", [], [], [], some "", none⟩) ∨
    (x = ⟨3, "div", [("class", "box")], [], [], none, none⟩ ∧ y = ⟨2, "div", [("class", "box")], [], [i], none, none⟩) := by
  rcases Shape.Compared.cases_top h with h | ⟨k, a', b', h1, h2, h3⟩
  · exact Or.inl h
  · right
    match k, h1, h2 with
    | 0, h1, h2 =>
      cases h1; cases h2
      rcases Shape.Compared.cases_top h3 with h | ⟨j, a', b', h1, h2, -⟩
      · exact Or.inl h
      · simp at h2
    | 1, h1, h2 =>
      cases h1; cases h2
      rcases Shape.Compared.cases_top h3 with h | ⟨j, a', b', h1, h2, -⟩
      · exact Or.inr h
      · simp at h1
    | k + 2, h1, h2 => simp [boxA] at h1

theorem box_names {i x y : Element} (h : Compared boxA (boxB i) x y) : x.name = y.name := by
  rcases box_compared h with ⟨rfl, rfl⟩ | ⟨rfl, rfl⟩ | ⟨rfl, rfl⟩ <;> rfl

/-- non-vacuity, first side: a line break is removed, an id changes (3 to 2), and an element is created under the id 3; the browser follows -/
example : ∃ a b, intoElement boxBefore 0 = some (a, 4) ∧ intoElement (boxAfter .br) 0 = some (b, 4) ∧ Followable a b ∧ a.UpdatesInBrowser plainBrowser b := by
  have hf : Followable boxA (boxB (.blank 3 "br")) := by
    rw [← good_followable]
    simp [boxA, boxB, Good, GoodZip, OwnGood, Wiped, Element.blank, below', nodesAll, Element.nodes]
    simp [Element.Empty]
  refine ⟨boxA, boxB (.blank 3 "br"), rfl, rfl, hf, ?_⟩
  exact C63_followable_partial plainBrowser _ _ (intoElement_unkeyed (w := boxBefore) (g := 0) (g' := 4) rfl)
    (intoElement_unkeyed (w := boxAfter .br) (g := 0) (g' := 4) rfl) (by decide) (by decide) (by decide)
    (intoElement_attrsOk (box_attrs .br rfl).1 (g := 0) (g' := 4) rfl) (intoElement_attrsOk (box_attrs .br rfl).2 (g := 0) (g' := 4) rfl)
    (by simp [boxA, Element.Obeys, ObeysAll, clientRules, plainBrowser, Element.blank]; decide +kernel)
    (by simp [boxB, Element.Obeys, ObeysAll, clientRules, plainBrowser, Element.blank]; decide +kernel)
    (fun _ _ h => Or.inl (box_names h)) hf

/-- non-vacuity, second side: with a text in the created element, which has the id 3 while the box still has it, the browser does not get there -/
example : ∃ a b ops, intoElement boxBefore 0 = some (a, 4) ∧ intoElement (boxAfter (.p ⟨[], "hello"⟩)) 0 = some (b, 4) ∧ a.diff (some b) = some ops ∧
    ∀ page d, PageOk page → a.ShownAs d → ¬ ∃ d', clientAll plainBrowser (serializeOps ops) (page ++ [d]) = some (page ++ [d']) ∧ b.ShownAs d' := by
  obtain ⟨ops, h1, h2⟩ := C63_views_exact_partial plainBrowser boxBefore (boxAfter (.p ⟨[], "hello"⟩)) 0 boxA (boxB ⟨3, "p", [], [], [], some "hello", none⟩) 4 4
    rfl rfl (box_attrs (.p ⟨[], "hello"⟩) rfl).1 (box_attrs (.p ⟨[], "hello"⟩) rfl).2
    (by simp [boxA, Element.Obeys, ObeysAll, clientRules, plainBrowser, Element.blank]; decide +kernel)
    (by simp [boxB, Element.Obeys, ObeysAll, clientRules, plainBrowser]; decide +kernel)
    (fun _ _ h => Or.inl (box_names h))
  refine ⟨_, _, ops, rfl, rfl, h1, fun page d hp hd hno => ?_⟩
  have := ((h2 page d hp hd).1 hno _ _ (.child 1 .root rfl rfl)).2.2.1 ⟨3, "p", [], [], [], some "hello", none⟩
    ⟨_, _, _, .root, List.mem_cons_self .., by rw [Element.nodes]; exact List.mem_cons_self ..⟩ rfl
  exact absurd this.2.2.1 (by simp)

/-- the same with tags: a line break goes, and the paragraph after it, which so gets a smaller id, becomes a heading.  The change of the tag is addressed
to the new id. -/
example : ∃ a b ops, intoElement (((BodyNode.wrap (.div [])).child ((BodyNode.wrap (.div [])).child (BodyNode.wrap .br))).child (BodyNode.wrap (.p ⟨[], "x"⟩))) 0 = some (a, 4) ∧
    intoElement (((BodyNode.wrap (.div [])).child (BodyNode.wrap (.div []))).child (BodyNode.wrap (.h1 ⟨[], "x"⟩))) 0 = some (b, 3) ∧ a.diff (some b) = some ops ∧
    ∀ page d, PageOk page → a.ShownAs d → ¬ ∃ d', clientAll plainBrowser (serializeOps ops) (page ++ [d]) = some (page ++ [d']) ∧ b.ShownAs d' := by
  obtain ⟨ops, h1, h2⟩ := C63_views_exact_partial plainBrowser
    (((BodyNode.wrap (.div [])).child ((BodyNode.wrap (.div [])).child (BodyNode.wrap .br))).child (BodyNode.wrap (.p ⟨[], "x"⟩)))
    (((BodyNode.wrap (.div [])).child (BodyNode.wrap (.div []))).child (BodyNode.wrap (.h1 ⟨[], "x"⟩))) 0
    ⟨0, "div", [], [], [⟨1, "div", [], [], [.blank 2 "br"], none, none⟩, ⟨3, "p", [], [], [], some "x", none⟩], none, none⟩
    ⟨0, "div", [], [], [⟨1, "div", [], [], [], none, none⟩, ⟨2, "h1", [], [], [], some "x", none⟩], none, none⟩ 4 3 rfl rfl
    (by simp [WrappedBodyNode.AttrsOk, WrappedAttrsOk, BodyNode.wrap, WrappedBodyNode.child, BodyNode.htmlAttrs, Headers.Distinct])
    (by simp [WrappedBodyNode.AttrsOk, WrappedAttrsOk, BodyNode.wrap, WrappedBodyNode.child, BodyNode.htmlAttrs, Headers.Distinct])
    (by simp [Element.Obeys, ObeysAll, clientRules, plainBrowser, Element.blank]; decide +kernel)
    (by simp [Element.Obeys, ObeysAll, clientRules, plainBrowser]; decide +kernel)
    (fun _ _ _ => Or.inr fun _ => rfl)
  refine ⟨_, _, ops, rfl, rfl, h1, fun page d hp hd hno => ?_⟩
  have := (((h2 page d hp hd).1 hno _ _ (.child 1 .root rfl rfl)).2.1 (by decide)).1
  simp at this

/-- Why the statement says "without an exception": here the text of an element changes and its only child goes.  Setting the text removes the child as
well, so the instruction that deletes the child throws; yet the page shows the new view. -/
example : ∃ a b ops d d', intoElement ((BodyNode.wrap (.p ⟨[], "x"⟩)).child (BodyNode.wrap .br)) 0 = some (a, 2) ∧
    intoElement (BodyNode.wrap (.p ⟨[], "y"⟩)) 0 = some (b, 1) ∧ a.diff (some b) = some ops ∧ a.ShownAs d ∧
    clientAll plainBrowser (serializeOps ops) [d] = none ∧ clientMessage plainBrowser (serializeOps ops) [d] = [d'] ∧ b.ShownAs d' ∧ ¬ Followable a b := by
  have d0 : Nat.repr 0 = "0" := by decide +kernel
  have d1 : Nat.repr 1 = "1" := by decide +kernel
  have sw : ∀ (k : String) (x y : Option String), (if "id" = k then x else y) = if k = "id" then x else y := by
    intro k x y; simp only [eq_comm]
  refine ⟨⟨0, "p", [], [], [.blank 1 "br"], some "x", none⟩, ⟨0, "p", [], [], [], some "y", none⟩, [⟨0, .setText "y"⟩, ⟨1, .deleteEl⟩],
    .elem "p" [("id", "0")] [] [.text "x", .elem "br" [("id", "1")] [] []], .elem "p" [("id", "0")] [] [.text "y"], rfl, rfl, rfl, ?_, ?_, ?_, ?_, ?_⟩
  · rw [Element.ShownAs]
    refine ⟨_, [_], rfl, by simp [Headers.get, d0, sw], ?_⟩
    rw [ShownAsAll]
    refine ⟨_, [], rfl, ?_, rfl⟩
    simp [Element.ShownAs, ShownAsAll, textNodes, Headers.get, d1, sw, Element.blank]
  · simp [serializeOps, Op.serialize, clientAll, clientOp, withElement, replaceIn, replaceNode, Headers.get, d0, d1, textContent]
  · simp [serializeOps, Op.serialize, clientMessage, clientOp, withElement, replaceIn, replaceNode, Headers.get, d0, d1, textContent]
  · simp [Element.ShownAs, ShownAsAll, textNodes, Headers.get, d0, sw]
  · intro h
    rcases (h _ _ .root).2.2.2.1 with h | h | h
    · simp at h
    · simp at h
    · simp at h

end Puck
