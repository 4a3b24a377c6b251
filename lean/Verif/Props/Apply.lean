import Verif.Props.Diff
/-!
# Applying changesets (C57, C58, C60)
-/
namespace Puck

/-- What C57 claims of one pair of views: the changeset exists, can be applied to the old view, and gives the new one. -/
def Element.UpdatesTo (a b : Element) : Prop :=
  ∃ ops t, a.diff (some b) = some ops ∧ applyOps ops a = some t ∧ t.Same b

/-! ## C57 -/

/-- **C57 (what holds, general form).** If keys do not get in the way and no id is ambiguous at the moment it is
used (`Safe`, a condition on the two trees only), the changeset turns the old view into the new one. -/
theorem C57_apply_partial (a b : Element) (hk : KeyFit a b) (hs : Safe Rules.none [] a b) (hna : a.ids.Nodup)
    (hnb : b.ids.Nodup) (ha : a.AttrsOk) (hb : b.AttrsOk) : a.UpdatesTo b := by
  obtain ⟨ops, ho⟩ := diff_fit_isSome b a hk
  obtain ⟨t, h1, h2⟩ := diff_runs (R := Rules.none) b a a [] [] ops ho (Element.Same.refl a) (by simp [idsBefore]) hs hna hnb hk ha hb
    (obeys_none a) (obeys_none b)
  exact ⟨ops, t, ho, h2.apply id, h1.symm⟩

/-- **C57 (what holds, ids kept).** If elements at the same position have the same id and ids increase in document
order, the changeset turns the old view into the new one, whatever tags, attributes, texts, listeners and
trailing children have changed. -/
theorem C57_aligned_partial (a b : Element) (hk : KeyFit a b) (h : Aligned a b) (hia : a.ids.Pairwise (· < ·))
    (hib : b.ids.Pairwise (· < ·)) (ha : a.AttrsOk) (hb : b.AttrsOk) : a.UpdatesTo b :=
  C57_apply_partial a b hk (aligned_safe b a [] h hia hib (by simp) (fun s => s.elim)) (nodup_of_increasing hia) (nodup_of_increasing hib) ha hb

/-- **C57 (what holds, shrinking).** If nothing is created and ids only decrease (with tags and listeners unchanged
where an id changes), the changeset turns the old view into the new one. -/
theorem C57_shrinking_partial (a b : Element) (hk : KeyFit a b) (h : Shrinks a b) (hia : a.ids.Pairwise (· < ·))
    (hnb : b.ids.Nodup) (ha : a.AttrsOk) (hb : b.AttrsOk) : a.UpdatesTo b :=
  C57_apply_partial a b hk (shrinks_safe b a [] h hia (by simp)) (nodup_of_increasing hia) hnb ha hb

mutual
/-- Every attribute list of the view has distinct names. -/
def WrappedBodyNode.AttrsOk : WrappedBodyNode → Prop
  | ⟨node, _, children⟩ => node.htmlAttrs.Distinct ∧ WrappedAttrsOk children
/-- Every view of the list. -/
def WrappedAttrsOk : List WrappedBodyNode → Prop
  | [] => True
  | c :: cs => c.AttrsOk ∧ WrappedAttrsOk cs
end

mutual
theorem shownBy_attrsOk {tag : BodyNode → String} {lf : BodyNode → List ListenerRef → List ListenerRef} :
    ∀ (w : WrappedBodyNode) (e : Element), w.AttrsOk → w.ShownBy tag lf e → e.AttrsOk
  | ⟨node, ls, cs⟩, e, hw, h => by
    rw [WrappedBodyNode.ShownBy] at h
    rw [WrappedBodyNode.AttrsOk] at hw
    have : e.attributes.Distinct ∧ AttrsOkAll e.children := by
      refine ⟨by rw [h.2.1]; exact hw.1, ?_⟩
      cases hc : node.container with
      | true => exact shownByAll_attrsOk cs e.children hw.2 (h.2.2.2.2.2.1 hc)
      | false => rw [h.2.2.2.2.2.2 hc]; trivial
    cases e
    rw [Element.AttrsOk]; exact this
theorem shownByAll_attrsOk {tag : BodyNode → String} {lf : BodyNode → List ListenerRef → List ListenerRef} :
    ∀ (ws : List WrappedBodyNode) (es : List Element), WrappedAttrsOk ws → ShownByAll tag lf ws es → AttrsOkAll es
  | [], es, _, h => by rw [ShownByAll] at h; subst h; trivial
  | w :: ws, es, hw, h => by
    rw [ShownByAll] at h
    rw [WrappedAttrsOk] at hw
    obtain ⟨e, es', rfl, h1, h2⟩ := h
    rw [AttrsOkAll]
    exact ⟨shownBy_attrsOk w e hw.1 h1, shownByAll_attrsOk ws es' hw.2 h2⟩
end

theorem intoElement_attrsOk {w : WrappedBodyNode} {g : Nat} {e : Element} {g' : Nat} (hw : w.AttrsOk)
    (h : intoElement w g = some (e, g')) : e.AttrsOk := shownBy_attrsOk w e hw (intoElement_shows w g e g' h)

theorem dense_increasing {w : WrappedBodyNode} {g : Nat} {e : Element} {g' : Nat} (h : intoElement w g = some (e, g')) :
    e.ids.Pairwise (· < ·) ∧ e.ids = List.range' g e.ids.length := by
  have := (intoElement_ids w g e g' h).2
  rw [this]
  refine ⟨List.pairwise_lt_range', ?_⟩
  rw [List.length_range']

/-- **C57 (what holds for components).** Two views of the same shape, numbered from the same start as the component
loop does, may differ in all tags, attributes, texts and listeners: the changeset turns one into the other. -/
theorem C57_views_partial (w w' : WrappedBodyNode) (g : Nat) (a b : Element) (ga gb : Nat)
    (ha : intoElement w g = some (a, ga)) (hb : intoElement w' g = some (b, gb)) (hw : w.AttrsOk) (hw' : w'.AttrsOk)
    (hsh : SameShape a b) : a.UpdatesTo b := by
  have ia := dense_increasing ha
  have ib := dense_increasing hb
  exact C57_aligned_partial a b (keyFit_unkeyed b a (intoElement_unkeyed ha) (intoElement_unkeyed hb))
    (aligned_of_dense b a g hsh ia.2 ib.2).1 ia.1 ib.1 (intoElement_attrsOk hw ha) (intoElement_attrsOk hw' hb)

/-- a counter before and after a click -/
def counterView (n : String) : WrappedBodyNode :=
  (BodyNode.wrap (.div [])).withChildren [BodyNode.wrap (.p ⟨[("class", n)], n⟩),
    (BodyNode.wrap (.input [("value", "+")])).listener ⟨"inc", "click"⟩]

/-- non-vacuity: the counter, where the second element changes class and text -/
example : ∃ a b ops, intoElement (counterView "0") 0 = some (a, 3) ∧ intoElement (counterView "1") 0 = some (b, 3) ∧
    a.diff (some b) = some ops ∧ ops = [⟨1, .setAttribute "class" "1"⟩, ⟨1, .setText "1"⟩] ∧ SameShape a b :=
  ⟨_, _, _, rfl, rfl, rfl, rfl, by simp [SameShape, SameShapeAll]⟩

/-- non-vacuity of the shrinking form: dropping the middle list of children shifts the ids after it -/
example : Element.UpdatesTo ⟨0, "div", [], [], [⟨1, "p", [], [], [.blank 2 "br"], none, none⟩, .blank 3 "p"], none, none⟩
    ⟨0, "div", [], [], [⟨1, "p", [], [], [], none, none⟩, .blank 2 "p"], none, none⟩ := by
  refine C57_shrinking_partial _ _ (keyFit_unkeyed _ _ ?_ ?_) ?_ (by decide) (by decide) ?_ ?_
  all_goals simp [Element.Unkeyed, UnkeyedAll, Element.blank, Shrinks, ShrinksZip, Element.AttrsOk, AttrsOkAll, Headers.Distinct]

/-- non-vacuity of the keyed case: two keyed children, updated in place -/
example : Element.UpdatesTo ⟨0, "ul", [], [], [⟨1, "li", [], [], [], some "x", some "a"⟩, ⟨2, "li", [], [], [], some "y", some "b"⟩], none, none⟩
    ⟨0, "ul", [], [], [⟨1, "li", [], [], [], some "z", some "a"⟩, ⟨2, "h1", [], [], [], some "y", some "b"⟩], none, none⟩ := by
  refine C57_aligned_partial _ _ ?_ ?_ (by decide) (by decide) ?_ ?_
  all_goals simp [KeyFit, KeyFitZip, Aligned, AlignedZip, Element.AttrsOk, AttrsOkAll, Headers.Distinct]

/-- the views of the refutations: `div [p, p]`, `div [p [br], p]`, and `div [p [br], p]`, `div [p, h1]` -/
def growsBefore : WrappedBodyNode := (BodyNode.wrap (.div [])).withChildren [BodyNode.wrap (.p ⟨[], ""⟩), BodyNode.wrap (.p ⟨[], ""⟩)]
/-- see above -/
def growsAfter : WrappedBodyNode :=
  (BodyNode.wrap (.div [])).withChildren [(BodyNode.wrap (.p ⟨[], ""⟩)).child (BodyNode.wrap .br), BodyNode.wrap (.p ⟨[], ""⟩)]
/-- see above -/
def renamedAfter : WrappedBodyNode :=
  (BodyNode.wrap (.div [])).withChildren [BodyNode.wrap (.p ⟨[], ""⟩), BodyNode.wrap (.h1 ⟨[], ""⟩)]

/-- **C57 is false** for views of a component: (1) when an element is added in the middle the changeset gives a
wrong tree (the id of a later element is taken by the new one, which is then renumbered instead); (2) when an
element is removed and a later one changes its tag, applying the changeset crashes (the operation carries the new
id of the element, which nothing has yet). -/
theorem C57_apply_refuted :
    (∃ a b ops t, intoElement growsBefore 0 = some (a, 3) ∧ intoElement growsAfter 0 = some (b, 4) ∧
      a.diff (some b) = some ops ∧ applyOps ops a = some t ∧ ¬ t.Same b) ∧
    (∃ a b ops, intoElement growsAfter 0 = some (a, 4) ∧ intoElement renamedAfter 0 = some (b, 3) ∧
      a.diff (some b) = some ops ∧ applyOps ops a = none) := by
  refine ⟨⟨_, _, _, _, rfl, rfl, rfl, rfl, ?_⟩, ⟨_, _, _, rfl, rfl, rfl, rfl⟩⟩
  intro h
  have := h.ids
  exact absurd this (by decide)

/-! ## C58 -/

/-- applying to a missing element -/
theorem applyOp_absent {op : Op} {t : Element} (h : op.id ∉ t.ids) (hc : ∀ n p, op.instruction ≠ .createTag n (some p)) :
    applyOp op t = none := by
  have hm : ∀ f, findAndMutate op.id f t = none := by
    intro f
    unfold findAndMutate
    rw [(absent_tree op.id f t h).1]
  have hp : findParentId op.id t = none := (absent_tree op.id some t h).2.2.1
  cases hi : op.instruction with
  | createTag n p =>
    cases p with
    | none => simp [applyOp, hi]
    | some p => exact absurd hi (hc n p)
  | deleteEl => simp [applyOp, hi, hp]
  | _ => simp [applyOp, hi, hm]

theorem attrsOkAll_mem {cs : List Element} (h : AttrsOkAll cs) {c : Element} (hc : c ∈ cs) : c.AttrsOk := by
  induction cs with
  | nil => cases hc
  | cons d ds ih =>
    rw [AttrsOkAll] at h
    rcases List.mem_cons.1 hc with rfl | hc
    · exact h.1
    · exact ih h.2 hc

theorem keysOkAll_mem {cs : List Element} (h : KeysOkAll cs) {c : Element} (hc : c ∈ cs) : c.KeysOk := by
  induction cs with
  | nil => cases hc
  | cons d ds ih =>
    rw [KeysOkAll] at h
    rcases List.mem_cons.1 hc with rfl | hc
    · exact h.1
    · exact ih h.2 hc

theorem locate_self {ms : List Element} (hk : (ms.map fun c => c.key).Nodup) {m : Element} (hm : m ∈ ms) :
    locateByKey ms m.key = some m := by
  obtain ⟨l, r, rfl⟩ := List.append_of_mem hm
  exact firstKeyed_at rfl hk

/-- kept children are unchanged -/
theorem diffKeyed_self {ms : List Element} (ha : AttrsOkAll ms) (hko : KeysOkAll ms) (hk : (ms.map fun c => c.key).Nodup) :
    ∀ ts : List Element, (∀ t ∈ ts, t ∈ ms ∨ locateByKey ms t.key = none) → diffKeyed ms ts = some []
  | [], _ => by rw [diffKeyed]
  | t :: ts, h => by
    have ih := diffKeyed_self ha hko hk ts fun x hx => h x (List.mem_cons_of_mem _ hx)
    rw [diffKeyed]
    rcases h t (by simp) with ht | ht
    · have hd := diff_same t t (Element.Same.refl t) (attrsOkAll_mem ha ht) (attrsOkAll_mem ha ht) (keysOkAll_mem hko ht)
      simp only [locate_self hk ht, hd, ih, List.append_nil]
    · simp only [ht, ih]

/-- the changeset of a node whose keyed children have changed, and nothing else -/
theorem diff_children {a : Element} {cs : List Element} (ha : a.AttrsOk) (hko : a.KeysOk) (hm : AllKeyed a.children)
    (hc : AllKeyed cs) (hk : (a.children.map fun c => c.key).Nodup)
    (h : ∀ t ∈ cs, t ∈ a.children ∨ locateByKey a.children t.key = none) :
    a.diff (some { a with children := cs }) =
      match insertionOps cs (unpaired a.children cs).length (unpaired a.children cs) with
      | none => none
      | some ins => some (ins ++ deletionOps a.children cs) := by
  have ha' : a.attributes.Distinct ∧ AttrsOkAll a.children := by cases a; rw [Element.AttrsOk] at ha; exact ha
  have hko' : KeysOkAll a.children := by cases a; rw [Element.KeysOk] at hko; exact hko.2
  show diff a _ = _
  rw [diff_eq]
  have h1 : a.diffName { a with children := cs } = [] := by simp [Element.diffName]
  have h2 : a.diffAttributes { a with children := cs } = [] := by
    simp [Element.diffAttributes, (Headers.same_iff ha'.1 ha'.1).2]
  have h3 : a.diffText { a with children := cs } = [] := by simp [Element.diffText]
  have h4 : a.diffListeners { a with children := cs } = [] := by simp [Element.diffListeners]
  have h5 : a.diffId { a with children := cs } = [] := by simp [Element.diffId]
  have hkid : kidOps a { a with children := cs } =
      match insertionOps cs (unpaired a.children cs).length (unpaired a.children cs) with
      | none => none
      | some ins => some (ins ++ deletionOps a.children cs) := by
    unfold kidOps
    rw [if_pos (by rw [Bool.and_eq_true, allKeyed_iff, allKeyed_iff]; exact ⟨hm, hc⟩)]
    rw [diffKeyed_self ha'.2 hko' hk cs h]
    rfl
  rw [hkid, h1, h2, h3, h4, h5]
  cases insertionOps cs (unpaired a.children cs).length (unpaired a.children cs) <;> simp

theorem keys_nodup {cs : List Element} (hm : AllKeyed cs) (h : (cs.filterMap fun c => c.key).Nodup) :
    (cs.map fun c => c.key).Nodup := by
  induction cs with
  | nil => simp
  | cons c cs ih =>
    have hc : c.key ≠ none := hm c (by simp)
    obtain ⟨k, hk⟩ := Option.ne_none_iff_exists'.1 hc
    rw [List.filterMap_cons_some hk, List.nodup_cons] at h
    rw [List.map_cons, List.nodup_cons]
    refine ⟨?_, ih (fun m hm' => hm m (by simp [hm'])) h.2⟩
    intro hmem
    obtain ⟨d, hd, he⟩ := List.mem_map.1 hmem
    exact h.1 (List.mem_filterMap.2 ⟨d, hd, he.trans hk⟩)

theorem eq_of_keys {ms : List Element} (hk : (ms.map fun c => c.key).Nodup) : ∀ {as bs : List Element},
    (∀ x ∈ as, x ∈ ms) → (∀ x ∈ bs, x ∈ ms) → (as.map fun c => c.key) = (bs.map fun c => c.key) → as = bs
  | [], [], _, _, _ => rfl
  | [], b :: bs, _, _, h => by simp at h
  | a :: as, [], _, _, h => by simp at h
  | a :: as, b :: bs, ha, hb, h => by
    simp only [List.map_cons, List.cons.injEq] at h
    have h1 := locate_self hk (ha a (by simp))
    have h2 := locate_self hk (hb b (by simp))
    rw [h.1, h2] at h1
    have := eq_of_keys hk (as := as) (bs := bs) (fun x hx => ha x (by simp [hx])) (fun x hx => hb x (by simp [hx])) h.2
    rw [this, Option.some.inj h1]

/-- **C58 is false for reordering**: a changeset between any node with keyed children and the same node with its
children in any other order is empty, so the new order is never reached. -/
theorem C58_reorder_refuted (a : Element) (cs : List Element) (ha : a.AttrsOk) (hko : a.KeysOk) (hm : AllKeyed a.children)
    (hp : cs.Perm a.children) (hne : cs ≠ a.children) :
    a.diff (some { a with children := cs }) = some [] ∧ ¬ a.UpdatesTo { a with children := cs } := by
  have hk : (a.children.map fun c => c.key).Nodup := by
    have : (a.children.filterMap fun c => c.key).Nodup := by cases a; rw [Element.KeysOk] at hko; exact hko.1
    exact keys_nodup hm this
  have hd : a.diff (some { a with children := cs }) = some [] := by
    rw [diff_children ha hko hm (fun x hx => hm x (hp.mem_iff.1 hx)) hk (fun t ht => Or.inl (hp.mem_iff.1 ht)),
      unpaired_keys (fun b hb => List.mem_map.2 ⟨b, hp.mem_iff.1 hb, rfl⟩),
      deletionOps_keys (fun b hb => List.mem_map.2 ⟨b, hp.mem_iff.2 hb, rfl⟩)]
    rfl
  refine ⟨hd, ?_⟩
  rintro ⟨ops, t, h1, h2, h3⟩
  rw [hd] at h1
  cases h1
  rw [applyOps, Option.some.injEq] at h2
  subst h2
  have := h3.eqs.2.2.2.2.2.2
  exact hne (eq_of_keys hk (fun x hx => hp.mem_iff.1 hx) (fun x hx => hx) this.keys.symm)

/-- non-vacuity: swapping two keyed children -/
example : ¬ Element.UpdatesTo
    ⟨0, "ul", [], [], [⟨1, "li", [], [], [], some "x", some "a"⟩, ⟨2, "li", [], [], [], some "y", some "b"⟩], none, none⟩
    ⟨0, "ul", [], [], [⟨2, "li", [], [], [], some "y", some "b"⟩, ⟨1, "li", [], [], [], some "x", some "a"⟩], none, none⟩ :=
  (C58_reorder_refuted ⟨0, "ul", [], [], [⟨1, "li", [], [], [], some "x", some "a"⟩, ⟨2, "li", [], [], [], some "y", some "b"⟩], none, none⟩
    [⟨2, "li", [], [], [], some "y", some "b"⟩, ⟨1, "li", [], [], [], some "x", some "a"⟩]
    (by simp [Element.AttrsOk, AttrsOkAll, Headers.Distinct]) (by simp [Element.KeysOk, KeysOkAll]) (by simp [AllKeyed])
    (.swap _ _ _) (by simp)).2

theorem filter_range_single {n k : Nat} (h : k < n) (p : Nat → Bool) (hp : ∀ i, i < n → (p i = true ↔ i = k)) :
    (List.range n).filter p = [k] := by
  induction n with
  | zero => omega
  | succ n ih =>
    rw [List.range_succ, List.filter_append]
    by_cases hk : k = n
    · subst hk
      have h1 : (List.range k).filter p = [] := by
        rw [List.filter_eq_nil_iff]
        intro i hi hpi
        rw [List.mem_range] at hi
        have := (hp i (by omega)).1 hpi
        omega
      rw [h1, List.filter_cons_of_pos ((hp k (by omega)).2 rfl)]
      rfl
    · rw [ih (by omega) fun i hi => hp i (by omega), List.filter_cons_of_neg (by
        intro hpn
        have := (hp n (by omega)).1 hpn
        omega)]
      rfl

/-- **C58 is false for insertion**: for any node with keyed children and any new child with a new key and a new id,
at any position, either computing the changeset or applying it crashes. -/
theorem C58_insert_refuted (a t : Element) (l r : List Element) (ha : a.AttrsOk) (hko : a.KeysOk) (hm : AllKeyed a.children)
    (hc : a.children = l ++ r) (htk : t.key ≠ none) (hnew : ∀ m ∈ a.children, m.key ≠ t.key) (hid : t.id ∉ a.ids) :
    (match a.diff (some { a with children := l ++ t :: r }) with
      | none => none
      | some ops => applyOps ops a) = none := by
  have hk : (a.children.map fun c => c.key).Nodup := by
    have : (a.children.filterMap fun c => c.key).Nodup := by cases a; rw [Element.KeysOk] at hko; exact hko.1
    exact keys_nodup hm this
  have hall : AllKeyed (l ++ t :: r) := by
    intro x hx
    rcases List.mem_append.1 hx with h | h
    · exact hm x (by rw [hc]; exact List.mem_append.2 (Or.inl h))
    · rcases List.mem_cons.1 h with rfl | h
      · exact htk
      · exact hm x (by rw [hc]; exact List.mem_append.2 (Or.inr h))
  have hmem : ∀ x ∈ l ++ t :: r, x = t ∨ x ∈ a.children := by
    intro x hx
    rw [hc]
    rcases List.mem_append.1 hx with h | h
    · exact Or.inr (List.mem_append.2 (Or.inl h))
    · rcases List.mem_cons.1 h with rfl | h
      · exact Or.inl rfl
      · exact Or.inr (List.mem_append.2 (Or.inr h))
  have hun : unpaired a.children (l ++ t :: r) = [l.length] := by
    unfold unpaired
    refine filter_range_single (by simp) _ ?_
    intro i hi
    rw [List.getElem?_eq_getElem hi]
    simp only [Option.isNone_iff_eq_none]
    constructor
    · intro hno
      rw [locateByKey_none] at hno
      rcases Nat.lt_trichotomy i l.length with h | h | h
      · rw [List.getElem_append_left h] at hno
        exact absurd rfl (hno _ (by rw [hc]; exact List.mem_append.2 (Or.inl (List.getElem_mem h))))
      · exact h
      · rw [List.getElem_append_right (by omega)] at hno
        have hx : (t :: r)[i - l.length]'(by simp at hi ⊢; omega) ∈ r := by
          rw [List.getElem_cons]
          rw [dif_neg (by omega)]
          exact List.getElem_mem _
        exact absurd rfl (hno _ (by rw [hc]; exact List.mem_append.2 (Or.inr hx)))
    · rintro rfl
      rw [List.getElem_append_right (Nat.le_refl _)]
      simp only [Nat.sub_self, List.getElem_cons_zero]
      exact locateByKey_none.2 hnew
  rw [diff_children ha hko hm hall hk (fun x hx => by
    rcases hmem x hx with rfl | h
    · exact Or.inr (locateByKey_none.2 hnew)
    · exact Or.inl h), hun]
  simp only [insertionOps]
  cases hop : insertionOp (l ++ t :: r) [l.length].length l.length with
  | none => rfl
  | some op =>
    have hopid : op.id = t.id ∧ ∀ n p, op.instruction ≠ .createTag n (some p) := by
      unfold insertionOp at hop
      rw [List.getElem?_append_right (Nat.le_refl _)] at hop
      simp only [Nat.sub_self, List.getElem?_cons_zero] at hop
      split at hop
      · split at hop
        · cases hop; exact ⟨rfl, fun _ _ => by simp⟩
        · cases hop
      · split at hop
        · cases hop; exact ⟨rfl, fun _ _ => by simp⟩
        · split at hop
          · cases hop; exact ⟨rfl, fun _ _ => by simp⟩
          · cases hop
    simp only [List.cons_append]
    rw [applyOps, applyOp_absent (by rw [hopid.1]; exact hid) hopid.2]

/-- non-vacuity: appending a second keyed child -/
example : (match (⟨0, "ul", [], [], [⟨1, "li", [], [], [], none, some "a"⟩], none, none⟩ : Element).diff
      (some ⟨0, "ul", [], [], [⟨1, "li", [], [], [], none, some "a"⟩, ⟨2, "li", [], [], [], none, some "b"⟩], none, none⟩) with
    | none => none
    | some ops => applyOps ops ⟨0, "ul", [], [], [⟨1, "li", [], [], [], none, some "a"⟩], none, none⟩) = none :=
  C58_insert_refuted ⟨0, "ul", [], [], [⟨1, "li", [], [], [], none, some "a"⟩], none, none⟩ ⟨2, "li", [], [], [], none, some "b"⟩
    [⟨1, "li", [], [], [], none, some "a"⟩] []
    (by simp [Element.AttrsOk, AttrsOkAll, Headers.Distinct]) (by simp [Element.KeysOk, KeysOkAll]) (by simp [AllKeyed]) rfl
    (by simp) (by simp) (by decide)

theorem nodup_of_map {α β : Type} {f : α → β} {l : List α} (h : (l.map f).Nodup) : l.Nodup := by
  induction l with
  | nil => simp
  | cons x l ih =>
    rw [List.map_cons, List.nodup_cons] at h
    rw [List.nodup_cons]
    exact ⟨fun hx => h.1 (List.mem_map.2 ⟨x, hx, rfl⟩), ih h.2⟩

theorem nodup_map_of_inj {α β : Type} {f : α → β} (hf : ∀ x y, f x = f y → x = y) {l : List α} (h : l.Nodup) : (l.map f).Nodup := by
  induction l with
  | nil => simp
  | cons x l ih =>
    rw [List.nodup_cons] at h
    rw [List.map_cons, List.nodup_cons]
    refine ⟨fun hx => ?_, ih h.2⟩
    obtain ⟨y, hy, he⟩ := List.mem_map.1 hx
    exact h.1 (hf _ _ he ▸ hy)

theorem filter_sublist {α : Type} {q : α → Bool} {cs ms : List α} (h : cs.Sublist ms) : ms.Nodup →
    (∀ m ∈ ms, q m = true ↔ m ∈ cs) → ms.filter q = cs := by
  induction h with
  | slnil => intro _ _; rfl
  | @cons cs ms a h ih =>
    intro hn hq
    rw [List.nodup_cons] at hn
    rw [List.filter_cons_of_neg (fun hqa => hn.1 (h.subset ((hq a (by simp)).1 hqa)))]
    exact ih hn.2 fun m hm => hq m (by simp [hm])
  | @cons_cons cs ms a h ih =>
    intro hn hq
    rw [List.nodup_cons] at hn
    rw [List.filter_cons_of_pos ((hq a (by simp)).2 (by simp))]
    rw [ih hn.2 fun m hm => ?_]
    rw [hq m (by simp [hm]), List.mem_cons]
    constructor
    · rintro (rfl | h)
      · exact absurd hm hn.1
      · exact h
    · exact Or.inr

theorem apply_deletions (a : Element) (q : Element → Bool) : ∀ (rest done : List Element),
    a.id ∉ idsOf (done ++ rest) → (idsOf (done ++ rest)).Nodup →
    applyOps (rest.filterMap fun m => if q m then none else some ⟨m.id, .deleteEl⟩) { a with children := done ++ rest } =
      some { a with children := done ++ rest.filter q }
  | [], done, _, _ => by simp [applyOps]
  | m :: rest, done, hid, hn => by
    by_cases hq : q m = true
    · have ih := apply_deletions a q rest (done ++ [m]) (by simpa using hid) (by simpa using hn)
      rw [List.filterMap_cons_none (by simp [hq]), List.filter_cons_of_pos hq]
      simpa using ih
    · have hq' : q m = false := by simpa using hq
      rw [idsOf_append, idsOf, List.nodup_append] at hn
      have hmd : m.id ∉ idsOf done := fun h => hn.2.2 m.id h m.id (List.mem_append.2 (Or.inl m.id_mem_ids)) rfl
      have ih := apply_deletions a q rest done (by
          intro h
          apply hid
          rw [idsOf_append, idsOf]
          rw [idsOf_append] at h
          rcases List.mem_append.1 h with h | h
          · exact List.mem_append.2 (Or.inl h)
          · exact List.mem_append.2 (Or.inr (List.mem_append.2 (Or.inr h)))) (by
          rw [idsOf_append, List.nodup_append]
          have h2 := hn.2.1
          rw [List.nodup_append] at h2
          exact ⟨hn.1, h2.2.1, fun x hx y hy => hn.2.2 x hx y (List.mem_append.2 (Or.inr hy))⟩)
      rw [List.filterMap_cons_some (b := ⟨m.id, .deleteEl⟩) (by simp [hq']), List.filter_cons_of_neg (by simp [hq']), applyOps]
      have hop : applyOp ⟨m.id, .deleteEl⟩ { a with children := done ++ m :: rest } = some { a with children := done ++ rest } := by
        have hp : findParentId m.id { a with children := done ++ m :: rest } = some a.id := by
          rw [findParentId, (absent_prefix m.id some a.id done (m :: rest) hmd).2.2.1, findParentIdIn, if_pos rfl]
        simp only [applyOp, hp]
        unfold findAndMutate
        rw [mutateFirst, if_pos rfl]
        simp only
        rw [removeChild_append m.id done m rest rfl hmd]
        rfl
      rw [hop]
      exact ih

/-- **C58 (what holds).** Removing any keyed children of a node, keeping the others in order: the changeset turns the
old node into the new one. -/
theorem C58_removal_partial (a : Element) (cs : List Element) (ha : a.AttrsOk) (hko : a.KeysOk) (hm : AllKeyed a.children)
    (hn : a.ids.Nodup) (hs : cs.Sublist a.children) : a.UpdatesTo { a with children := cs } := by
  have hk : (a.children.map fun c => c.key).Nodup := by
    have : (a.children.filterMap fun c => c.key).Nodup := by cases a; rw [Element.KeysOk] at hko; exact hko.1
    exact keys_nodup hm this
  have hn' := Element.nodup_children hn
  have hmn : a.children.Nodup := nodup_of_map hk
  have hdel : deletionOps a.children cs = a.children.filterMap fun m => if (locateByKey cs m.key).isSome then none else some ⟨m.id, .deleteEl⟩ := by
    unfold deletionOps
    congr 1
    funext m
    cases locateByKey cs m.key <;> simp
  have hfil : a.children.filter (fun m => (locateByKey cs m.key).isSome) = cs := by
    refine filter_sublist hs hmn fun m hmm => ?_
    constructor
    · intro h
      obtain ⟨x, hx⟩ := Option.isSome_iff_exists.1 h
      obtain ⟨l, r, h1, h2, -⟩ := locateByKey_some.1 hx
      have hxc : x ∈ cs := by rw [h1]; simp
      have h3 := locate_self hk (hs.subset hxc)
      rw [h2, locate_self hk hmm, Option.some.injEq] at h3
      rw [h3]; exact hxc
    · intro h
      cases hl : locateByKey cs m.key with
      | some x => rfl
      | none => exact absurd rfl (locateByKey_none.1 hl m h)
  have happ := apply_deletions a (fun m => (locateByKey cs m.key).isSome) a.children [] hn'.2 hn'.1
  rw [hfil] at happ
  refine ⟨deletionOps a.children cs, { a with children := cs }, ?_, ?_, Element.Same.refl _⟩
  · rw [diff_children ha hko hm (fun x hx => hm x (hs.subset hx)) hk (fun t ht => Or.inl (hs.subset ht)),
      unpaired_keys (fun b hb => List.mem_map.2 ⟨b, hs.subset hb, rfl⟩)]
    rfl
  · rw [hdel]
    have hself : { a with children := [] ++ a.children } = a := by cases a; rfl
    rw [hself] at happ
    simpa using happ

/-- non-vacuity: removing the first of two -/
example : Element.UpdatesTo
    ⟨0, "ul", [], [], [⟨1, "li", [], [], [], some "x", some "a"⟩, ⟨2, "li", [], [], [], some "y", some "b"⟩], none, none⟩
    ⟨0, "ul", [], [], [⟨2, "li", [], [], [], some "y", some "b"⟩], none, none⟩ :=
  C58_removal_partial ⟨0, "ul", [], [], [⟨1, "li", [], [], [], some "x", some "a"⟩, ⟨2, "li", [], [], [], some "y", some "b"⟩], none, none⟩
    [⟨2, "li", [], [], [], some "y", some "b"⟩]
    (by simp [Element.AttrsOk, AttrsOkAll, Headers.Distinct]) (by simp [Element.KeysOk, KeysOkAll]) (by simp [AllKeyed])
    (by decide) (.cons _ (.refl _))

/-! ## C60 -/

/-- The operation concerns an attribute of the element `id` that differs between the two maps, and says how. -/
def Op.fixes (op : Op) (id : Nat) (old new : Headers) : Prop :=
  op.id = id ∧
  ((∃ k v, op.instruction = .setAttribute k v ∧ new.get k = some v ∧ old.get k ≠ some v) ∨
   (∃ k, op.instruction = .removeAttribute k ∧ new.get k = none ∧ old.get k ≠ none))

theorem get_some_of_mem {h : Headers} (hd : h.Distinct) {p : String × String} (hp : p ∈ h) : h.get p.1 = some p.2 := by
  exact (Headers.get_eq_some hd).2 hp

theorem diff_attrs_only {a : Element} {bs : Headers} (ha : a.AttrsOk) (hko : a.KeysOk) :
    a.diff (some { a with attributes := bs }) = some (a.diffAttributes { a with attributes := bs }) := by
  have ha' : a.attributes.Distinct ∧ AttrsOkAll a.children := by cases a; rw [Element.AttrsOk] at ha; exact ha
  have hself := diff_same a a (Element.Same.refl a) ha ha hko
  show diff a _ = _
  rw [diff_eq] at hself ⊢
  have hkid : kidOps a { a with attributes := bs } = kidOps a a := rfl
  rw [hkid]
  obtain ⟨n1, n2, n3, n4, n5⟩ := nodeOps_same (Element.Same.refl a) ha'.1 ha'.1
  cases hk : kidOps a a with
  | none => rw [hk] at hself; cases hself
  | some cs =>
    rw [hk, n1, n2, n3, n4, n5] at hself
    have hcs : cs = [] := by simpa using hself
    subst hcs
    have h1 : a.diffName { a with attributes := bs } = [] := n1
    have h3 : a.diffText { a with attributes := bs } = [] := n3
    have h4 : a.diffListeners { a with attributes := bs } = [] := n4
    have h5 : a.diffId { a with attributes := bs } = [] := n5
    simp only [h1, h3, h4, h5]
    simp

/-- **C60.** When only the attributes of an element change, the changeset touches only attributes that differ, each
once, and applying it gives exactly the new map (and changes nothing else), whatever the iteration orders. -/
theorem C60_attributes (a : Element) (bs : Headers) (ha : a.AttrsOk) (hko : a.KeysOk) (hb : bs.Distinct) :
    ∃ ops, a.diff (some { a with attributes := bs }) = some ops ∧
      (∀ op ∈ ops, op.fixes a.id a.attributes bs) ∧ ops.Nodup ∧
      ∃ m : Headers, applyOps ops a = some { a with attributes := m } ∧ ∀ k, m.get k = bs.get k := by
  have ha' : a.attributes.Distinct ∧ AttrsOkAll a.children := by cases a; rw [Element.AttrsOk] at ha; exact ha
  refine ⟨_, diff_attrs_only ha hko, ?_, ?_, ?_⟩
  · intro op hop
    rw [diffAttributes_eq] at hop
    split at hop
    · cases hop
    · rcases List.mem_append.1 hop with h | h
      · obtain ⟨k, hk, rfl⟩ := List.mem_map.1 h
        obtain ⟨p, hp, rfl⟩ := List.mem_map.1 hk
        rw [List.mem_filter] at hp
        refine ⟨rfl, Or.inr ⟨p.1, rfl, by simpa using hp.2, ?_⟩⟩
        rw [get_some_of_mem ha'.1 hp.1]; simp
      · obtain ⟨p, hp, rfl⟩ := List.mem_map.1 h
        unfold newEntries at hp
        rw [List.mem_filter] at hp
        exact ⟨rfl, Or.inl ⟨p.1, p.2, rfl, get_some_of_mem hb hp.1, by simpa using hp.2⟩⟩
  · rw [diffAttributes_eq]
    split
    · exact List.nodup_nil
    · rw [List.nodup_append]
      refine ⟨?_, ?_, ?_⟩
      · refine nodup_map_of_inj (fun x y h => by simpa using h) ?_
        unfold goneKeys
        exact ha'.1.sublist (List.filter_sublist.map _)
      · refine nodup_map_of_inj (fun x y h => by
          simp only [Op.mk.injEq, Instruction.setAttribute.injEq, true_and] at h
          exact Prod.ext h.1 h.2) ?_
        exact (nodup_of_map hb).sublist List.filter_sublist
      · intro x hx y hy he
        obtain ⟨k, -, rfl⟩ := List.mem_map.1 hx
        obtain ⟨q, -, rfl⟩ := List.mem_map.1 hy
        simp at he
  · obtain ⟨m, h1, h2⟩ := runs_attributes (R := Rules.none) (C := []) (a := a) (b := { a with attributes := bs }) (x := a) rfl
      (by simp [idsBefore]) ha'.1 hb (fun _ _ => trivial) (fun _ _ => trivial) (fun _ => rfl)
    exact ⟨m, h2.apply id, h1⟩

/-- non-vacuity: one attribute removed, one changed, one added, one kept -/
example : ∃ ops, (⟨7, "div", [("a", "1"), ("b", "2"), ("c", "3")], [], [], none, none⟩ : Element).diff
    (some ⟨7, "div", [("d", "5"), ("c", "3"), ("b", "4")], [], [], none, none⟩) = some ops ∧
    ops = [⟨7, .removeAttribute "a"⟩, ⟨7, .setAttribute "d" "5"⟩, ⟨7, .setAttribute "b" "4"⟩] :=
  ⟨_, rfl, rfl⟩

end Puck
