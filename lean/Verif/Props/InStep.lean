import Verif.Lemmas.OutOfStep
import Verif.Props.Client
/-!
# Exactly which updates between views of the same structure the browser follows (C103)
-/
namespace Puck

/-! ## Not enough -/

/-- everything the three cases share: an instruction of the changeset has been carried out, and what comes after spares what it
has done -/
theorem done_op {B : Browser} {a b : Element} {page : List Dom} {d d' : Dom} (hk : Kin a b) (hn : a.ids.Nodup) (hoa : a.Obeys (clientRules B))
    (hob : b.Obeys (clientRules B)) (hp : PageOk page) (hd : a.ShownAs d)
    (hm : clientMessage B (serializeOps ((pairs a b).flatMap nodeOps)) (page ++ [d]) = page ++ [d']) (hd' : b.ShownAs d')
    (op : Op) (hop : op ∈ (pairs a b).flatMap nodeOps) :
    ∃ body1 body2, clientOp B op.serialize body1 = some body2 ∧ (∀ i : Nat, (domIds body2).count (toString i) ≤ 1) ∧
      ∀ L T, (∀ o ∈ (pairs a b).flatMap nodeOps, Spares L T o) → FadesAll L T body2 (page ++ [d']) := by
  have hpl : ∀ o ∈ (pairs a b).flatMap nodeOps, (∃ p ∈ pairs a b, o.id = p.1.id) ∧ plainOp (clientRules B) o := by
    intro o ho
    obtain ⟨p, h1, h2⟩ := List.mem_flatMap.1 ho
    have hpn := pairs_nodes b a p h1
    have := nodeOps_plain (obeys_nodes a _ hoa hpn.1) (obeys_nodes b _ hob hpn.2) (kin_pair b a p hk h1).parts.1 o h2
    exact ⟨⟨p, h1, this.1⟩, this.2⟩
  obtain ⟨pre, post, e⟩ := List.append_of_mem hop
  rw [e] at hm hpl
  rcases message_complete pre op post (page ++ [d]) (fun o ho => (hpl o ho).2) with ⟨o, ho, hno⟩ | ⟨body1, body2, h1, h2, h3⟩
  · exfalso
    rw [hm] at hno
    apply hno
    obtain ⟨p, hpp, hpi⟩ := (hpl o ho).1
    have : o.id ∈ b.ids := by
      rw [← kin_ids b a hk, ← pairs_ids b a hk, hpi]
      exact List.mem_map.2 ⟨p, hpp, rfl⟩
    rw [domIds_elems, elemsAll_append, List.filterMap_append, List.mem_append]
    refine Or.inr ?_
    rw [elemsAll, elemsAll, List.append_nil, ← ids_elems, shown_ids b d' hd']
    exact List.mem_map.2 ⟨_, this, rfl⟩
  · refine ⟨body1, body2, h2, fun i => ?_, fun L T hs => ?_⟩
    · have f2 := op_fades (L := fun _ => False) (T := fun _ => False) (hpl op (by simp)).2 ⟨fun h => h.elim, fun h => h.elim⟩ h2
      have := FadesAll.ids _ _ (FadesAll.trans _ _ _ h1 f2)
      exact Nat.le_trans (this.count_le _) (count_page hp hd hn i)
    · rw [h3] at hm
      rw [← hm]
      rw [e] at hs
      exact message_fades post body2 (fun o ho => (hpl o (by simp [ho])).2) fun o ho => hs o (by simp [ho])

theorem mem_page {page : List Dom} {d y : Dom} (h : y ∈ d.elems) : y ∈ elemsAll (page ++ [d]) := by
  rw [elemsAll_append, List.mem_append, elemsAll, elemsAll, List.append_nil]
  exact Or.inr h

theorem shown_kids_ne {e : Element} {d : Dom} (h : e.ShownAs d) (hc : e.children ≠ []) : elemsAll d.kids ≠ [] := by
  obtain ⟨attrs, kids, rfl, ha, hk⟩ := h.elim
  simp only [Dom.kids, elemsAll_append, elemsAll_text, List.nil_append]
  cases hch : e.children with
  | nil => exact absurd hch hc
  | cons c cs =>
    rw [hch, ShownAsAll] at hk
    obtain ⟨x, xs, rfl, h1, h2⟩ := hk
    obtain ⟨attrs', kids', rfl, -, -⟩ := h1.elim
    rw [elemsAll, Dom.elems]
    simp

theorem kinAll_nil_iff {as bs : List Element} (h : KinAll as bs) : as = [] ↔ bs = [] := by
  have := kinAll_length bs as h
  rw [← List.length_eq_zero_iff, ← List.length_eq_zero_iff, this]

/-- the same element at the moment after the instruction and in the end -/
theorem out_of_step {B : Browser} {a b : Element} {page : List Dom} {d d' : Dom} (hk : Kin a b) (hn : a.ids.Nodup)
    (hoa : a.Obeys (clientRules B)) (hob : b.Obeys (clientRules B)) (hp : PageOk page) (hd : a.ShownAs d)
    (hm : clientMessage B (serializeOps ((pairs a b).flatMap nodeOps)) (page ++ [d]) = page ++ [d']) (hd' : b.ShownAs d') : InStep a b := by
  intro p hpp
  have hpn := pairs_nodes b a p hpp
  have hkp := kin_pair b a p hk hpp
  have hid := hkp.parts.1
  obtain ⟨y, hy, hys⟩ := shown_nodes b d' p.2 hd' hpn.2
  have hyid : y.idOf = some (toString p.1.id) := by rw [shown_id hys, hid]
  have same : ∀ q ∈ pairs a b, q.1.id = p.1.id → q = p := by
    intro q hq he
    exact eq_of_map_nodup (fun p => p.1.id) (pairs a b) q p (by rw [pairs_ids b a hk]; exact hn) hq hpp he
  have opOf : ∀ o ∈ (pairs a b).flatMap nodeOps, ∃ q ∈ pairs a b, o ∈ nodeOps q ∧ o.id = q.1.id := by
    intro o ho
    obtain ⟨q, h1, h2⟩ := List.mem_flatMap.1 ho
    have hqn := pairs_nodes b a q h1
    exact ⟨q, h1, h2, (nodeOps_plain (obeys_nodes a _ hoa hqn.1) (obeys_nodes b _ hob hqn.2) (kin_pair b a q hk h1).parts.1 o h2).1⟩
  constructor
  · -- text
    by_cases ht : p.1.text = p.2.text
    · exact Or.inl ht
    cases hb : p.2.text with
    | some v =>
      by_cases hc : p.1.children = []
      · exact Or.inr (Or.inl ⟨hc, by rw [hb]; simp⟩)
      · exfalso
        have hop : (⟨p.1.id, .setText v⟩ : Op) ∈ (pairs a b).flatMap nodeOps := by
          refine List.mem_flatMap.2 ⟨p, hpp, ?_⟩
          unfold nodeOps Element.diffText
          rw [if_neg ht, hb]
          simp
        obtain ⟨body1, body2, h1, h2, h3⟩ := done_op hk hn hoa hob hp hd hm hd' _ hop
        have h3 := h3 (fun _ => False) (fun _ => False) fun o _ => ⟨fun h => h.elim, fun h => h.elim⟩
        obtain ⟨x, hx, hxy⟩ := FadesAll.back _ _ y h3 (mem_page hy)
        -- the element right after the instruction has no element below it
        have hr : ∃ z ∈ elemsAll body2, z.idOf = some (toString p.1.id) ∧ elemsAll z.kids = [] := by
          change withElement (toString p.1.id) _ body1 = some body2 at h1
          unfold withElement at h1
          split at h1
          · cases h1
          · rename_i r hr
            subst h1
            obtain ⟨z, h4, h5, r', h6, h7⟩ := replaceIn_there _ _ hr
            cases z with
            | text => cases h5
            | elem tag attrs ls cs =>
              simp only [Option.some.injEq] at h6
              subst h6
              refine ⟨.elem tag attrs ls (textContent v), h7 _ ?_, h5, elemsAll_textContent v⟩
              rw [elemsAll, Dom.elems]
              simp [Op.serialize]
        obtain ⟨z, hz1, hz2, hz3⟩ := hr
        have hxz : x = z := elems_unique (h2 p.1.id) hx hz1 (by rw [← hxy.idOf]; exact hyid) hz2
        subst hxz
        have hne := shown_kids_ne hys (fun e => hc ((kinAll_nil_iff hkp.parts.2.2).2 e))
        apply hne
        cases x with
        | text => cases hz2
        | elem tag attrs ls cs =>
          rw [Fades] at hxy
          obtain ⟨attrs', ls', cs', rfl, -, -, h8⟩ := hxy
          rcases h8 with h8 | h8
          · exact FadesAll.noElems _ _ h8 hz3
          · exact h8.1
    | none =>
      cases ha : p.1.text with
      | none => exact absurd (ha.trans hb.symm) ht
      | some s =>
        by_cases hs : s = ""
        · exact Or.inr (Or.inr ⟨by rw [ha, hs], hb⟩)
        · exfalso
          have hsp : ∀ o ∈ (pairs a b).flatMap nodeOps, Spares (fun _ => False) (fun i => i = toString p.1.id) o := by
            intro o ho
            refine ⟨fun h => h.elim, fun he v hv => ?_⟩
            obtain ⟨q, h1, h2, h3⟩ := opOf o ho
            have := same q h1 (h3.symm.trans (toString_nat_inj he))
            subst this
            obtain ⟨oid, oin⟩ := o
            simp only at hv
            subst hv
            unfold nodeOps at h2
            simp only [List.mem_append] at h2
            rcases h2 with (h2 | h2) | h2
            · rw [diffAttributes_eq] at h2
              split at h2
              · cases h2
              · simp at h2
            · unfold Element.diffText at h2
              rw [if_neg ht, hb] at h2
              simp at h2
            · unfold Element.diffListeners Element.generateListeners at h2
              split at h2
              · cases h2
              · simp at h2
          have hpl : ∀ o ∈ (pairs a b).flatMap nodeOps, plainOp (clientRules B) o := by
            intro o ho
            obtain ⟨q, h1, h2, h3⟩ := opOf o ho
            have hqn := pairs_nodes b a q h1
            exact (nodeOps_plain (obeys_nodes a _ hoa hqn.1) (obeys_nodes b _ hob hqn.2) (kin_pair b a q hk h1).parts.1 o h2).2
          have hf := message_fades (L := fun _ => False) _ (page ++ [d]) hpl hsp
          rw [hm] at hf
          obtain ⟨x, hx, hxy⟩ := FadesAll.back _ _ y hf (mem_page hy)
          obtain ⟨z, hz, hzs⟩ := shown_nodes a d p.1 hd hpn.1
          have hxz : x = z := elems_unique (count_page hp hd hn p.1.id) hx (mem_page hz) (by rw [← hxy.idOf]; exact hyid) (shown_id hzs)
          subst hxz
          obtain ⟨attrs, kids, rfl, hat, hkk⟩ := hzs.elim
          rw [Fades] at hxy
          obtain ⟨attrs', ls', cs', rfl, -, -, h8⟩ := hxy
          rcases h8 with h8 | h8
          · rw [ha] at h8
            have : textNodes (some s) = [.text s] := by simp [textNodes, hs]
            rw [this, List.cons_append, FadesAll] at h8
            obtain ⟨e, es, rfl, h9, -⟩ := h8
            rw [Fades] at h9
            subst h9
            obtain ⟨attrs2, kids2, h10, -, h11⟩ := hys.elim
            rw [hb] at h10
            simp only [textNodes, List.nil_append] at h10
            injection h10 with _ _ _ h10
            subst h10
            cases hch : p.2.children with
            | nil => rw [hch] at h11; have := shownAsAll_nil h11; cases this
            | cons c cs =>
              rw [hch, ShownAsAll] at h11
              obtain ⟨x, xs, h12, h13, -⟩ := h11
              obtain ⟨_, _, h14, -⟩ := h13.elim
              rw [h14] at h12
              cases h12
          · exact h8.2 (toString p.1.id) ((hat "id").trans (if_pos rfl)) rfl
  · -- listeners
    intro hl q hq hql
    have hqq : q ∈ pairs a b := pairs_sub b a p hpp q hq
    by_cases hne : q.2.listeners = []
    · exact hne
    exfalso
    have hop : (⟨p.1.id, .removeListeners⟩ : Op) ∈ (pairs a b).flatMap nodeOps := by
      refine List.mem_flatMap.2 ⟨p, hpp, ?_⟩
      unfold nodeOps Element.diffListeners
      rw [if_neg hl]
      simp
    obtain ⟨body1, body2, h1, h2, h3⟩ := done_op hk hn hoa hob hp hd hm hd' _ hop
    have h3 := h3 (fun i => i = toString q.1.id) (fun _ => False) (by
      intro o ho
      refine ⟨fun he n on hv => ?_, fun h => h.elim⟩
      obtain ⟨r, h1, h2, h3⟩ := opOf o ho
      have : r = q := eq_of_map_nodup (fun p => p.1.id) (pairs a b) r q (by rw [pairs_ids b a hk]; exact hn) h1 hqq
        (h3.symm.trans (toString_nat_inj he))
      subst this
      obtain ⟨oid, oin⟩ := o
      simp only at hv
      subst hv
      unfold nodeOps at h2
      simp only [List.mem_append] at h2
      rcases h2 with (h2 | h2) | h2
      · rw [diffAttributes_eq] at h2
        split at h2
        · cases h2
        · simp at h2
      · unfold Element.diffText at h2
        split at h2
        · cases h2
        · split at h2 <;> simp at h2
      · unfold Element.diffListeners at h2
        rw [if_pos hql] at h2
        cases h2)
    obtain ⟨x, hx, hxy⟩ := FadesAll.back _ _ y h3 (mem_page hy)
    -- right after the instruction nothing in the element has listeners
    have hr : ∃ z ∈ elemsAll body2, z.idOf = some (toString p.1.id) ∧ ∀ u ∈ z.elems, u.lis = [] := by
      change withElement (toString p.1.id) _ body1 = some body2 at h1
      unfold withElement at h1
      split at h1
      · cases h1
      · rename_i r hr
        subst h1
        obtain ⟨z, h4, h5, r', h6, h7⟩ := replaceIn_there _ _ hr
        simp only [Option.some.injEq] at h6
        subst h6
        cases z with
        | text => cases h5
        | elem tag attrs ls cs =>
          refine ⟨(Dom.elem tag attrs ls cs).cloneNode, h7 _ ?_, h5, fun u hu => clone_lis _ u hu⟩
          rw [elemsAll, Dom.cloneNode, Dom.elems]
          simp
    obtain ⟨z, hz1, hz2, hz3⟩ := hr
    have hxz : x = z := elems_unique (h2 p.1.id) hx hz1 (by rw [← hxy.idOf]; exact hyid) hz2
    subst hxz
    have hqn : q.2 ∈ p.2.nodes := by
      rw [nodes_eq]
      exact List.mem_cons_of_mem _ (pairsAll_nodes _ _ q hq).2
    obtain ⟨u, hu, hus⟩ := shown_nodes p.2 y q.2 hys hqn
    obtain ⟨v, hv, hvu⟩ := Fades.back x y u hxy hu
    have hvl := hz3 v hv
    have hvid : v.idOf = some (toString q.1.id) := by
      rw [← hvu.idOf, shown_id hus, (kin_pair b a q hk hqq).parts.1]
    have hul := shown_lis hus
    cases v with
    | text => cases hvid
    | elem tag attrs ls cs =>
      rw [Fades] at hvu
      obtain ⟨attrs', ls', cs', rfl, -, h8, -⟩ := hvu
      have := h8 _ hvid rfl hvl
      exact hne (by rw [← hul]; exact this)

/-! ## C103 -/

mutual
/-- every tree can be shown -/
theorem exists_shown : ∀ e : Element, ∃ d, e.ShownAs d
  | ⟨id, name, attributes, listeners, children, text, key⟩ => by
    obtain ⟨ds, hds⟩ := exists_shownAll children
    refine ⟨_, Element.ShownAs.intro (t := ⟨id, name, attributes, listeners, children, text, key⟩) (attrs := ("id", toString id) :: attributes) ?_ hds⟩
    intro k
    simp only [Headers.get, List.find?_cons]
    by_cases h : k = "id"
    · subst h; simp
    · have : ("id" == k) = false := by simpa using fun e => h e.symm
      simp [this, h]
theorem exists_shownAll : ∀ es : List Element, ∃ ds, ShownAsAll es ds
  | [] => ⟨[], by rw [ShownAsAll]⟩
  | e :: es => by
    obtain ⟨d, hd⟩ := exists_shown e
    obtain ⟨ds, hds⟩ := exists_shownAll es
    exact ⟨d :: ds, by rw [ShownAsAll]; exact ⟨d, ds, rfl, hd, hds⟩⟩
end

/-- **C103 (trees).** Between two trees of the same structure and tags, with the same distinct ids and without keys, whose names and values
survive the trip: the changeset exists; if every change can be followed (`InStep`), processing it on any page that shows the old
tree shows the new one; and otherwise it does so on no page. -/
theorem C103_trees (B : Browser) (a b : Element) (hsh : SameShape a b) (hal : Aligned a b) (htag : ∀ p ∈ pairs a b, p.1.name = p.2.name)
    (hn : a.ids.Nodup) (hua : a.Unkeyed) (hub : b.Unkeyed) (ha : a.AttrsOk) (hb : b.AttrsOk) (hoa : a.Obeys (clientRules B))
    (hob : b.Obeys (clientRules B)) :
    ∃ ops, a.diff (some b) = some ops ∧
      (InStep a b → ∀ page d, PageOk page → a.ShownAs d →
        ∃ d', clientMessage B (serializeOps ops) (page ++ [d]) = page ++ [d'] ∧ b.ShownAs d') ∧
      (¬ InStep a b → ∀ page d, PageOk page → a.ShownAs d →
        ¬ ∃ d', clientMessage B (serializeOps ops) (page ++ [d]) = page ++ [d'] ∧ b.ShownAs d') := by
  have hk := kin_of b a hsh hal htag
  refine ⟨_, diff_kin b a hk hua hub, fun hstep page d hp hd => ?_, fun hno page d hp hd => ?_⟩
  · obtain ⟨t', h1, h2⟩ := near_runs (R := clientRules B) trivial b a a [] (near_refl b a hk) hk hstep (by simp [idsBefore]) hn ha hb hoa hob hua hub
    obtain ⟨d', h3, h4⟩ := sim_runs h2 hp hd
    exact ⟨d', h3, (same_shown b t' d' h1).2 h4⟩
  · rintro ⟨d', h1, h2⟩
    exact hno (out_of_step hk hn hoa hob hp hd h1 h2)

/-- **C103.** Between two renders of a component of the same structure and tags, whose names and values survive the trip, the browser is kept in
step exactly when: no non-empty text is taken away, the text of an element with children does not change, and below an element
whose listeners change every element which keeps its listeners has none. -/
theorem C103_in_step_iff (B : Browser) (w w' : WrappedBodyNode) (g : Nat) (a b : Element) (ga gb : Nat)
    (ha : intoElement w g = some (a, ga)) (hb : intoElement w' g = some (b, gb)) (hw : w.AttrsOk) (hw' : w'.AttrsOk)
    (hoa : a.Obeys (clientRules B)) (hob : b.Obeys (clientRules B)) (hsh : SameShape a b) (htag : ∀ p ∈ pairs a b, p.1.name = p.2.name) :
    a.UpdatesInBrowser B b ↔
      ∀ p ∈ pairs a b,
        (p.1.text = p.2.text ∨ (p.1.children = [] ∧ p.2.text ≠ none) ∨ (p.1.text = some "" ∧ p.2.text = none)) ∧
        (p.1.listeners ≠ p.2.listeners → ∀ q ∈ pairsAll p.1.children p.2.children, q.1.listeners = q.2.listeners → q.2.listeners = []) := by
  have ia := dense_increasing ha
  have ib := dense_increasing hb
  obtain ⟨ops, h1, h2, h3⟩ := C103_trees B a b hsh (aligned_of_dense b a g hsh ia.2 ib.2).1 htag (nodup_of_increasing ia.1)
    (intoElement_unkeyed ha) (intoElement_unkeyed hb) (intoElement_attrsOk hw ha) (intoElement_attrsOk hw' hb) hoa hob
  change _ ↔ InStep a b
  constructor
  · rintro ⟨ops', e, h⟩
    have e := h1.symm.trans e
    cases e
    refine Classical.byContradiction fun hno => ?_
    obtain ⟨d, hd⟩ := exists_shown a
    exact h3 hno [] d (by simp [PageOk, domIds]) hd (h [] d (by simp [PageOk, domIds]) hd)
  · intro h
    exact ⟨ops, h1, h2 h⟩

/-- a form with a heading and a button inside; listeners and text are parameters -/
def panel (outer inner : Option ListenerRef) (text : String) : WrappedBodyNode :=
  let div := BodyNode.wrap (.div [])
  let p := BodyNode.wrap (.p ⟨[], text⟩)
  (match outer with | some l => div.listener l | none => div).withChildren [match inner with | some l => p.listener l | none => p]

/-- non-vacuity: both listeners change and so does the text, which the browser follows although `Gentle` fails -/
example : ∃ a b, intoElement (panel (some ⟨"x", "click"⟩) (some ⟨"y", "click"⟩) "1") 0 = some (a, 2) ∧
    intoElement (panel (some ⟨"z", "click"⟩) (some ⟨"v", "click"⟩) "2") 0 = some (b, 2) ∧ a.UpdatesInBrowser plainBrowser b ∧ ¬ Gentle a b := by
  refine ⟨_, _, rfl, rfl, ?_, ?_⟩
  · rw [C103_in_step_iff plainBrowser (panel (some ⟨"x", "click"⟩) (some ⟨"y", "click"⟩) "1") (panel (some ⟨"z", "click"⟩) (some ⟨"v", "click"⟩) "2") 0 _ _ 2 2 rfl rfl]
    · simp [pairs, pairsAll, BodyNode.wrap, WrappedBodyNode.listener]
    · simp [panel, BodyNode.wrap, WrappedBodyNode.withChildren, WrappedBodyNode.listener, WrappedBodyNode.AttrsOk,
        WrappedAttrsOk, BodyNode.htmlAttrs, Headers.Distinct]
    · simp [panel, BodyNode.wrap, WrappedBodyNode.withChildren, WrappedBodyNode.listener, WrappedBodyNode.AttrsOk,
        WrappedAttrsOk, BodyNode.htmlAttrs, Headers.Distinct]
    · simp [Element.Obeys, ObeysAll, clientRules, plainBrowser, BodyNode.wrap]; decide +kernel
    · simp [Element.Obeys, ObeysAll, clientRules, plainBrowser, BodyNode.wrap]; decide +kernel
    · simp [SameShape, SameShapeAll]
    · simp [pairs, pairsAll]
  · simp [Gentle, GentleZip, SilentAll, Element.Silent, BodyNode.wrap, WrappedBodyNode.listener]

/-- non-vacuity: the outer listener changes, the inner one is kept, and the browser loses it -/
example : ∃ a b, intoElement (panel (some ⟨"x", "click"⟩) (some ⟨"y", "click"⟩) "1") 0 = some (a, 2) ∧
    intoElement (panel none (some ⟨"y", "click"⟩) "1") 0 = some (b, 2) ∧ ¬ a.UpdatesInBrowser plainBrowser b := by
  refine ⟨_, _, rfl, rfl, ?_⟩
  rw [C103_in_step_iff plainBrowser (panel (some ⟨"x", "click"⟩) (some ⟨"y", "click"⟩) "1") (panel none (some ⟨"y", "click"⟩) "1") 0 _ _ 2 2 rfl rfl]
  · simp [pairs, pairsAll, BodyNode.wrap, WrappedBodyNode.listener]
  · simp [panel, BodyNode.wrap, WrappedBodyNode.withChildren, WrappedBodyNode.listener, WrappedBodyNode.AttrsOk,
      WrappedAttrsOk, BodyNode.htmlAttrs, Headers.Distinct]
  · simp [panel, BodyNode.wrap, WrappedBodyNode.withChildren, WrappedBodyNode.listener, WrappedBodyNode.AttrsOk,
      WrappedAttrsOk, BodyNode.htmlAttrs, Headers.Distinct]
  · simp [Element.Obeys, ObeysAll, clientRules, plainBrowser, BodyNode.wrap]; decide +kernel
  · simp [Element.Obeys, ObeysAll, clientRules, plainBrowser, BodyNode.wrap]; decide +kernel
  · simp [SameShape, SameShapeAll]
  · simp [pairs, pairsAll]

end Puck
