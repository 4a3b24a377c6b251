import Verif.Lemmas.PaintOwn
/-!
# Positional changesets in the page: exact, or wrong for good (the main recursion)
-/
namespace Puck.Shape.Paint

/-! ## An element that moves to a higher id -/

theorem deps_eq {v : Nat} {l : List (Ent Lab)} : deps v l = (at_ v l).map (·.dep) := rfl

theorem stills {b a : Element} {ops : List Op} {v : Nat} (ha : a.Unkeyed) (hb : b.Unkeyed) (h : Puck.diff a b = some ops) (hv : v ∉ b.ids) :
    ∀ op ∈ ops.map toB, Still v op := by
  intro op ho
  obtain ⟨o, ho', rfl⟩ := List.mem_map.1 ho
  exact still_of fun hc => hv ((diff_facts b a ops ha hb h o ho').2.2.1 v (tgt_of_crt hc))

theorem stillsZip {bs as : List Element} {ops : List Op} {v : Nat} (ha : UnkeyedAll as) (hb : UnkeyedAll bs) (h : diffZip as bs = some ops) (hv : v ∉ idsOf bs) :
    ∀ op ∈ ops.map toB, Still v op := by
  intro op ho
  obtain ⟨o, ho', rfl⟩ := List.mem_map.1 ho
  exact still_of fun hc => hv ((diffZip_facts bs as ops ha hb h o ho').2.2.1 v (tgt_of_crt hc))

theorem quietsZip {bs as : List Element} {ops : List Op} {v : Nat} (ha : UnkeyedAll as) (hb : UnkeyedAll bs) (h : diffZip as bs = some ops) (hv : v ∉ idsOf bs)
    (hv' : v ∉ idsOf as) : ∀ op ∈ ops.map toB, Quiet v op := by
  intro op ho
  obtain ⟨o, ho', rfl⟩ := List.mem_map.1 ho
  obtain ⟨-, h1, h2, -⟩ := diffZip_facts bs as ops ha hb h o ho'
  refine quiet_of ?_ fun hc => hv (h2 v (tgt_of_crt hc))
  rintro rfl
  exact h1.elim hv' hv

/-- The rename at the end of a comparison hits another element. -/
theorem grows {g : Nat} {C : List (Fr Lab)} {N : List Nat} {a b : Element} {s : Tr Lab} {σ : Bool} {ops : List Op} (ka : a.Unkeyed) (kb : b.Unkeyed)
    (h : Ctx g C N a.id b.id) (hgt : a.id < b.id) (hord : (a.ids ++ postIds C).Pairwise (· < ·)) (hb : b.ids = List.range' b.id b.ids.length)
    (hops : Puck.diff a b = some ops) (hs : bsteps (ops.map toB) (plug C (sh σ (tr a))) = some s) : ∃ e ∈ leftE C, SMiss e.id e.dep s := by
  have hv : a.id ∈ leftIds C := by
    rcases h.cover a.id h.ge hgt with hc | hc
    · have := h.new_lt _ hc; omega
    · exact hc
  obtain ⟨e, he, hev⟩ := List.mem_map.1 hv
  refine ⟨e, he, ?_⟩
  have hdep : C.length + 1 ≤ e.dep := by
    cases C with
    | nil => rw [leftE] at he; cases he
    | cons f C =>
      obtain ⟨o1, o2⟩ := h.outer f C rfl
      rw [leftE, List.mem_append] at he
      rcases he with he | he
      · have := o1 e.id (List.mem_map.2 ⟨e, mem_preE.2 (Or.inr he), rfl⟩)
        omega
      · rcases levs_mem_root he with ⟨r, h1, h2⟩ | h
        · have := o2 r h1
          omega
        · simp; omega
  have hgtr : ∀ i ∈ idsOf a.children ++ postIds C, a.id < i := by
    rw [a.ids_eq, List.cons_append, List.pairwise_cons] at hord
    exact hord.1
  have hat : deps a.id ((plug C (sh σ (tr a))).lev 0) = [e.dep, C.length] := by
    rw [lev_plug, deps_append, deps_append, deps_eq, at_preE (fun f hf => by have := h.chain f hf; omega), at_nodup h.left_nodup he hev, sh_tr, Tr.lev,
      deps_cons, if_pos rfl, deps_eq, at_none, deps_eq, at_none]
    · rfl
    · intro x hx hxe
      have := hgtr x.id (List.mem_append_right _ (List.mem_map.2 ⟨x, hx, rfl⟩))
      exact absurd hxe (Nat.ne_of_gt this)
    · intro x hx hxe
      have := hgtr x.id (List.mem_append_left _ (by
        rw [← trAll_ids, ← shAll_ids σ, ← levs_ids _ (C.length + 1)]; exact List.mem_map.2 ⟨x, hx, rfl⟩))
      exact absurd hxe (Nat.ne_of_gt this)
  obtain ⟨pairs, hz, rfl⟩ := diff_parts ka kb hops
  have hnew : a.id ∉ b.ids := fun hi => by have := mem_dense hb hi; omega
  unfold Element.diffId at hs
  rw [if_neg (by omega), List.map_append] at hs
  obtain ⟨m, h1, h2⟩ := bsteps_append_some hs
  obtain ⟨s', h3, h4⟩ := bsteps_cons_some h2
  cases h4
  have hq : (deps a.id (m.lev 0)).Sublist [e.dep, C.length] := by
    rw [← hat]
    refine bsteps_still 0 h1 ?_
    intro op ho
    exact stills ka kb hops hnew op (by rw [List.map_append]; exact List.mem_append_left _ ho)
  obtain ⟨x, hx⟩ := setId_deps 0 (show b.id ≠ a.id by omega) h3
  rw [hx] at hq
  intro y hy hyv
  have hy' : y.dep ∈ deps a.id (s.lev 0) := mem_deps.2 ⟨y, hy, by rw [hyv, hev], rfl⟩
  have hsub : (deps a.id (s.lev 0)).Sublist [C.length] := by
    cases hq with
    | cons _ hq => exact (List.sublist_cons_self ..).trans hq
    | cons_cons _ hq => exact hq
  have := List.mem_singleton.1 (hsub.subset hy')
  omega

/-! ## What has to hold -/

/-- Something is wrong for good: an element before the path is no longer in its place, or one of `X` is not as it should be. -/
def Wrong (C : List (Fr Lab)) (X : List (Ent Lab)) (s : Tr Lab) : Prop :=
  (∃ e ∈ leftE C, SMiss e.id e.dep s) ∨ ∃ e ∈ X, Bad (postIds C) e s

theorem Wrong.mono {C : List (Fr Lab)} {X Y : List (Ent Lab)} {s : Tr Lab} (h : Wrong C X s) (hs : ∀ e ∈ X, e ∈ Y) : Wrong C Y s :=
  h.imp id fun ⟨e, h1, h2⟩ => ⟨e, hs e h1, h2⟩

theorem Wrong.same {C C' : List (Fr Lab)} {X : List (Ent Lab)} {s : Tr Lab} (h : Wrong C' X s) (hs : SameCtx C C') : Wrong C X s := by
  rcases h with ⟨e, h1, h2⟩ | ⟨e, h1, h2⟩
  · obtain ⟨e', g1, g2, g3⟩ := hs.left_mem h1
    exact Or.inl ⟨e', g1, by rw [g2, g3]; exact h2⟩
  · exact Or.inr ⟨e, h1, by rw [hs.postIds]; exact h2⟩

theorem Wrong.bsteps {C : List (Fr Lab)} {X : List (Ent Lab)} {s s' : Tr Lab} {ops : List BOp} (h : Wrong C X s) (hs : bsteps ops s = some s')
    (hst : ∀ e ∈ leftE C ++ X, ∀ op ∈ ops, Still e.id op) (hq : ∀ e ∈ X, (∀ i ∈ postIds C, e.id < i) → ∀ op ∈ ops, Quiet e.id op) : Wrong C X s' := by
  rcases h with ⟨e, h1, h2⟩ | ⟨e, h1, h2⟩
  · exact Or.inl ⟨e, h1, h2.bsteps hs (hst e (List.mem_append_left _ h1))⟩
  · exact Or.inr ⟨e, h1, h2.bsteps hs (fun _ h => h) (hst e (List.mem_append_right _ h1)) (hq e h1)⟩

mutual
/-- The changeset is exact, with `anc` the ids of the elements around `a` at that time, `σ` whether listeners have been removed from them. -/
def Good (σ : Bool) (anc : List Nat) (a : Element) : Element → Prop
  | ⟨bi, bn, ba, bl, bk, bt, bkey⟩ =>
    bi ≤ a.id ∧ OwnGood σ a ⟨bi, bn, ba, bl, bk, bt, bkey⟩ ∧ (Wiped a ⟨bi, bn, ba, bl, bk, bt, bkey⟩ → a.children = []) ∧
    (∀ K ∈ nodesAll (bk.drop a.children.length), K.id ∈ a.id :: anc → K.Empty) ∧
    GoodZip (below' σ a ⟨bi, bn, ba, bl, bk, bt, bkey⟩) (a.id :: anc) a.children bk
/-- children, paired by position -/
def GoodZip (σ : Bool) (anc : List Nat) (as : List Element) : List Element → Prop
  | [] => True
  | b :: bs =>
    match as with
    | [] => True
    | a :: as => Good σ anc a b ∧ GoodZip σ anc as bs
end

theorem GoodZip_take (σ : Bool) (anc : List Nat) : ∀ (bs as : List Element), GoodZip σ anc (as.take bs.length) bs ↔ GoodZip σ anc as bs
  | [], as => by rw [GoodZip, GoodZip]
  | b :: bs, [] => Iff.rfl
  | b :: bs, a :: as => by rw [List.length_cons, List.take_succ_cons, GoodZip, GoodZip, GoodZip_take σ anc bs as]

theorem Good_id {σ : Bool} {anc : List Nat} {a b : Element} (h : Good σ anc a b) : b.id ≤ a.id := by cases b; rw [Good] at h; exact h.1

/-! ## The recursion -/

theorem setId_run {a b : Element} {C : List (Fr Lab)} {l : Lab} {ks : List (Tr Lab)} (hp : a.id ∉ preIds C) :
    bsteps ((a.diffId b).map toB) (plug C (.node a.id l ks)) = some (plug C (.node b.id l ks)) := by
  unfold Element.diffId
  split
  · rename_i h; rw [h]; rfl
  · rw [List.map_cons, bsteps, toB]
    simp only [setId_plug hp]
    rfl

theorem setId_still {a b : Element} {v : Nat} (h : v ≠ b.id) : ∀ op ∈ (a.diffId b).map toB, Still v op := by
  intro op ho
  obtain ⟨o, ho', rfl⟩ := List.mem_map.1 ho
  rw [diffId_cases ho']
  exact fun e => h e.symm

theorem setId_quiet {a b : Element} {v : Nat} (h : v ≠ b.id) : ∀ op ∈ (a.diffId b).map toB, Quiet v op := by
  intro op ho
  obtain ⟨o, ho', rfl⟩ := List.mem_map.1 ho
  rw [diffId_cases ho']
  exact fun e => h e.symm

theorem take_min (bs : List Element) (n : Nat) : bs.take (min bs.length n) = bs.take n := by
  rcases Nat.le_total n bs.length with h | h
  · rw [Nat.min_eq_right h]
  · rw [Nat.min_eq_left h, List.take_length, List.take_of_length_le h]

/-- What the children need. -/
def RestGood (τ : Bool) (anc : List Nat) (a b : Element) : Prop :=
  (∀ K ∈ nodesAll (b.children.drop a.children.length), K.id ∈ a.id :: anc → K.Empty) ∧ GoodZip τ (a.id :: anc) a.children b.children

/-- After the element's own changes: the children and the id. -/
theorem rest_or {a b : Element} {g : Nat} {C : List (Fr Lab)} {N : List Nat} {l : Lab} {τ : Bool} {pairs : List Op} (okb : AttrsOkAll b.children)
    (hctx : Ctx g C N a.id b.id) (hle : b.id ≤ a.id) (hord : (a.ids ++ postIds C).Pairwise (· < ·))
    (hb : b.ids = List.range' b.id b.ids.length)
    (ih : (GoodZip τ (a.id :: C.map (·.id)) (a.children.take b.children.length) b.children ∧
        bsteps (pairs.map toB) (plug C (.node a.id l (shAll τ (trAll (a.children.take b.children.length))))) =
          some (plug C (.node a.id l (trAll (b.children.take (a.children.take b.children.length).length))))) ∨
      (¬ GoodZip τ (a.id :: C.map (·.id)) (a.children.take b.children.length) b.children ∧
        ∀ s, bsteps (pairs.map toB) (plug C (.node a.id l (shAll τ (trAll (a.children.take b.children.length))))) = some s →
          Wrong C (levs (C.length + 1) (trAll (b.children.take (a.children.take b.children.length).length))) s)) :
    (RestGood τ (C.map (·.id)) a b ∧
      bsteps (((a.children.drop b.children.length).map (fun c => (⟨c.id, .deleteEl⟩ : Op)) ++ pairs ++
        createAll (some a.id) (b.children.drop a.children.length) ++ a.diffId b).map toB) (plug C (.node a.id l (shAll τ (trAll a.children)))) =
        some (plug C (.node b.id l (trAll b.children)))) ∨
    (¬ RestGood τ (C.map (·.id)) a b ∧ ∀ s,
      bsteps (((a.children.drop b.children.length).map (fun c => (⟨c.id, .deleteEl⟩ : Op)) ++ pairs ++
        createAll (some a.id) (b.children.drop a.children.length) ++ a.diffId b).map toB) (plug C (.node a.id l (shAll τ (trAll a.children)))) = some s →
      Wrong C (levs (C.length + 1) (trAll b.children)) s) := by
  have hpre : ∀ i ∈ preIds C, i < a.id := preIds_lt hctx.chain hctx.left_lt hle
  have hai : a.id ∉ preIds C := fun h => Nat.lt_irrefl _ (hpre _ h)
  have hbk : idsOf b.children = List.range' (b.id + 1) (idsOf b.children).length := (dense_elem hb).2
  rw [a.ids_eq, List.cons_append] at hord
  have hord' := hord
  rw [List.pairwise_cons, List.pairwise_append] at hord'
  rw [GoodZip_take] at ih
  rw [List.length_take, take_min] at ih
  -- deletions
  have hd : bsteps (((a.children.drop b.children.length).map (fun c => (⟨c.id, .deleteEl⟩ : Op))).map toB)
      (plug C (.node a.id l (shAll τ (trAll a.children)))) = some (plug C (.node a.id l (shAll τ (trAll (a.children.take b.children.length))))) := by
    have h := deletes (C := C) (p := a.id) (l := l) (keep := shAll τ (trAll (a.children.take b.children.length)))
      (shAll τ (trAll (a.children.drop b.children.length)))
    have happ : shAll τ (trAll (a.children.take b.children.length)) ++ shAll τ (trAll (a.children.drop b.children.length)) = shAll τ (trAll a.children) := by
      rw [← shAll_append, ← trAll_append, List.take_append_drop]
    rw [happ] at h
    have hmap : (shAll τ (trAll (a.children.drop b.children.length))).map (fun c => BOp.delete c.id) =
        ((a.children.drop b.children.length).map (fun c => (⟨c.id, .deleteEl⟩ : Op))).map toB := by
      rw [List.map_map]
      cases τ
      · simp only [shAll, trAll_map, List.map_map, Bool.false_eq_true, if_false]
        apply List.map_congr_left
        intro c _
        simp only [Function.comp, toB, tr_id]
      · simp only [shAll, trAll_map, hushAll_map, List.map_map, if_true]
        apply List.map_congr_left
        intro c _
        simp only [Function.comp, toB, hush_id, tr_id]
    rw [hmap] at h
    refine h ?_ ?_
    · rw [shAll_ids, trAll_ids]
      exact List.nodup_cons.2 ⟨fun h => Nat.lt_irrefl _ (hord'.1 _ (List.mem_append_left _ h)), nodup_of_lt hord'.2.1⟩
    · rw [shAll_ids, trAll_ids]
      intro i hi hp
      have h1 := hpre i hp
      have h2 := hord'.1 i (List.mem_append_left _ hi)
      omega
  rw [List.append_assoc, List.append_assoc, List.map_append, bsteps_append, hd, Option.bind_some, List.map_append, bsteps_append, List.map_append]
  have hsplit := hbk
  rw [idsOf_take_drop b.children a.children.length] at hsplit
  obtain ⟨hb1, hb2⟩ := range'_split hsplit
  have htakelev : ∀ e ∈ levs (C.length + 1) (trAll (b.children.take a.children.length)), e ∈ levs (C.length + 1) (trAll b.children) := by
    intro e he
    rw [← List.take_append_drop a.children.length b.children, trAll_append, levs_append]
    exact List.mem_append_left _ he
  have hdroplev : ∀ e ∈ levs (C.length + 1) (trAll (b.children.drop a.children.length)), e ∈ levs (C.length + 1) (trAll b.children) := by
    intro e he
    rw [← List.take_append_drop a.children.length b.children, trAll_append, levs_append]
    exact List.mem_append_right _ he
  rcases ih with ⟨z1, z2⟩ | ⟨z1, z2⟩
  · rw [z2, Option.bind_some, bsteps_append]
    -- creations
    have har : Around (b.id + 1 + (idsOf (b.children.take a.children.length)).length)
        (⟨a.id, l, trAll (b.children.take a.children.length), []⟩ :: C) (postE C) C.length := by
      have hleft : ∀ i ∈ leftIds C, i < b.id + 1 + (idsOf (b.children.take a.children.length)).length := by
        intro i hi; have := hctx.left_lt i hi; omega
      have hdone : ∀ i ∈ idsF (trAll (b.children.take a.children.length)), i < b.id + 1 + (idsOf (b.children.take a.children.length)).length := by
        intro i hi
        rw [trAll_ids] at hi
        exact (mem_dense hb1 hi).2
      refine ⟨?_, ?_, ?_⟩
      · intro i hi
        rw [leftIds_cons, List.mem_append] at hi
        rcases hi with hi | hi
        · exact hleft i hi
        · exact hdone i hi
      · refine col_of hctx.chain hctx.sorted hleft hdone ?_ hctx.head
        refine List.Pairwise.sublist ?_ hord
        exact List.Sublist.cons_cons _ (List.sublist_append_right _ _)
      · intro f hf _ y hy
        have hy' : a.id < y.id := hord'.1 y.id (List.mem_append_right _ (List.mem_map.2 ⟨y, hy, rfl⟩))
        rcases List.mem_cons.1 hf with rfl | hf
        · exact hy'
        · have := hctx.chain f hf; omega
    have hok : AttrsOkAll (b.children.drop a.children.length) := (attrsOkAll_take okb _).2
    rcases makeAll_or (b.children.drop a.children.length) C a.id l (trAll (b.children.take a.children.length)) _ C.length hai hok hb2 har (Nat.le_refl _)
      with ⟨c1, c2⟩ | ⟨c1, c2⟩
    · left
      refine ⟨⟨c1, z1⟩, ?_⟩
      rw [c2, Option.bind_some, ← trAll_append, List.take_append_drop, setId_run hai]
    · right
      refine ⟨fun h => c1 h.1, ?_⟩
      intro s hs
      cases hm : bsteps ((createAll (some a.id) (b.children.drop a.children.length)).map toB) (plug C (.node a.id l (trAll (b.children.take a.children.length)))) with
      | none => rw [hm] at hs; cases hs
      | some m =>
        rw [hm, Option.bind_some] at hs
        obtain ⟨e, h1, h2⟩ := c2 m hm
        have := mem_dense hb2 (levs_trAll_mem h1)
        exact Or.inr ⟨e, hdroplev e h1, h2.bsteps hs (fun _ h => h) (setId_still (by omega)) (fun _ => setId_quiet (by omega))⟩
  · right
    refine ⟨fun h => z1 h.2, ?_⟩
    intro s hs
    cases hm : bsteps (pairs.map toB) (plug C (.node a.id l (shAll τ (trAll (a.children.take b.children.length))))) with
    | none => rw [hm] at hs; cases hs
    | some m =>
      rw [hm, Option.bind_some] at hs
      have hw := z2 m hm
      obtain ⟨m', h3, h4⟩ := bsteps_append_some hs
      have hne : ∀ e ∈ leftE C ++ levs (C.length + 1) (trAll (b.children.take a.children.length)),
          e.id ≠ b.id ∧ e.id ∉ idsOf (b.children.drop a.children.length) := by
        intro e he
        rcases List.mem_append.1 he with h | h
        · have h1 := hctx.left_lt e.id (List.mem_map.2 ⟨e, h, rfl⟩)
          refine ⟨by omega, fun h2 => ?_⟩
          have := mem_dense hb2 h2
          omega
        · have h3 := mem_dense hb1 (levs_trAll_mem h)
          refine ⟨by omega, fun h4 => ?_⟩
          have := mem_dense hb2 h4
          omega
      refine Wrong.mono ?_ htakelev
      refine (hw.bsteps h3 (fun e he => createAll_still (hne e he).2) (fun e he _ => createAll_quiet (hne e (List.mem_append_right _ he)).2)).bsteps h4
        (fun e he => setId_still (hne e he).1) (fun e he _ => setId_quiet (hne e (List.mem_append_right _ he)).1)

/-- A text that replaces children: nothing is left to compare them with. -/
theorem wiped_bad {a b : Element} {g : Nat} {C : List (Fr Lab)} {N : List Nat} {l : Lab} {pairs : List Op} {s : Tr Lab} (ka : a.Unkeyed) (kb : b.Unkeyed)
    (hctx : Ctx g C N a.id b.id) (hle : b.id ≤ a.id) (hord : (a.ids ++ postIds C).Pairwise (· < ·))
    (hb : b.ids = List.range' b.id b.ids.length) (hz : diffZip a.children b.children = some pairs) (hne : a.children ≠ [])
    (hs : bsteps (((a.children.drop b.children.length).map (fun c => (⟨c.id, .deleteEl⟩ : Op)) ++ pairs ++
        createAll (some a.id) (b.children.drop a.children.length) ++ a.diffId b).map toB) (plug C (.node a.id l [])) = some s) :
    Wrong C (levs (C.length + 1) (trAll b.children)) s := by
  have hpre : ∀ i ∈ preIds C, i < a.id := preIds_lt hctx.chain hctx.left_lt hle
  have hbk : idsOf b.children = List.range' (b.id + 1) (idsOf b.children).length := (dense_elem hb).2
  rw [a.ids_eq, List.cons_append] at hord
  rw [List.pairwise_cons, List.pairwise_append] at hord
  have habs : ∀ i ∈ idsOf a.children, i ∉ (plug C (.node a.id l [])).ids := by
    intro i hi hp
    rw [plug_ids, List.mem_append, List.mem_append, Tr.ids, idsF, List.mem_singleton] at hp
    have h1 := hord.1 i (List.mem_append_left _ hi)
    rcases hp with (hp | hp) | hp
    · have := hpre i hp; omega
    · omega
    · exact Nat.lt_irrefl _ (hord.2.2.2 i hi i hp)
  rw [List.append_assoc, List.append_assoc, List.map_append, List.map_append, List.map_append] at hs
  obtain ⟨m1, hdel, hs⟩ := bsteps_append_some hs
  obtain ⟨m2, hzip, hs⟩ := bsteps_append_some hs
  obtain ⟨m3, hmake, hset⟩ := bsteps_append_some hs
  have hdel0 : m1 = plug C (.node a.id l []) ∧ a.children.drop b.children.length = [] := by
    have := bsteps_absent hdel (by
      intro op ho
      obtain ⟨o, ho', rfl⟩ := List.mem_map.1 ho
      obtain ⟨c, hc, rfl⟩ := List.mem_map.1 ho'
      exact Or.inr ⟨c.id, rfl, habs _ (mem_idsOf_of_mem (List.mem_of_mem_drop hc) c.id_mem_ids)⟩)
    refine ⟨this.1, ?_⟩
    cases hd : a.children.drop b.children.length with
    | nil => rfl
    | cons c cs =>
      have := this.2 (.delete c.id) (by rw [hd]; exact List.mem_cons_self ..)
      cases this
  obtain ⟨rfl, hlen⟩ := hdel0
  have hzip0 := goneZip b.children a.children pairs _ m2 (Unkeyed.children ka) (Unkeyed.children kb) hz habs hzip
  subst hzip0
  cases hak : a.children with
  | nil => exact absurd hak hne
  | cons a0 as =>
    cases hbk0 : b.children with
    | nil => rw [hak, hbk0] at hlen; cases hlen
    | cons b0 bs =>
      rw [hak, hbk0] at hz
      obtain ⟨d, ds, h1, h2, rfl⟩ := diffZip_cons hz
      rw [List.map_append] at hzip
      obtain ⟨m', h3, h4⟩ := bsteps_append_some hzip
      have ka' := Unkeyed.children ka
      have kb' := Unkeyed.children kb
      rw [hak, UnkeyedAll] at ka'
      rw [hbk0, UnkeyedAll] at kb'
      have hab := (gone b0 a0 d _ m' ka'.1 kb'.1 h1 (fun i hi => habs i (by rw [hak, idsOf]; exact List.mem_append_left _ hi)) h3).2
      have hid : a0.id ∉ (plug C (.node a.id l [])).ids := habs _ (by rw [hak, idsOf]; exact List.mem_append_left _ a0.id_mem_ids)
      rw [hab] at hid
      have hdc := dense_elems (hbk0 ▸ hbk)
      have hb0 : b0.id = b.id + 1 := (dense_elem hdc.1).1
      refine Or.inr ⟨⟨b0.id, C.length + 1, labOf b0⟩, ?_, Or.inl ?_⟩
      · rw [trAll, levs, tr_eq, Tr.lev]; simp
      · refine SMiss.bsteps (SMiss.bsteps ?_ hmake (createAll_still ?_)) hset (setId_still (by simp only; omega))
        · intro x hx hxi
          exact absurd (by rw [← lev_ids _ 0]; exact List.mem_map.2 ⟨x, hx, hxi⟩) hid
        · intro hc
          rw [hak, hbk0, List.length_cons, List.drop_succ_cons] at hc
          have hc' : b0.id ∈ idsOf bs := by rw [idsOf_take_drop bs as.length]; exact List.mem_append_right _ hc
          have := mem_dense hdc.2 hc'
          rw [b0.ids_eq, List.length_cons] at this
          omega

mutual
theorem diff_or : ∀ (b a : Element) (g : Nat) (C : List (Fr Lab)) (N : List Nat) (σ : Bool) (ops : List Op), a.Unkeyed → b.Unkeyed → a.AttrsOk → b.AttrsOk →
    Ctx g C N a.id b.id → (a.ids ++ postIds C).Pairwise (· < ·) → b.ids = List.range' b.id b.ids.length → Puck.diff a b = some ops →
    (Good σ (C.map (·.id)) a b ∧ bsteps (ops.map toB) (plug C (sh σ (tr a))) = some (plug C (tr b))) ∨
    (¬ Good σ (C.map (·.id)) a b ∧ ∀ s, bsteps (ops.map toB) (plug C (sh σ (tr a))) = some s → Wrong C ((tr b).lev C.length) s)
  | ⟨bi, bn, ba, bl, bk, bt, bkey⟩, a, g, C, N, σ, ops, ka, kb, oka, okb, hctx, hord, hb, hops => by
    by_cases hgt : a.id < bi
    · right
      refine ⟨fun h => by have := Good_id h; simp only at this; omega, ?_⟩
      intro s hs
      obtain ⟨e, h1, h2⟩ := grows ka kb hctx hgt hord hb hops hs
      exact Or.inl ⟨e, h1, h2⟩
    · generalize hB : (⟨bi, bn, ba, bl, bk, bt, bkey⟩ : Element) = b at *
      have hbi : b.id = bi := by rw [← hB]
      have hbk : b.children = bk := by rw [← hB]
      have hle : b.id ≤ a.id := by omega
      have hda : a.attributes.Distinct := by cases a; rw [Element.AttrsOk] at oka; exact oka.1
      have hdb : b.attributes.Distinct := by rw [← hB, Element.AttrsOk] at okb; rw [← hB]; exact okb.1
      have hokak : AttrsOkAll a.children := by cases a; rw [Element.AttrsOk] at oka; exact oka.2
      have hokbk : AttrsOkAll b.children := by rw [← hB, Element.AttrsOk] at okb; rw [← hB]; exact okb.2
      have hpre : ∀ i ∈ preIds C, i < a.id := preIds_lt hctx.chain hctx.left_lt hle
      have hai : a.id ∉ preIds C := fun h => Nat.lt_irrefl _ (hpre _ h)
      have hord' := hord
      rw [a.ids_eq, List.cons_append, List.pairwise_cons] at hord'
      have hpost : ∀ i ∈ postIds C, a.id < i := fun i hi => hord'.1 i (List.mem_append_right _ hi)
      have hkid : ∀ i ∈ idsOf a.children, a.id < i := fun i hi => hord'.1 i (List.mem_append_left _ hi)
      have hbkd : idsOf b.children = List.range' (b.id + 1) (idsOf b.children).length := (dense_elem hb).2
      obtain ⟨pairs, hz, rfl⟩ := diff_parts ka kb hops
      have hgood : Good σ (C.map (·.id)) a b ↔ OwnGood σ a b ∧ (Wiped a b → a.children = []) ∧ RestGood (below' σ a b) (C.map (·.id)) a b := by
        unfold RestGood
        rw [← hB, Good]
        simp only [hB]
        exact ⟨fun h => ⟨h.2.1, h.2.2.1, h.2.2.2⟩, fun h => ⟨by omega, h.1, h.2.1, h.2.2⟩⟩
      have hroot : (⟨b.id, C.length, labOf b⟩ : Ent Lab) ∈ (tr b).lev C.length := by rw [tr_eq, Tr.lev]; exact List.mem_cons_self ..
      have hkids : ∀ e ∈ levs (C.length + 1) (trAll b.children), e ∈ (tr b).lev C.length := by
        intro e he; rw [tr_eq, Tr.lev]; exact List.mem_cons_of_mem _ he
      rw [hgood]
      rw [List.append_assoc, List.map_append, bsteps_append]
      -- the rest, wherever it starts from
      have rest : ∀ C' l' τ, SameCtx C C' → _ := fun C' l' τ hsame =>
        rest_or (l := l') (τ := τ) (pairs := pairs) hokbk (hsame.ctx hctx) hle (by rw [← hsame.postIds]; exact hord) hb
          (by
            have := diffZip_or bk (a.children.take b.children.length) g C' N a.id b.id 0 l' [] τ pairs
              (unkeyedAll_take (Unkeyed.children ka) _).1 (hbk ▸ Unkeyed.children kb) (attrsOkAll_take hokak _).1 (hbk ▸ hokbk)
              (hsame.ctx hctx) hle (by rw [idsF]; rfl)
              (by
                rw [← hsame.postIds]
                rw [a.ids_eq, List.cons_append] at hord
                refine List.Pairwise.sublist ?_ hord
                refine List.Sublist.cons_cons _ ?_
                refine List.Sublist.append ?_ (List.Sublist.refl _)
                rw [idsOf_take_drop a.children b.children.length]
                exact List.sublist_append_left _ _)
              (by simp) (hbk ▸ hbkd) (by rw [hbk]; simp; omega) (by rw [← hbk, ← diffZip_take]; exact hz)
            rw [List.nil_append, List.nil_append, levs, List.nil_append, ← hbk] at this
            exact this)
      have fin : ∀ (m : Tr Lab) C' l' τ, SameCtx C C' → m = plug C' (.node a.id l' (kept τ a b)) → ∀ s,
          bsteps (((a.children.drop b.children.length).map (fun c => (⟨c.id, .deleteEl⟩ : Op)) ++ pairs ++
            createAll (some a.id) (b.children.drop a.children.length) ++ a.diffId b).map toB) m = some s →
          ((Wiped a b → a.children = []) ∧ RestGood τ (C.map (·.id)) a b ∧ s = plug C' (.node b.id l' (trAll b.children))) ∨
          ((¬ ((Wiped a b → a.children = []) ∧ RestGood τ (C.map (·.id)) a b)) ∧ Wrong C ((tr b).lev C.length) s) := by
        intro m C' l' τ hsame hm s hs
        subst hm
        have hmem : Wrong C' (levs (C'.length + 1) (trAll b.children)) s → Wrong C ((tr b).lev C.length) s := by
          intro h
          rw [← hsame.length] at h
          exact (h.same hsame).mono hkids
        by_cases hw : Wiped a b → a.children = []
        · have hkept : kept τ a b = shAll τ (trAll a.children) := by
            unfold kept
            split
            · rename_i h; rw [hw h, trAll, shAll_nil]
            · rfl
          rw [hkept] at hs
          rcases rest C' l' τ hsame with ⟨r1, r2⟩ | ⟨r1, r2⟩
          · left
            rw [r2] at hs
            cases hs
            exact ⟨hw, by rw [hsame.ids]; exact r1, rfl⟩
          · right
            rw [hsame.ids]
            exact ⟨fun h => r1 h.2, hmem (r2 s hs)⟩
        · right
          refine ⟨fun h => hw h.1, ?_⟩
          have hW : Wiped a b := Classical.byContradiction fun h => hw fun h' => absurd h' h
          have hne : a.children ≠ [] := fun h => hw fun _ => h
          have hkept : kept τ a b = [] := by unfold kept; rw [if_pos hW]
          rw [hkept] at hs
          exact hmem (wiped_bad ka kb (hsame.ctx hctx) hle (by rw [← hsame.postIds]; exact hord) hb hz hne hs)
      rcases own_run (σ := σ) hda hdb hle hai hctx.left_lt hpost hkid with ⟨o1, o2⟩ | ⟨o1, o2⟩
      · rw [o2, Option.bind_some]
        by_cases hall : (Wiped a b → a.children = []) ∧ RestGood (below' σ a b) (C.map (·.id)) a b
        · left
          refine ⟨⟨o1, hall⟩, ?_⟩
          have hkept : kept (below' σ a b) a b = shAll (below' σ a b) (trAll a.children) := by
            unfold kept
            split
            · rename_i h; rw [hall.1 h, trAll, shAll_nil]
            · rfl
          rw [hkept]
          rcases rest C (labOf b) (below' σ a b) (.refl _) with ⟨r1, r2⟩ | ⟨r1, r2⟩
          · rw [r2, tr_eq b]
          · exact absurd hall.2 r1
        · right
          refine ⟨fun h => hall h.2, ?_⟩
          intro s hs
          rcases fin _ C (labOf b) (below' σ a b) (.refl _) rfl s hs with h | h
          · exact absurd ⟨h.1, h.2.1⟩ hall
          · exact h.2
      · right
        refine ⟨fun h => o1 h.1, ?_⟩
        intro s hs
        cases hm : bsteps ((ownOps a b).map toB) (plug C (sh σ (tr a))) with
        | none => rw [hm] at hs; cases hs
        | some m =>
          rw [hm, Option.bind_some] at hs
          obtain ⟨C', l', τ, h1, h2, h3⟩ := o2 m hm
          rcases fin m C' l' τ h1 h2 s hs with ⟨-, -, rfl⟩ | h
          · refine Or.inr ⟨_, hroot, Or.inr ⟨?_, fun i hi => by have := hpost i hi; simp only; omega⟩⟩
            intro y hy hyi hyd
            simp only at hyi hyd ⊢
            rw [lev_plug, Tr.lev, List.mem_append, List.mem_append, List.mem_cons] at hy
            rcases hy with (hy | hy | hy) | hy
            · exfalso
              rcases mem_preE.1 hy with hy | hy
              · obtain ⟨-, -, -, h4⟩ := chainE_mem hy
                have := h1.length
                omega
              · have := hctx.left_lt y.id (by rw [h1.leftIds]; exact List.mem_map.2 ⟨y, hy, rfl⟩)
                omega
            · rw [hy]; exact h3
            · have := mem_dense hbkd (levs_trAll_mem hy)
              omega
            · have := hpost y.id (by rw [h1.postIds]; exact List.mem_map.2 ⟨y, hy, rfl⟩)
              omega
          · exact h.2
theorem diffZip_or : ∀ (bs as : List Element) (g : Nat) (C : List (Fr Lab)) (N : List Nat) (p q n : Nat) (l : Lab) (done : List (Tr Lab)) (σ : Bool)
    (ops : List Op), UnkeyedAll as → UnkeyedAll bs → AttrsOkAll as → AttrsOkAll bs →
    Ctx g C N p q → q ≤ p → idsF done = List.range' (q + 1) n → (p :: (idsOf as ++ postIds C)).Pairwise (· < ·) →
    (∀ r ∈ done, ∀ x ∈ as, r.id < x.id) → idsOf bs = List.range' (q + 1 + n) (idsOf bs).length → as.length ≤ bs.length → diffZip as bs = some ops →
    (GoodZip σ (p :: C.map (·.id)) as bs ∧
      bsteps (ops.map toB) (plug C (.node p l (done ++ shAll σ (trAll as)))) = some (plug C (.node p l (done ++ trAll (bs.take as.length))))) ∨
    (¬ GoodZip σ (p :: C.map (·.id)) as bs ∧ ∀ s, bsteps (ops.map toB) (plug C (.node p l (done ++ shAll σ (trAll as)))) = some s →
      Wrong C (levs (C.length + 1) done ++ levs (C.length + 1) (trAll (bs.take as.length))) s)
  | [], as, g, C, N, p, q, n, l, done, σ, ops, ka, kb, oka, okb, hctx, hqp, hd, hord, hroots, hb, hlen, hops => by
    have : as = [] := List.eq_nil_of_length_eq_zero (by simpa using hlen)
    subst this
    rw [diffZip] at hops
    cases hops
    left
    rw [GoodZip]
    refine ⟨trivial, ?_⟩
    rw [trAll, shAll_nil]
    rfl
  | b :: bs, [], g, C, N, p, q, n, l, done, σ, ops, ka, kb, oka, okb, hctx, hqp, hd, hord, hroots, hb, hlen, hops => by
    rw [diffZip] at hops
    cases hops
    left
    rw [GoodZip]
    refine ⟨trivial, ?_⟩
    rw [trAll, shAll_nil]
    rfl
  | b :: bs, a :: as, g, C, N, p, q, n, l, done, σ, ops, ka, kb, oka, okb, hctx, hqp, hd, hord, hroots, hb, hlen, hops => by
    obtain ⟨d, ds, ho1, ho2, rfl⟩ := diffZip_cons hops
    rw [UnkeyedAll] at ka kb
    rw [AttrsOkAll] at oka okb
    have hdc := dense_elems hb
    have hbid : b.id = q + 1 + n := (dense_elem hdc.1).1
    have hlast : ∀ x ∈ as, a.id < x.id := by
      intro x hx
      rw [List.pairwise_cons, idsOf, List.append_assoc, List.pairwise_append] at hord
      exact hord.2.2.2 a.id a.id_mem_ids x.id (List.mem_append_left _ (mem_idsOf_of_mem hx x.id_mem_ids))
    have hchild := hctx.child (l := l) (done := done) (a := sh σ (tr a)) (as := shAll σ (trAll as)) hqp hd
      (by rw [← shAll_cons, shAll_ids, ← trAll, trAll_ids]; exact hord)
      (by
        intro r hr x hx
        rw [← shAll_cons, ← trAll] at hx
        obtain ⟨e, he, hxe⟩ := mem_shAll hx
        rw [hxe]
        exact hroots r hr e he)
    rw [← hbid, sh_id, tr_id] at hchild
    rw [← hbid] at hdc
    have hpi : postIds (⟨p, l, done, shAll σ (trAll as)⟩ :: C) = idsOf as ++ postIds C := by
      rw [postIds_cons, shAll_ids, trAll_ids]
    have hord1 : (a.ids ++ postIds (⟨p, l, done, shAll σ (trAll as)⟩ :: C)).Pairwise (· < ·) := by
      rw [hpi]
      rw [List.pairwise_cons, idsOf, List.append_assoc] at hord
      exact hord.2
    have hr := diff_or b a g (⟨p, l, done, shAll σ (trAll as)⟩ :: C) (q :: N) σ d ka.1 kb.1 oka.1 okb.1 hchild hord1 hdc.1 ho1
    have hinit : plug C (.node p l (done ++ shAll σ (trAll (a :: as)))) = plug (⟨p, l, done, shAll σ (trAll as)⟩ :: C) (sh σ (tr a)) := by
      rw [trAll, shAll_cons]; rfl
    rw [hinit, List.map_append, bsteps_append, GoodZip]
    rcases hr with ⟨r1, r2⟩ | ⟨r1, r2⟩
    · have hle : b.id ≤ a.id := Good_id r1
      have hplug : plug (⟨p, l, done, shAll σ (trAll as)⟩ :: C) (tr b) = plug C (.node p l ((done ++ [tr b]) ++ shAll σ (trAll as))) := by
        rw [List.append_assoc]; rfl
      rw [r2, Option.bind_some, hplug]
      have hz := diffZip_or bs as g C N p q (n + b.ids.length) l (done ++ [tr b]) σ ds ka.2 kb.2 oka.2 okb.2 hctx hqp
        (by
          rw [idsF_append, hd, idsF, idsF, List.append_nil, tr_ids]
          conv => lhs; rw [hdc.1, hbid]
          rw [List.range'_append_1])
        (by
          refine List.Pairwise.sublist ?_ hord
          refine List.Sublist.cons_cons _ ?_
          rw [idsOf, List.append_assoc]
          exact List.sublist_append_right _ _)
        (by
          intro r hr x hx
          rcases List.mem_append.1 hr with hr | hr
          · exact hroots r hr x (List.mem_cons_of_mem _ hx)
          · rw [List.mem_singleton.1 hr, tr_id]
            have := hlast x hx
            omega)
        (by rw [hdc.2]; simp only [List.length_range']; rw [hbid]; congr 1; omega)
        (by simp at hlen; omega) ho2
      rcases hz with ⟨z1, z2⟩ | ⟨z1, z2⟩
      · left
        refine ⟨⟨r1, z1⟩, ?_⟩
        rw [z2, List.length_cons, List.take_succ_cons, trAll, List.append_assoc]
        rfl
      · right
        refine ⟨fun h => z1 h.2, ?_⟩
        intro s hs
        refine (z2 s hs).mono ?_
        intro e h1
        rw [levs_append, levs, levs, List.append_nil] at h1
        rw [List.length_cons, List.take_succ_cons, trAll, levs]
        simp only [List.mem_append] at h1 ⊢
        rcases h1 with (h | h) | h
        · exact Or.inl h
        · exact Or.inr (Or.inl h)
        · exact Or.inr (Or.inr h)
    · right
      refine ⟨fun h => r1 h.1, ?_⟩
      intro s hs
      cases hm : bsteps (d.map toB) (plug (⟨p, l, done, shAll σ (trAll as)⟩ :: C) (sh σ (tr a))) with
      | none => rw [hm] at hs; cases hs
      | some m =>
        rw [hm, Option.bind_some] at hs
        have hleft : ∀ e ∈ leftE (⟨p, l, done, shAll σ (trAll as)⟩ :: C), e.id ∉ idsOf bs := by
          intro e h hc
          have h3 := mem_dense hdc.2 hc
          have := hchild.left_lt e.id (List.mem_map.2 ⟨e, h, rfl⟩)
          omega
        rcases r2 m hm with ⟨e, h1, h2⟩ | ⟨e, h1, h2⟩
        · have h2' := h2.bsteps hs (stillsZip ka.2 kb.2 ho2 (hleft e h1))
          rw [leftE, List.mem_append] at h1
          rcases h1 with h | h
          · exact Or.inl ⟨e, h, h2'⟩
          · exact Or.inr ⟨e, List.mem_append_left _ h, Or.inl h2'⟩
        · have hne : e.id ∉ idsOf bs := by
            intro hc
            have h3 := mem_dense hdc.2 hc
            have := mem_dense hdc.1 (lev_tr_mem h1)
            omega
          refine Or.inr ⟨e, ?_, h2.bsteps hs (by rw [hpi]; exact fun i hi => List.mem_append_right _ hi) (stillsZip ka.2 kb.2 ho2 hne) ?_⟩
          · rw [List.length_cons, List.take_succ_cons, trAll, levs]
            simp only [List.length_cons] at h1
            exact List.mem_append_right _ (List.mem_append_left _ h1)
          · intro hp
            refine quietsZip ka.2 kb.2 ho2 hne fun hc => ?_
            have := hp e.id (by rw [hpi]; exact List.mem_append_left _ hc)
            omega
end

/-- **Exact or wrong, in the page.** -/
theorem diff_exact {a b : Element} {ops : List Op} (ka : a.Unkeyed) (kb : b.Unkeyed) (oka : a.AttrsOk) (okb : b.AttrsOk)
    (hid : b.id ≤ a.id) (ha : a.ids.Pairwise (· < ·)) (hb : b.ids = List.range' b.id b.ids.length) (hops : Puck.diff a b = some ops) :
    bsteps (ops.map toB) (tr a) = some (tr b) ↔ Good false [] a b := by
  have hctx : Ctx b.id ([] : List (Fr Lab)) [] a.id b.id :=
    ⟨by simp, by simp, by simp [leftIds, leftE], by simp [leftIds, leftE], by simp, fun i h1 h2 => by omega, hid, by simp [postE], by simp⟩
  rcases diff_or b a b.id [] [] false ops ka kb oka okb hctx (by simpa [postIds, postE] using ha) hb hops with ⟨h1, h2⟩ | ⟨h1, h2⟩
  · exact ⟨fun _ => h1, fun _ => h2⟩
  · refine ⟨fun h => ?_, fun h => absurd h h1⟩
    rcases h2 _ h with ⟨e, h3, -⟩ | ⟨e, h3, h4⟩
    · rw [leftE] at h3; cases h3
    have := h4.lmiss e h3 rfl rfl
    exact absurd this Lacks.irrefl

end Puck.Shape.Paint
