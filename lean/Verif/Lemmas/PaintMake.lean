import Verif.Lemmas.PaintRun
/-!
# Creating elements in the page, and changing one element: exact, or wrong for good
-/
namespace Puck.Shape.Paint

/-- What `e` should show is not there, and nothing that will be touched later (elements with ids in `post`) can stand in for it. -/
def Bad (post : List Nat) (e : Ent Lab) (s : Tr Lab) : Prop := SMiss e.id e.dep s ∨ (LMiss e s ∧ ∀ i ∈ post, e.id < i)

theorem Bad.lmiss {post : List Nat} {e : Ent Lab} {s : Tr Lab} (h : Bad post e s) : LMiss e s := h.elim SMiss.lmiss (·.1)

theorem Bad.bsteps {post post' : List Nat} {e : Ent Lab} {s s' : Tr Lab} {ops : List BOp} (h : Bad post e s) (hs : bsteps ops s = some s')
    (hp : ∀ i ∈ post', i ∈ post) (hst : ∀ op ∈ ops, Still e.id op) (hq : (∀ i ∈ post, e.id < i) → ∀ op ∈ ops, Quiet e.id op) : Bad post' e s' := by
  rcases h with h | ⟨h1, h2⟩
  · exact Or.inl (h.bsteps hs hst)
  · exact Or.inr ⟨h1.bsteps hs (hq h2), fun i hi => h2 i (hp i hi)⟩

/-! ## Creating -/

/-- the operations that fill an element before its children are created -/
def coatOps (K : Element) : List Op :=
  K.attributes.map (fun p => ⟨K.id, .setAttribute p.1 p.2⟩) ++ (K.listeners.map fun l => ⟨K.id, .attachListener l.listenerName l.jsEvent⟩) ++ textOps K.id K.text

theorem create_eq_coat (p : Nat) (K : Element) : createFromScratch (some p) K =
    ⟨K.id, .createTag K.name (some p)⟩ :: (coatOps K ++ createAll (some K.id) K.children) := by
  rw [create_eq_fill]; cases K; rfl

theorem get_foldl_nil {ps : Headers} (hd : ps.Distinct) : ps.foldl insF (fun _ => none) = ps.get := by
  have : (fun _ => none : String → Option String) = Headers.get [] := by funext k; rfl
  rw [this, foldl_insF]
  funext k
  rw [get_foldl_insert ps hd]
  cases ps.get k <;> rfl

theorem coat_fresh {D : List (Fr Lab)} {K : Element} (h : K.id ∉ preIds D) (hd : K.attributes.Distinct) :
    bsteps ((coatOps K).map toB) (plug D (.node K.id (blankLab K.name) [])) = some (plug D (.node K.id (labOf K) [])) := by
  unfold coatOps
  rw [List.map_append, List.map_append, bsteps_append, bsteps_append, sets_plug h, Option.bind_some, attaches_plug h, Option.bind_some]
  simp only [blankLab, List.nil_append]
  rw [get_foldl_nil hd]
  unfold labOf
  cases K.text with
  | none => rfl
  | some s =>
    rw [textOps, List.map_cons, bsteps, toB]
    simp only [wipe_plug h]
    rfl

theorem coat_still {K : Element} {v : Nat} : ∀ op ∈ (coatOps K).map toB, Still v op := by
  intro op ho
  obtain ⟨o, h, rfl⟩ := List.mem_map.1 ho
  refine still_of ?_
  unfold coatOps at h
  simp only [List.mem_append] at h
  rcases h with (h | h) | h
  · obtain ⟨p, _, rfl⟩ := List.mem_map.1 h; exact fun h => nomatch h
  · obtain ⟨p, _, rfl⟩ := List.mem_map.1 h; exact fun h => nomatch h
  · unfold textOps at h
    split at h
    · rcases List.mem_singleton.1 h with rfl; exact fun h => nomatch h
    · cases h

theorem createAll_still {cs : List Element} {p v : Nat} (h : v ∉ idsOf cs) : ∀ op ∈ (createAll (some p) cs).map toB, Still v op := by
  intro op ho
  obtain ⟨o, ho', rfl⟩ := List.mem_map.1 ho
  refine still_of fun hc => h ?_
  have := createAll_crt cs p
  rw [← this]
  exact List.mem_filterMap.2 ⟨o, ho', hc⟩

theorem createAll_quiet {cs : List Element} {p v : Nat} (h : v ∉ idsOf cs) : ∀ op ∈ (createAll (some p) cs).map toB, Quiet v op := by
  intro op ho
  obtain ⟨o, ho', rfl⟩ := List.mem_map.1 ho
  have h2 := (createAll_facts cs p o ho').2.1
  refine quiet_of (fun e => h (e ▸ h2)) fun hc => h ?_
  have := createAll_crt cs p
  rw [← this]
  exact List.mem_filterMap.2 ⟨o, ho', hc⟩

theorem levs_trAll_mem {cs : List Element} {d : Nat} {e : Ent Lab} (h : e ∈ levs d (trAll cs)) : e.id ∈ idsOf cs := by
  rw [← trAll_ids, ← levs_ids _ d]; exact List.mem_map.2 ⟨e, h, rfl⟩

theorem lev_tr_mem {c : Element} {d : Nat} {e : Ent Lab} (h : e ∈ (tr c).lev d) : e.id ∈ c.ids := by
  rw [← tr_ids, ← lev_ids _ d]; exact List.mem_map.2 ⟨e, h, rfl⟩

theorem dense_elem {c : Element} {n : Nat} (h : c.ids = List.range' n c.ids.length) :
    c.id = n ∧ idsOf c.children = List.range' (n + 1) (idsOf c.children).length := by
  rw [c.ids_eq, List.length_cons, List.range'_succ, List.cons.injEq] at h
  exact h

theorem dense_elems {c : Element} {cs : List Element} {n : Nat} (h : idsOf (c :: cs) = List.range' n (idsOf (c :: cs)).length) :
    c.ids = List.range' n c.ids.length ∧ idsOf cs = List.range' (n + c.ids.length) (idsOf cs).length := by
  rw [idsOf] at h
  exact range'_split h

/-- What creating below the hole needs to know about the surroundings: new ids start at `n`. -/
structure Around (n : Nat) (D : List (Fr Lab)) (post : List (Ent Lab)) (dmax : Nat) : Prop where
  left : ∀ i ∈ leftIds D, i < n
  col : Col n (preE D) post dmax
  low : ∀ f ∈ D, n ≤ f.id → ∀ y ∈ post, f.id < y.id

theorem blank_lacks {K : Element} (h : K.attributes ≠ [] ∨ K.listeners ≠ []) : Lacks (blankLab K.name) (labOf K) := by
  rcases h with h | h
  · right; left
    intro e
    simp only [blankLab, labOf] at e
    cases ha : K.attributes with
    | nil => exact h ha
    | cons p ps =>
      have := congrFun e p.1
      rw [ha] at this
      simp [Headers.get] at this
  · right; right; right
    exact ⟨h, fun e => h e.symm⟩

/-- Filling an element while another with its id comes before it on the page. -/
theorem clash {K : Element} {p : Nat} {l : Lab} {done : List (Tr Lab)} {C : List (Fr Lab)} {dmax : Nat} {s : Tr Lab}
    (hK : K.ids = List.range' K.id K.ids.length) (har : Around K.id (⟨p, l, done, []⟩ :: C) (postE C) dmax)
    (hin : K.id ∈ preIds (⟨p, l, done, []⟩ :: C)) (hne : ¬ K.Empty)
    (hs : bsteps ((coatOps K ++ createAll (some K.id) K.children).map toB) (plug (⟨p, l, done, []⟩ :: C) (.node K.id (blankLab K.name) [])) = some s) :
    ∃ e ∈ (tr K).lev (C.length + 1), Bad (postIds C) e s := by
  have hkids : idsOf K.children = List.range' (K.id + 1) (idsOf K.children).length := (dense_elem hK).2
  have hKk : K.id ∉ idsOf K.children := fun h => by have := mem_dense hkids h; omega
  have hl : K.id ∉ leftIds (⟨p, l, done, []⟩ :: C) := fun h => Nat.lt_irrefl _ (har.left _ h)
  have hch := (mem_preIds.1 hin).resolve_right hl
  obtain ⟨C1, f, C2, hD, hf, hC2⟩ := chain_split hch hl
  have hfD : f ∈ (⟨p, l, done, []⟩ :: C : List (Fr Lab)) := by rw [hD]; simp
  have hlow : ∀ y ∈ postE C, K.id < y.id := by
    have := har.low f hfD (by omega)
    rwa [hf] at this
  have hlen : C2.length ≤ C.length := by
    have := congrArg List.length hD; simp at this; omega
  have hpost : postE (⟨p, l, done, []⟩ :: C) = postE C := by rw [postE, levs]; rfl
  have hroot : (⟨K.id, C.length + 1, labOf K⟩ : Ent Lab) ∈ (tr K).lev (C.length + 1) := by rw [tr_eq, Tr.lev]; exact List.mem_cons_self ..
  rw [List.map_append] at hs
  obtain ⟨m, hcoat, hmake⟩ := bsteps_append_some hs
  have hpostlt : ∀ i ∈ postIds C, K.id < i := by
    intro i hi
    obtain ⟨y, hy, rfl⟩ := List.mem_map.1 hi
    exact hlow y hy
  generalize hx : Tr.node K.id (blankLab K.name) [] = x at hcoat
  rw [hD, plug_append, plug, Fr.fill, hf] at hcoat
  unfold coatOps at hcoat
  rw [List.map_append, List.map_append, bsteps_append, bsteps_append, sets_plug hC2, Option.bind_some, attaches_plug hC2, Option.bind_some] at hcoat
  cases ht : K.text with
  | some t =>
    rw [ht, textOps, List.map_cons, bsteps, toB] at hcoat
    simp only [wipe_plug hC2] at hcoat
    cases hcoat
    refine ⟨_, hroot, Or.inl (SMiss.bsteps ?_ hmake (createAll_still hKk))⟩
    intro y hy hyi
    simp only at hyi ⊢
    rw [lev_plug, Tr.lev, levs, List.mem_append, List.mem_append] at hy
    rcases hy with (hy | hy) | hy
    · exact absurd (List.mem_map.2 ⟨y, hy, hyi⟩) hC2
    · rcases List.mem_singleton.1 hy with rfl
      simp only; omega
    · have : y ∈ postE C := by rw [← hpost, hD]; exact postE_suffix (C1 := C1) (by rw [postE]; exact List.mem_append_right _ hy)
      have := hlow y this
      omega
  | none =>
    rw [ht, textOps, List.map_nil, bsteps] at hcoat
    simp only [Option.some.injEq] at hcoat
    by_cases hempty : K.attributes = [] ∧ K.listeners = []
    · -- only children
      obtain ⟨e1, e2⟩ := hempty
      have hm : m = plug (⟨p, l, done, []⟩ :: C) x := by
        rw [← hcoat, hD, plug_append, plug, Fr.fill, hf, e1, e2]; simp
      cases hk : K.children with
      | nil => exact absurd ⟨e1, e2, ht, hk⟩ hne
      | cons K' rest =>
        have hK' : K'.id = K.id + 1 := (dense_elem (dense_elems (hk ▸ hkids)).1).1
        refine ⟨⟨K'.id, C.length + 2, labOf K'⟩, ?_, ?_⟩
        · rw [tr_eq, Tr.lev, hk, trAll, levs, tr_eq, Tr.lev]; simp
        · left
          simp only
          rw [hk, createAll, create_eq_coat, List.cons_append, List.map_cons] at hmake
          obtain ⟨m', h3, h4⟩ := bsteps_cons_some hmake
          have hd1 := dense_elems (hk ▸ hkids)
          have hd2 := dense_elem hd1.1
          refine SMiss.bsteps ?_ h4 ?_
          · rw [hm, hD, plug_append, plug, Fr.fill, hf, toB] at h3
            simp only at h3
            rw [create_plug hC2] at h3
            cases h3
            obtain ⟨r, hr⟩ := preE_split C1 f C2
            have hcol := har.col K.id (Nat.le_refl _) (preE C2) ⟨f.id, C2.length, f.lab⟩ r (by rw [hD, hr]) hf
              (fun y hy he => hC2 (List.mem_map.2 ⟨y, hy, he⟩))
            -- what was there already
            have hold : ∀ y ∈ (plug (⟨p, l, done, []⟩ :: C) x).lev 0, y.id = K.id + 1 → y.dep ≤ C2.length + 1 := by
              intro y hy hyi
              rw [lev_plug, List.mem_append, List.mem_append] at hy
              rcases hy with (hy | hy) | hy
              · exact hcol.2 y (List.mem_append_left _ hy) hyi
              · rw [← hx, Tr.lev, levs] at hy
                rcases List.mem_singleton.1 hy with rfl
                simp only at hyi; omega
              · exact hcol.2 y (List.mem_append_right _ (hpost ▸ hy)) hyi
            rw [hD, plug_append, plug, Fr.fill, hf, lev_plug, Tr.lev] at hold
            intro y hy hyi
            rw [hK'] at hyi
            have hle : y.dep ≤ C2.length + 1 := by
              rw [lev_plug, preE, postE, levs, List.nil_append, Tr.lev, levs] at hy
              simp only [List.mem_append, List.mem_cons, List.not_mem_nil, or_false, List.length_cons] at hy
              rcases hy with ((hy | hy | hy) | hy) | hy
              · exact hold y (by simp [hy]) hyi
              · exact hold y (by rw [hy]; simp) hyi
              · exact hold y (by simp [hy]) hyi
              · rw [hy]; exact Nat.le_refl _
              · exact hold y (by simp [hy]) hyi
            omega
          · rw [hK']
            intro op ho
            rw [List.map_append, List.map_append] at ho
            rcases List.mem_append.1 ho with ho | ho
            · rcases List.mem_append.1 ho with ho | ho
              · exact coat_still op ho
              · exact createAll_still (fun hc => by have := mem_dense hd2.2 hc; omega) op ho
            · refine createAll_still (fun hc => ?_) op ho
              have := mem_dense hd1.2 hc
              rw [K'.ids_eq, List.length_cons] at this
              omega
    · refine ⟨_, hroot, Or.inr ⟨LMiss.bsteps ?_ hmake (createAll_quiet hKk), hpostlt⟩⟩
      have hlack := blank_lacks (K := K) (Classical.byContradiction fun h => hempty (by
        rw [not_or] at h; exact ⟨Classical.byContradiction h.1, Classical.byContradiction h.2⟩))
      obtain ⟨D', hsame, hm⟩ : ∃ D', SameCtx (⟨p, l, done, []⟩ :: C) D' ∧ m = plug D' x := by
        rw [hD]
        refine ⟨C1 ++ ⟨K.id, _, f.left, f.right⟩ :: C2, ?_, by rw [← hcoat, plug_append, plug, Fr.fill]⟩
        unfold SameCtx; simp [hf]
      rw [hm]
      intro y hy hyi hyd
      simp only at hyi hyd ⊢
      have hl' := hsame.length
      simp only [List.length_cons] at hl'
      rw [lev_plug, List.mem_append, List.mem_append] at hy
      rcases hy with (hy | hy) | hy
      · exfalso
        rcases mem_preE.1 hy with hy | hy
        · obtain ⟨-, -, -, h3⟩ := chainE_mem hy
          omega
        · refine hl ?_
          rw [hsame.leftIds, ← hyi]
          exact List.mem_map.2 ⟨y, hy, rfl⟩
      · rw [← hx, Tr.lev, levs] at hy
        rcases List.mem_singleton.1 hy with rfl
        exact hlack
      · have := hpostlt y.id (by
          have hh : y.id ∈ postIds D' := List.mem_map.2 ⟨y, hy, rfl⟩
          rw [← hsame.postIds] at hh
          unfold postIds at hh
          rw [hpost] at hh
          exact hh)
        omega

mutual
theorem make_or : ∀ (K : Element) (C : List (Fr Lab)) (p : Nat) (l : Lab) (done : List (Tr Lab)) (n dmax : Nat), p ∉ preIds C → K.AttrsOk →
    K.ids = List.range' n K.ids.length → Around n (⟨p, l, done, []⟩ :: C) (postE C) dmax → dmax ≤ C.length →
    ((∀ L ∈ K.nodes, L.id ∈ p :: C.map (·.id) → L.Empty) ∧
      bsteps ((createFromScratch (some p) K).map toB) (plug C (.node p l done)) = some (plug C (.node p l (done ++ [tr K])))) ∨
    ((¬ ∀ L ∈ K.nodes, L.id ∈ p :: C.map (·.id) → L.Empty) ∧
      ∀ s, bsteps ((createFromScratch (some p) K).map toB) (plug C (.node p l done)) = some s → ∃ e ∈ (tr K).lev (C.length + 1), Bad (postIds C) e s)
  | ⟨i, kn, ka, kl, kk, kt, kkey⟩, C, p, l, done, n, dmax, hp, hok, hids, har, hd => by
    obtain ⟨hi, hkk⟩ := dense_elem hids
    simp only at hi hkk
    subst hi
    rw [Element.AttrsOk] at hok
    rw [create_eq_coat, List.map_cons, bsteps, toB]
    simp only [create_plug hp]
    have hmem : i ∈ preIds (⟨p, l, done, []⟩ :: C) ↔ i ∈ p :: C.map (·.id) := by
      rw [mem_preIds, List.map_cons]
      exact ⟨fun h => h.resolve_right fun h => Nat.lt_irrefl _ (har.left _ h), Or.inl⟩
    by_cases hfresh : i ∈ preIds (⟨p, l, done, []⟩ :: C)
    · by_cases he : (⟨i, kn, ka, kl, kk, kt, kkey⟩ : Element).Empty
      · left
        obtain ⟨e1, e2, e3, e4⟩ := he
        simp only at e1 e2 e3 e4
        subst e1; subst e2; subst e3; subst e4
        refine ⟨?_, ?_⟩
        · intro L hL _
          rw [Element.nodes, nodesAll] at hL
          rcases List.mem_singleton.1 hL with rfl
          exact ⟨rfl, rfl, rfl, rfl⟩
        · rfl
      · right
        refine ⟨fun h => he (h _ (self_nodes _) (hmem.1 hfresh)), ?_⟩
        intro s hs
        exact clash (K := ⟨i, kn, ka, kl, kk, kt, kkey⟩) hids har hfresh he hs
    · have hcoat := coat_fresh (D := ⟨p, l, done, []⟩ :: C) (K := ⟨i, kn, ka, kl, kk, kt, kkey⟩) hfresh hok.1
      simp only at hcoat
      rw [List.map_append, bsteps_append, hcoat, Option.bind_some]
      have har' : Around (i + 1) (⟨i, labOf ⟨i, kn, ka, kl, kk, kt, kkey⟩, [], []⟩ :: ⟨p, l, done, []⟩ :: C) (postE (⟨p, l, done, []⟩ :: C)) dmax := by
        refine ⟨?_, ?_, ?_⟩
        · intro j hj
          rw [leftIds_cons, idsF, List.append_nil] at hj
          have := har.left j hj; omega
        · have := har.col.append (m := i + 1) (X := [⟨i, C.length + 1, labOf ⟨i, kn, ka, kl, kk, kt, kkey⟩⟩]) (by omega) (by simp)
          rw [preE, postE, levs, levs, List.nil_append]
          exact this
        · intro f hf hfi y hy
          rw [postE, levs, List.nil_append] at hy
          rcases List.mem_cons.1 hf with rfl | hf
          · simp only at hfi; omega
          · exact har.low f hf (by omega) y hy
      have hnk : ∀ L ∈ nodesAll kk, i + 1 ≤ L.id := fun L hL => (mem_dense hkk (nodesAll_id hL)).1
      have hpost : postIds (⟨p, l, done, []⟩ :: C) = postIds C := by rw [postIds_cons, idsF]; rfl
      rcases makeAll_or kk (⟨p, l, done, []⟩ :: C) i (labOf ⟨i, kn, ka, kl, kk, kt, kkey⟩) [] (i + 1) dmax hfresh hok.2 hkk har' (by simp; omega)
        with ⟨g1, g2⟩ | ⟨g1, g2⟩
      · left
        refine ⟨?_, ?_⟩
        · intro L hL hLid
          rw [Element.nodes, List.mem_cons] at hL
          rcases hL with rfl | hL
          · exact absurd (hmem.2 hLid) hfresh
          · exact g1 L hL (List.mem_cons_of_mem _ hLid)
        · rw [g2, tr]; rfl
      · right
        refine ⟨fun h => g1 fun L hL hLid => ?_, ?_⟩
        · refine h L (by rw [Element.nodes]; exact List.mem_cons_of_mem _ hL) ?_
          rcases List.mem_cons.1 hLid with h | h
          · have := hnk L hL; omega
          · exact h
        · intro s hs
          obtain ⟨e, h1, h2⟩ := g2 s hs
          refine ⟨e, ?_, hpost ▸ h2⟩
          rw [tr, Tr.lev]
          exact List.mem_cons_of_mem _ h1
theorem makeAll_or : ∀ (cs : List Element) (C : List (Fr Lab)) (p : Nat) (l : Lab) (done : List (Tr Lab)) (n dmax : Nat), p ∉ preIds C → AttrsOkAll cs →
    idsOf cs = List.range' n (idsOf cs).length → Around n (⟨p, l, done, []⟩ :: C) (postE C) dmax → dmax ≤ C.length →
    ((∀ L ∈ nodesAll cs, L.id ∈ p :: C.map (·.id) → L.Empty) ∧
      bsteps ((createAll (some p) cs).map toB) (plug C (.node p l done)) = some (plug C (.node p l (done ++ trAll cs)))) ∨
    ((¬ ∀ L ∈ nodesAll cs, L.id ∈ p :: C.map (·.id) → L.Empty) ∧
      ∀ s, bsteps ((createAll (some p) cs).map toB) (plug C (.node p l done)) = some s → ∃ e ∈ levs (C.length + 1) (trAll cs), Bad (postIds C) e s)
  | [], C, p, l, done, n, dmax, hp, hok, hids, har, hd => by
    left
    refine ⟨(fun L hL => by rw [nodesAll] at hL; cases hL), ?_⟩
    rw [trAll, List.append_nil]; rfl
  | K :: cs, C, p, l, done, n, dmax, hp, hok, hids, har, hd => by
    have hdc := dense_elems hids
    rw [AttrsOkAll] at hok
    rw [createAll, List.map_append, bsteps_append, nodesAll]
    have hmade := make_or K C p l done n dmax hp hok.1 hdc.1 har hd
    rcases hmade with ⟨g1, g2⟩ | ⟨g1, g2⟩
    · rw [g2, Option.bind_some]
      have hKids : ∀ i ∈ K.ids, i < n + K.ids.length := fun i hi => (mem_dense hdc.1 hi).2
      have har' : Around (n + K.ids.length) (⟨p, l, done ++ [tr K], []⟩ :: C) (postE C) dmax := by
        refine ⟨?_, ?_, ?_⟩
        · intro i hi
          rw [leftIds_cons, List.mem_append, idsF_append, idsF, idsF, List.append_nil, tr_ids, List.mem_append] at hi
          rcases hi with hi | hi | hi
          · have := har.left i (by rw [leftIds_cons]; exact List.mem_append_left _ hi); omega
          · have := har.left i (by rw [leftIds_cons]; exact List.mem_append_right _ hi); omega
          · exact hKids i hi
        · have := har.col.append (m := n + K.ids.length) (X := (tr K).lev (C.length + 1)) (by omega) (fun x hx => hKids _ (lev_tr_mem hx))
          rw [preE] at this ⊢
          simp only at this ⊢
          rw [levs_append, levs, levs, List.append_nil]
          simpa using this
        · intro f hf hfi y hy
          rcases List.mem_cons.1 hf with rfl | hf
          · exact har.low ⟨p, l, done, []⟩ (List.mem_cons_self ..) (by simp only at hfi ⊢; omega) y hy
          · exact har.low f (List.mem_cons_of_mem _ hf) (by omega) y hy
      rcases makeAll_or cs C p l (done ++ [tr K]) (n + K.ids.length) dmax hp hok.2 hdc.2 har' hd with ⟨g3, g4⟩ | ⟨g3, g4⟩
      · left
        refine ⟨?_, by rw [g4, trAll, List.append_assoc]; rfl⟩
        intro L hL
        rcases List.mem_append.1 hL with hL | hL
        · exact g1 L hL
        · exact g3 L hL
      · right
        refine ⟨fun h => g3 fun L hL => h L (List.mem_append_right _ hL), ?_⟩
        intro s hs
        obtain ⟨e, h1, h2⟩ := g4 s hs
        exact ⟨e, by rw [trAll, levs]; exact List.mem_append_right _ h1, h2⟩
    · right
      refine ⟨fun h => g1 fun L hL => h L (List.mem_append_left _ hL), ?_⟩
      intro s hs
      cases hm : bsteps ((createFromScratch (some p) K).map toB) (plug C (.node p l done)) with
      | none => rw [hm] at hs; cases hs
      | some m =>
        rw [hm, Option.bind_some] at hs
        obtain ⟨e, h1, h2⟩ := g2 m hm
        have hne : e.id ∉ idsOf cs := by
          intro hc
          have h4 := mem_dense hdc.1 (lev_tr_mem h1)
          have h5 := mem_dense hdc.2 hc
          omega
        exact ⟨e, by rw [trAll, levs]; exact List.mem_append_left _ h1,
          h2.bsteps hs (fun _ h => h) (createAll_still hne) (fun _ => createAll_quiet hne)⟩
end

end Puck.Shape.Paint
