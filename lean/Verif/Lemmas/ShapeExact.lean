import Verif.Lemmas.ShapeDiff
/-!
# Positional changesets between labelled trees: either exact, or wrong for good (the main recursion)
-/
namespace Puck.Shape

variable {α : Type}

/-! ## What precedes and follows a hole -/

/-- What lies to the left of the path to the hole. -/
def leftE : List (Fr α) → List (Ent α)
  | [] => []
  | f :: C => leftE C ++ levs (C.length + 1) f.left

/-- The path. -/
def chainE : List (Fr α) → List (Ent α)
  | [] => []
  | f :: C => ⟨f.id, C.length, f.lab⟩ :: chainE C

theorem mem_preE {e : Ent α} : ∀ {C : List (Fr α)}, e ∈ preE C ↔ e ∈ chainE C ∨ e ∈ leftE C
  | [] => by simp [preE, chainE, leftE]
  | f :: C => by
    rw [preE, chainE, leftE, List.mem_append, List.mem_cons, List.mem_cons, List.mem_append, mem_preE (C := C)]
    constructor
    · rintro ((h | h) | h | h)
      · exact Or.inl (Or.inr h)
      · exact Or.inr (Or.inl h)
      · exact Or.inl (Or.inl h)
      · exact Or.inr (Or.inr h)
    · rintro ((h | h) | h | h)
      · exact Or.inr (Or.inl h)
      · exact Or.inl (Or.inl h)
      · exact Or.inl (Or.inr h)
      · exact Or.inr (Or.inr h)

/-- their ids -/
def leftIds (C : List (Fr α)) : List Nat := (leftE C).map (·.id)
/-- their ids -/
def postIds (C : List (Fr α)) : List Nat := (postE C).map (·.id)

theorem leftIds_cons (f : Fr α) (C : List (Fr α)) : leftIds (f :: C) = leftIds C ++ idsF f.left := by
  unfold leftIds; rw [leftE, List.map_append, levs_ids]

theorem postIds_cons (f : Fr α) (C : List (Fr α)) : postIds (f :: C) = idsF f.right ++ postIds C := by
  unfold postIds; rw [postE, List.map_append, levs_ids]

theorem chainE_mem {e : Ent α} : ∀ {C : List (Fr α)}, e ∈ chainE C → ∃ f ∈ C, f.id = e.id ∧ e.dep < C.length
  | [], h => by rw [chainE] at h; cases h
  | f :: C, h => by
    rw [chainE, List.mem_cons] at h
    rcases h with rfl | h
    · exact ⟨f, List.mem_cons_self .., rfl, by simp⟩
    · obtain ⟨g, h1, h2, h3⟩ := chainE_mem h
      exact ⟨g, List.mem_cons_of_mem _ h1, h2, by simp; omega⟩

theorem chain_preIds {C : List (Fr α)} {f : Fr α} (h : f ∈ C) : f.id ∈ preIds C := by
  induction C with
  | nil => cases h
  | cons g C ih =>
    rw [preIds_cons]
    rcases List.mem_cons.1 h with rfl | h
    · exact Or.inl rfl
    · exact Or.inr (Or.inr (ih h))

theorem preIds_lt {C : List (Fr α)} {v q : Nat} (hc : ∀ f ∈ C, f.id < v) (hl : ∀ i ∈ leftIds C, i < q) (hq : q ≤ v) :
    ∀ i ∈ preIds C, i < v := by
  intro i hi
  obtain ⟨e, he, rfl⟩ := List.mem_map.1 hi
  rcases mem_preE.1 he with h | h
  · obtain ⟨f, h1, h2, -⟩ := chainE_mem h
    rw [← h2]; exact hc f h1
  · have := hl e.id (List.mem_map.2 ⟨e, h, rfl⟩)
    omega

/-! ## The invariant -/

/-- Where a comparison of the element with old id `p` and new id `q` happens: the path has old ids, to its left everything is as it will be, to its right
everything is as it was.  New ids count from `g`; `N` are those of the elements on the path. -/
structure Ctx (g : Nat) (C : List (Fr α)) (N : List Nat) (p q : Nat) : Prop where
  chain : ∀ f ∈ C, f.id < p
  sorted : (C.map (·.id)).Pairwise (· > ·)
  left_lt : ∀ i ∈ leftIds C, i < q
  left_nodup : (leftIds C).Nodup
  new_lt : ∀ i ∈ N, i < q ∧ i < p
  cover : ∀ i, g ≤ i → i < q → i ∈ N ∨ i ∈ leftIds C
  ge : g ≤ p
  head : ∀ e r, postE C = e :: r → e.dep ≤ C.length
  outer : ∀ f C', C = f :: C' → (∀ i ∈ preIds C', i < p) ∧ ∀ r ∈ f.left, r.id < p

theorem root_mem_idsF {r : Tr α} {ts : List (Tr α)} (h : r ∈ ts) : r.id ∈ idsF ts := by
  induction ts with
  | nil => cases h
  | cons t ts ih =>
    rw [idsF, List.mem_append]
    rcases List.mem_cons.1 h with rfl | h
    · left; rw [r.ids_eq]; exact List.mem_cons_self ..
    · exact Or.inr (ih h)

theorem Ctx.child {g : Nat} {C : List (Fr α)} {N : List Nat} {p q n : Nat} {l : α} {done as : List (Tr α)} {a : Tr α} (h : Ctx g C N p q) (hqp : q ≤ p)
    (hd : idsF done = List.range' (q + 1) n) (hord : (p :: (idsF (a :: as) ++ postIds C)).Pairwise (· < ·))
    (hroots : ∀ r ∈ done, ∀ x ∈ a :: as, r.id < x.id) : Ctx g (⟨p, l, done, as⟩ :: C) (q :: N) a.id (q + 1 + n) := by
  have hpa : p < a.id := by
    rw [List.pairwise_cons] at hord
    exact hord.1 a.id (by rw [idsF, a.ids_eq]; simp)
  have hdone : ∀ i ∈ idsF done, q < i ∧ i < q + 1 + n := by
    intro i hi; rw [hd, List.mem_range'_1] at hi; omega
  refine ⟨?_, ?_, ?_, ?_, ?_, ?_, ?_, ?_, ?_⟩
  · intro f hf
    rcases List.mem_cons.1 hf with rfl | hf
    · exact hpa
    · have := h.chain f hf; omega
  · rw [List.map_cons, List.pairwise_cons]
    refine ⟨?_, h.sorted⟩
    intro i hi
    obtain ⟨f, hf, rfl⟩ := List.mem_map.1 hi
    exact h.chain f hf
  · intro i hi
    rw [leftIds_cons, List.mem_append] at hi
    rcases hi with hi | hi
    · have := h.left_lt i hi; omega
    · exact (hdone i hi).2
  · rw [leftIds_cons, List.nodup_append]
    refine ⟨h.left_nodup, by simp only; rw [hd]; exact List.nodup_range', ?_⟩
    intro i hi j hj e
    have h1 := h.left_lt i hi
    have h2 := hdone j hj
    omega
  · intro i hi
    rcases List.mem_cons.1 hi with rfl | hi
    · omega
    · have := h.new_lt i hi; omega
  · intro i h1 h2
    rw [leftIds_cons, List.mem_append]
    by_cases hi : i < q
    · rcases h.cover i h1 hi with hc | hc
      · exact Or.inl (List.mem_cons_of_mem _ hc)
      · exact Or.inr (Or.inl hc)
    · by_cases hiq : i = q
      · exact Or.inl (hiq ▸ List.mem_cons_self ..)
      · right; right
        simp only
        rw [hd, List.mem_range'_1]; omega
  · have := h.ge; omega
  · intro e r he
    rw [postE] at he
    cases as with
    | nil =>
      rw [levs, List.nil_append] at he
      have := h.head e r he
      simp; omega
    | cons x as =>
      rw [levs, x.lev_eq] at he
      simp only [List.cons_append, List.cons.injEq] at he
      rw [← he.1]; simp
  · intro f C' he
    simp only [List.cons.injEq] at he
    obtain ⟨rfl, rfl⟩ := he
    refine ⟨?_, ?_⟩
    · intro i hi
      have := preIds_lt h.chain h.left_lt hqp i hi
      omega
    · intro r hr
      exact hroots r hr a (List.mem_cons_self ..)

/-! ## An element that moves to a higher id -/

mutual
theorem mem_lev_dep : ∀ (t : Tr α) (d : Nat), ∀ e ∈ t.lev d, e = ⟨t.id, d, t.lab⟩ ∨ d + 1 ≤ e.dep
  | t, d, e, h => by
    rw [t.lev_eq, List.mem_cons] at h
    rcases h with h | h
    · exact Or.inl h
    · exact Or.inr (levs_dep _ _ e h)
end

theorem levs_mem_root {ts : List (Tr α)} {d : Nat} {e : Ent α} (h : e ∈ levs d ts) : (∃ r ∈ ts, e.id = r.id) ∨ d + 1 ≤ e.dep := by
  induction ts with
  | nil => rw [levs] at h; cases h
  | cons t ts ih =>
    rw [levs, List.mem_append] at h
    rcases h with h | h
    · rcases mem_lev_dep t d e h with rfl | h
      · exact Or.inl ⟨t, List.mem_cons_self .., rfl⟩
      · exact Or.inr h
    · rcases ih h with ⟨r, h1, h2⟩ | h
      · exact Or.inl ⟨r, List.mem_cons_of_mem _ h1, h2⟩
      · exact Or.inr h

theorem at_nodup {v : Nat} {l : List (Ent α)} (hn : (l.map (·.id)).Nodup) {e : Ent α} (he : e ∈ l) (hv : e.id = v) : at_ v l = [e] := by
  induction l with
  | nil => cases he
  | cons x l ih =>
    rw [List.map_cons, List.nodup_cons] at hn
    rcases List.mem_cons.1 he with rfl | he
    · rw [at_cons_pos hv, at_none]
      intro y hy hyv
      exact hn.1 (List.mem_map.2 ⟨y, hy, by rw [hyv, hv]⟩)
    · rw [at_cons_neg, ih hn.2 he]
      intro hx
      exact hn.1 (List.mem_map.2 ⟨e, he, by rw [hv, hx]⟩)

theorem at_preE {v : Nat} : ∀ {C : List (Fr α)}, (∀ f ∈ C, f.id ≠ v) → at_ v (preE C) = at_ v (leftE C)
  | [], _ => rfl
  | f :: C, h => by
    rw [preE, leftE, at_append, at_append, at_cons_neg (e := ⟨f.id, C.length, f.lab⟩) (h f (List.mem_cons_self ..)),
      at_preE (fun g hg => h g (List.mem_cons_of_mem _ hg))]

/-- The rename at the end of a comparison hits another element. -/
theorem grows {g : Nat} {C : List (Fr α)} {N : List Nat} {a b : Tr α} {s : Tr α} (h : Ctx g C N a.id b.id) (hgt : a.id < b.id)
    (hord : (a.ids ++ postIds C).Pairwise (· < ·)) (hb : b.ids = List.range' b.id b.ids.length)
    (hs : steps (dif a b) (plug C a) = some s) : ∃ e ∈ leftE C, Miss e.id e.dep s := by
  have hv : a.id ∈ leftIds C := by
    rcases h.cover a.id h.ge hgt with hc | hc
    · have := h.new_lt _ hc; omega
    · exact hc
  obtain ⟨e, he, hev⟩ := List.mem_map.1 hv
  refine ⟨e, he, ?_⟩
  -- its depth
  have hdep : C.length + 1 ≤ e.dep := by
    cases C with
    | nil => rw [leftE] at he; cases he
    | cons f C =>
      obtain ⟨o1, o2⟩ := h.outer f C rfl
      rw [leftE, List.mem_append] at he
      rcases he with he | he
      · have := o1 e.id (List.mem_map.2 ⟨e, mem_preE.2 (Or.inr he), rfl⟩)
        omega
      · rcases levs_mem_root he with ⟨r, h1, h2⟩ | h
        · have := o2 r h1
          omega
        · simp; omega
  have hgtr : ∀ i ∈ idsF a.kids ++ postIds C, a.id < i := by
    rw [a.ids_eq, List.cons_append, List.pairwise_cons] at hord
    exact hord.1
  have hat : at_ a.id ((plug C a).lev 0) = [e, ⟨a.id, C.length, a.lab⟩] := by
    rw [lev_plug, at_append, at_append, at_preE (fun f hf => by have := h.chain f hf; omega), at_nodup h.left_nodup he hev, a.lev_eq,
      at_cons_pos (e := ⟨a.id, C.length, a.lab⟩) rfl, at_none, at_none]
    · rfl
    · intro x hx hxe
      have := hgtr x.id (List.mem_append_right _ (List.mem_map.2 ⟨x, hx, rfl⟩))
      exact absurd hxe (Nat.ne_of_gt this)
    · intro x hx hxe
      have := hgtr x.id (List.mem_append_left _ (by rw [← levs_ids a.kids (C.length + 1)]; exact List.mem_map.2 ⟨x, hx, rfl⟩))
      exact absurd hxe (Nat.ne_of_gt this)
  obtain ⟨bi, bl, bk⟩ := b
  change a.id < bi at hgt
  change _ = List.range' bi _ at hb
  rw [dif, if_neg (by omega)] at hs
  obtain ⟨m, h1, h2⟩ := steps_append_some hs
  obtain ⟨s', h3, h4⟩ := steps_cons_some h2
  rw [steps] at h4
  cases h4
  have hnew : a.id ∉ idsF bk := by
    intro hi
    have := mem_dense hb (by rw [Tr.ids]; exact List.mem_cons_of_mem _ hi)
    omega
  have hq : (at_ a.id (m.lev 0)).Sublist [e, ⟨a.id, C.length, a.lab⟩] := by
    rw [← hat]
    refine steps_quiet 0 h1 ?_
    intro op ho
    rw [List.mem_append, List.mem_append] at ho
    rcases ho with (ho | ho) | ho
    · obtain ⟨c, _, rfl⟩ := List.mem_map.1 ho; trivial
    · exact difZip_new bk a.kids _ hnew op ho
    · exact makeAll_new _ _ _ (fun hc => hnew (mem_idsF_drop hc)) op ho
  obtain ⟨x, hx⟩ := setId_tail 0 (by omega) h3
  rw [hx] at hq
  intro y hy hyv
  have hy' : y ∈ at_ a.id (s.lev 0) := mem_at.2 ⟨hy, by rw [hyv, hev]⟩
  have hsub : (at_ a.id (s.lev 0)).Sublist [⟨a.id, C.length, a.lab⟩] := by
    cases hq with
    | cons _ hq => exact (List.sublist_cons_self ..).trans hq
    | cons_cons _ hq => exact hq
  have := List.mem_singleton.1 (hsub.subset hy')
  rw [this]
  simp only
  omega

/-! ## Deleting -/

theorem removeKid_split {i : Nat} {l r : List (Tr α)} {x : Tr α} (hl : i ∉ idsF l) (hx : x.id = i) : removeKid i (l ++ x :: r) = some (l ++ r) := by
  induction l with
  | nil => rw [List.nil_append, removeKid, if_pos hx]; rfl
  | cons c l ih =>
    rw [idsF, List.mem_append, not_or] at hl
    have hc : c.id ≠ i := fun e => hl.1 (by rw [c.ids_eq]; exact e ▸ List.mem_cons_self ..)
    rw [List.cons_append, removeKid, if_neg hc, ih hl.2]
    rfl

theorem deletes {C : List (Fr α)} {p : Nat} {l : α} {keep : List (Tr α)} (hp : p ∉ preIds C) : ∀ (del : List (Tr α)),
    (p :: idsF (keep ++ del)).Nodup → (∀ i ∈ idsF (keep ++ del), i ∉ preIds C) →
    steps (del.map fun c => .delete c.id) (plug C (.node p l (keep ++ del))) = some (plug C (.node p l keep))
  | [], _, _ => by rw [List.map_nil, steps, List.append_nil]
  | c :: del, hn, hb => by
    have hci : c.id ∈ idsF (keep ++ c :: del) := root_mem_idsF (by simp)
    rw [List.nodup_cons] at hn
    have hck : c.id ∉ idsF keep := by
      intro hk
      have hn2 := hn.2
      rw [idsF_append, List.nodup_append] at hn2
      exact hn2.2.2 _ hk c.id (root_mem_idsF (List.mem_cons_self ..)) rfl
    have hstep : step (.delete c.id) (plug C (.node p l (keep ++ c :: del))) = some (plug C (.node p l (keep ++ del))) := by
      have hpar : findPar c.id (plug C (.node p l (keep ++ c :: del))) = some p := by
        refine findPar_plug C _ (hb _ hci) (fun (e : c.id = p) => hn.1 (e ▸ hci)) ?_
        rw [findPar, findParIn_skip _ _ _ _ hck, findParIn, if_pos rfl]
      rw [step, hpar]
      simp only
      rw [modify_plug hp rfl]
      change Option.map (plug C) ((removeKid c.id (keep ++ c :: del)).map fun ks => .node p l ks) = _
      rw [removeKid_split hck rfl]
      rfl
    rw [List.map_cons, steps, hstep]
    have hsub : ∀ i ∈ idsF (keep ++ del), i ∈ idsF (keep ++ c :: del) := by
      intro i hi
      rw [idsF_append, List.mem_append] at hi ⊢
      rcases hi with hi | hi
      · exact Or.inl hi
      · right; rw [idsF]; exact List.mem_append_right _ hi
    refine deletes hp del ?_ (fun i hi => hb i (hsub i hi))
    rw [List.nodup_cons]
    refine ⟨fun h => hn.1 (hsub _ h), ?_⟩
    have hn2 := hn.2
    rw [idsF_append, idsF, List.nodup_append, List.nodup_append] at hn2
    rw [idsF_append, List.nodup_append]
    exact ⟨hn2.1, hn2.2.1.2.1, fun x hx y hy => hn2.2.2 x hx y (List.mem_append_right _ hy)⟩

/-! ## Creating among pending elements -/

theorem chain_gap : ∀ {C : List (Fr α)}, (C.map (·.id)).Pairwise (· > ·) → ∀ e ∈ chainE C, ∀ x ∈ chainE C, x.id = e.id + 1 → x.dep ≤ e.dep + 1
  | [], _, e, he, x, hx, h => by rw [chainE] at he; cases he
  | f :: C, hs, e, he, x, hx, h => by
    rw [List.map_cons, List.pairwise_cons] at hs
    have hlt : ∀ y ∈ chainE C, y.id < f.id := by
      intro y hy
      obtain ⟨g, h1, h2, -⟩ := chainE_mem hy
      rw [← h2]
      exact hs.1 g.id (List.mem_map.2 ⟨g, h1, rfl⟩)
    rw [chainE, List.mem_cons] at he hx
    rcases hx with rfl | hx
    · rcases he with rfl | he
      · simp only at h; omega
      · simp only at h ⊢
        cases C with
        | nil => rw [chainE] at he; cases he
        | cons f' C =>
          rw [chainE, List.mem_cons] at he
          rcases he with rfl | he
          · simp
          · have h1 : f'.id < f.id := hlt ⟨f'.id, C.length, f'.lab⟩ (by rw [chainE]; exact List.mem_cons_self ..)
            rw [List.map_cons, List.pairwise_cons] at hs
            obtain ⟨g, h2, h3, -⟩ := chainE_mem he
            have h4 := hs.2.1 g.id (List.mem_map.2 ⟨g, h2, rfl⟩)
            omega
    · rcases he with rfl | he
      · have := hlt x hx
        simp only at h; omega
      · exact chain_gap hs.2 e he x hx h

theorem col_of {C : List (Fr α)} {p n : Nat} {l : α} {done : List (Tr α)} (hc : ∀ f ∈ C, f.id < p) (hs : (C.map (·.id)).Pairwise (· > ·))
    (hl : ∀ i ∈ leftIds C, i < n) (hd : ∀ i ∈ idsF done, i < n) (hpost : (p :: postIds C).Pairwise (· < ·))
    (hh : ∀ e r, postE C = e :: r → e.dep ≤ C.length) : Col n (preE (⟨p, l, done, []⟩ :: C)) (postE C) C.length := by
  have hchain : ∀ x ∈ preE (⟨p, l, done, []⟩ :: C), n ≤ x.id → x ∈ chainE (⟨p, l, done, []⟩ :: C) := by
    intro x hx hn
    rcases mem_preE.1 hx with h | h
    · exact h
    · exfalso
      have : x.id ∈ leftIds (⟨p, l, done, []⟩ :: C) := List.mem_map.2 ⟨x, h, rfl⟩
      rw [leftIds_cons, List.mem_append] at this
      rcases this with h | h
      · have := hl _ h; omega
      · have := hd _ h; omega
  intro k hk P e r hpre he _
  have hmem : e ∈ preE (⟨p, l, done, []⟩ :: C) := by rw [hpre]; simp
  have hec := hchain e hmem (by omega)
  refine ⟨?_, ?_⟩
  · obtain ⟨f, -, -, h3⟩ := chainE_mem hec
    simp at h3; omega
  · intro x hx hxk
    rcases List.mem_append.1 hx with hx | hx
    · refine chain_gap ?_ e hec x (hchain x hx (by omega)) (by omega)
      rw [List.map_cons, List.pairwise_cons]
      refine ⟨?_, hs⟩
      intro i hi
      obtain ⟨f, hf, rfl⟩ := List.mem_map.1 hi
      exact hc f hf
    · rw [List.pairwise_cons] at hpost
      have hpx : p < x.id := hpost.1 _ (List.mem_map.2 ⟨x, hx, rfl⟩)
      have hek : e.id = p ∧ e.dep = C.length := by
        rw [chainE, List.mem_cons] at hec
        rcases hec with rfl | hec
        · exact ⟨rfl, rfl⟩
        · obtain ⟨f, h1, h2, -⟩ := chainE_mem hec
          have := hc f h1
          omega
      cases hpe : postE C with
      | nil => rw [hpe] at hx; cases hx
      | cons y ys =>
        have hy := hh y ys hpe
        rw [hpe] at hx
        rcases List.mem_cons.1 hx with rfl | hx
        · omega
        · unfold postIds at hpost
          rw [hpe, List.map_cons, List.pairwise_cons] at hpost
          have h1 := hpost.2.1 x.id (List.mem_map.2 ⟨x, hx, rfl⟩)
          have h2 := hpost.1 y.id (List.mem_cons_self ..)
          omega

/-! ## The recursion -/

theorem difZip_take : ∀ (bs as : List (Tr α)), difZip (as.take bs.length) bs = difZip as bs
  | [], as => by rw [difZip, difZip]
  | b :: bs, [] => rfl
  | b :: bs, a :: as => by rw [List.length_cons, List.take_succ_cons, difZip, difZip, difZip_take bs as]

theorem transferZip_take : ∀ (bs as : List (Tr α)), transferZip (as.take bs.length) bs = transferZip as bs
  | [], as => by rw [transferZip, transferZip]
  | b :: bs, [] => rfl
  | b :: bs, a :: as => by rw [List.length_cons, List.take_succ_cons, transferZip, transferZip, transferZip_take bs as]

theorem TSafeZip_take (anc : List Nat) : ∀ (bs as : List (Tr α)), TSafeZip anc (as.take bs.length) bs ↔ TSafeZip anc as bs
  | [], as => by rw [TSafeZip, TSafeZip]
  | b :: bs, [] => Iff.rfl
  | b :: bs, a :: as => by rw [List.length_cons, List.take_succ_cons, TSafeZip, TSafeZip, TSafeZip_take anc bs as]

theorem idsF_take_sub {ts : List (Tr α)} {n i : Nat} (h : i ∈ idsF (ts.take n)) : i ∈ idsF ts := by
  rw [idsF_take_drop ts n]; exact List.mem_append_left _ h

theorem nodup_of_lt {l : List Nat} (h : l.Pairwise (· < ·)) : l.Nodup := h.imp (fun h => Nat.ne_of_lt h)

theorem TSafe_id {anc : List Nat} {a b : Tr α} (h : TSafe anc a b) : b.id ≤ a.id := by cases b; rw [TSafe] at h; exact h.1

mutual
theorem dif_or : ∀ (b a : Tr α) (g : Nat) (C : List (Fr α)) (N : List Nat) (s : Tr α), Ctx g C N a.id b.id →
    (a.ids ++ postIds C).Pairwise (· < ·) → b.ids = List.range' b.id b.ids.length → steps (dif a b) (plug C a) = some s →
    (TSafe (C.map (·.id)) a b ∧ s = plug C (transfer a b)) ∨ ∃ e ∈ leftE C ++ b.lev C.length, Miss e.id e.dep s
  | .node bi bl bk, a, g, C, N, s, hctx, hord, hb, hs => by
    by_cases hgt : a.id < bi
    · obtain ⟨e, h1, h2⟩ := grows hctx hgt hord hb hs
      exact Or.inr ⟨e, List.mem_append_left _ h1, h2⟩
    · obtain ⟨ai, al, ak⟩ := a
      change Ctx g C N ai bi at hctx
      change ¬ ai < bi at hgt
      change _ = List.range' bi _ at hb
      have hbk := (dense_node hb).2
      change idsF bk = List.range' (bi + 1) _ at hbk
      have hpre : ∀ i ∈ preIds C, i < ai := preIds_lt hctx.chain hctx.left_lt (by omega)
      rw [Tr.ids, List.cons_append] at hord
      have hord' := hord
      rw [List.pairwise_cons, List.pairwise_append] at hord'
      have hai : ai ∉ preIds C := fun h => Nat.lt_irrefl _ (hpre _ h)
      rw [dif] at hs
      change steps ((ak.drop bk.length).map (fun c => .delete c.id) ++ difZip ak bk ++ makeAll ai (bk.drop ak.length) ++
        (if ai = bi then [] else [.setId ai bi])) (plug C (.node ai al ak)) = some s at hs
      obtain ⟨m3, hs3, hset⟩ := steps_append_some hs
      obtain ⟨m2, hs2, hmake⟩ := steps_append_some hs3
      obtain ⟨m1, hdel, hzip⟩ := steps_append_some hs2
      -- deletions
      have hd := deletes (l := al) (keep := ak.take bk.length) hai (ak.drop bk.length)
        (by rw [List.take_append_drop]; exact List.nodup_cons.2 ⟨fun h => Nat.lt_irrefl _ (hord'.1 _ (List.mem_append_left _ h)), nodup_of_lt hord'.2.1⟩)
        (by rw [List.take_append_drop]; exact fun i hi hp => by
              have h1 := hpre i hp
              have h2 := hord'.1 i (List.mem_append_left _ hi)
              omega)
      rw [List.take_append_drop] at hd
      rw [hd] at hdel
      cases hdel
      -- children
      rw [← difZip_take] at hzip
      have hordz : (ai :: (idsF (ak.take bk.length) ++ postIds C)).Pairwise (· < ·) := by
        refine List.Pairwise.sublist ?_ hord
        refine List.Sublist.cons_cons _ ?_
        refine List.Sublist.append ?_ (List.Sublist.refl _)
        rw [idsF_take_drop ak bk.length]
        exact List.sublist_append_left _ _
      have hz := difZip_or bk (ak.take bk.length) g C N ai bi 0 al [] m2 hctx (by omega) (by rw [idsF]; rfl) hordz (by simp) hbk
        (by simp; omega) hzip
      have hlen : (ak.take bk.length).length = min bk.length ak.length := by simp
      have hsplit := hbk
      rw [idsF_take_drop bk ak.length] at hsplit
      obtain ⟨hb1, hb2⟩ := range'_split hsplit
      have hnewset : ∀ v, bi < v → ∀ op ∈ (if ai = bi then [] else [.setId ai bi] : List (SOp α)), Quiet v op := by
        intro v hv op ho
        split at ho
        · cases ho
        · rcases List.mem_singleton.1 ho with rfl
          exact Nat.ne_of_lt hv
      have htakelev : ∀ e ∈ levs (C.length + 1) (bk.take (ak.take bk.length).length), e ∈ levs (C.length + 1) bk := by
        intro e he
        rw [← List.take_append_drop (ak.take bk.length).length bk, levs_append]
        exact List.mem_append_left _ he
      rcases hz with ⟨z1, z2⟩ | ⟨e, z1, z2⟩
      · -- creations
        subst z2
        rw [List.nil_append] at hmake
        have hcol : Col (bi + 1 + (idsF (bk.take ak.length)).length) (preE (⟨ai, al, transferZip (ak.take bk.length) bk, []⟩ :: C)) (postE C) C.length := by
          refine col_of hctx.chain hctx.sorted ?_ ?_ ?_ hctx.head
          · intro i hi; have := hctx.left_lt i hi; omega
          · intro i hi
            rw [transferZip_take, transferZip_ids] at hi
            have := mem_dense hb1 hi
            omega
          · refine List.Pairwise.sublist ?_ hord
            exact List.Sublist.cons_cons _ (List.sublist_append_right _ _)
        rcases makeAll_or (bk.drop ak.length) C ai al (transferZip (ak.take bk.length) bk) _ C.length m3 hai hb2 hcol (Nat.le_refl _) hmake
          with ⟨c1, c2⟩ | ⟨e, c1, c2⟩
        · subst c1
          left
          refine ⟨?_, ?_⟩
          · rw [TSafe]
            refine ⟨by change bi ≤ ai; omega, (TSafeZip_take _ _ _).1 z1, ?_⟩
            intro K hK hKid
            refine c2 K hK ?_
            rw [preIds_cons]
            rcases List.mem_cons.1 hKid with h | h
            · exact Or.inl h
            · obtain ⟨f, hf, hfe⟩ := List.mem_map.1 h
              exact Or.inr (Or.inr (hfe ▸ chain_preIds hf))
          · rw [transfer]
            change _ = plug C (.node bi al (transferZip ak bk ++ bk.drop ak.length))
            rw [transferZip_take] at hset
            split at hset
            · rename_i heq
              rw [steps] at hset
              simp only [Option.some.injEq] at hset
              rw [← hset, heq]
            · obtain ⟨m4, h4, h5⟩ := steps_cons_some hset
              rw [steps] at h5
              cases h5
              rw [step, modify_plug hai rfl] at h4
              simp only [Option.map_some, Option.some.injEq] at h4
              rw [← h4]
              rfl
        · right
          have he : e.id ∈ idsF (bk.drop ak.length) := by rw [← levs_ids _ (C.length + 1)]; exact List.mem_map.2 ⟨e, c1, rfl⟩
          have := mem_dense hb2 he
          refine ⟨e, List.mem_append_right _ ?_, c2.steps hset (hnewset _ (by omega))⟩
          rw [Tr.lev, ← List.take_append_drop ak.length bk, levs_append]
          exact List.mem_cons_of_mem _ (List.mem_append_right _ c1)
      · right
        rw [levs, List.append_nil] at z1
        have hmem : e ∈ leftE C ++ Tr.lev C.length (.node bi bl bk) := by
          rcases List.mem_append.1 z1 with h | h
          · exact List.mem_append_left _ h
          · rw [Tr.lev]
            exact List.mem_append_right _ (List.mem_cons_of_mem _ (htakelev e h))
        have hne : e.id ≠ bi ∧ e.id ∉ idsF (bk.drop ak.length) := by
          rcases List.mem_append.1 z1 with h | h
          · have h1 := hctx.left_lt e.id (List.mem_map.2 ⟨e, h, rfl⟩)
            refine ⟨by omega, fun h2 => ?_⟩
            have := mem_dense hb2 h2
            omega
          · have h1 : e.id ∈ idsF (bk.take (ak.take bk.length).length) := by rw [← levs_ids _ (C.length + 1)]; exact List.mem_map.2 ⟨e, h, rfl⟩
            have h2 : e.id ∈ idsF (bk.take ak.length) := by
              rw [hlen] at h1
              rcases Nat.le_total ak.length bk.length with hle | hle
              · rwa [Nat.min_eq_right hle] at h1
              · rw [Nat.min_eq_left hle, List.take_length] at h1
                rwa [List.take_of_length_le hle]
            have h3 := mem_dense hb1 h2
            refine ⟨by omega, fun h4 => ?_⟩
            have := mem_dense hb2 h4
            omega
        refine ⟨e, hmem, (z2.steps hmake (makeAll_new _ _ _ hne.2)).steps hset ?_⟩
        intro op ho
        split at ho
        · cases ho
        · rcases List.mem_singleton.1 ho with rfl
          exact fun h => hne.1 h.symm
theorem difZip_or : ∀ (bs as : List (Tr α)) (g : Nat) (C : List (Fr α)) (N : List Nat) (p q n : Nat) (l : α) (done : List (Tr α)) (s : Tr α),
    Ctx g C N p q → q ≤ p → idsF done = List.range' (q + 1) n → (p :: (idsF as ++ postIds C)).Pairwise (· < ·) →
    (∀ r ∈ done, ∀ x ∈ as, r.id < x.id) → idsF bs = List.range' (q + 1 + n) (idsF bs).length → as.length ≤ bs.length →
    steps (difZip as bs) (plug C (.node p l (done ++ as))) = some s →
    (TSafeZip (p :: C.map (·.id)) as bs ∧ s = plug C (.node p l (done ++ transferZip as bs))) ∨
      ∃ e ∈ leftE C ++ levs (C.length + 1) done ++ levs (C.length + 1) (bs.take as.length), Miss e.id e.dep s
  | [], as, g, C, N, p, q, n, l, done, s, hctx, hqp, hd, hord, hroots, hb, hlen, hs => by
    have : as = [] := List.eq_nil_of_length_eq_zero (by simpa using hlen)
    subst this
    rw [difZip, steps] at hs
    cases hs
    left
    rw [TSafeZip, transferZip]
    exact ⟨trivial, rfl⟩
  | b :: bs, [], g, C, N, p, q, n, l, done, s, hctx, hqp, hd, hord, hroots, hb, hlen, hs => by
    rw [difZip, steps] at hs
    cases hs
    left
    rw [TSafeZip, transferZip]
    exact ⟨trivial, rfl⟩
  | b :: bs, a :: as, g, C, N, p, q, n, l, done, s, hctx, hqp, hd, hord, hroots, hb, hlen, hs => by
    rw [difZip] at hs
    obtain ⟨m, h1, h2⟩ := steps_append_some hs
    have hdc := dense_cons hb
    have hbid : b.id = q + 1 + n := (dense_node hdc.1).1
    have hchild := hctx.child (l := l) hqp hd hord hroots
    rw [← hbid] at hchild hdc
    have hord1 : (a.ids ++ postIds (⟨p, l, done, as⟩ :: C)).Pairwise (· < ·) := by
      rw [postIds_cons]
      rw [List.pairwise_cons, idsF, List.append_assoc] at hord
      exact hord.2
    have hr := dif_or b a g (⟨p, l, done, as⟩ :: C) (q :: N) m hchild hord1 hdc.1 h1
    have hinit : plug C (.node p l (done ++ a :: as)) = plug (⟨p, l, done, as⟩ :: C) a := rfl
    rcases hr with ⟨r1, r2⟩ | ⟨e, r1, r2⟩
    · have hle : b.id ≤ a.id := TSafe_id r1
      subst r2
      have hplug : plug (⟨p, l, done, as⟩ :: C) (transfer a b) = plug C (.node p l ((done ++ [transfer a b]) ++ as)) := by
        rw [List.append_assoc]; rfl
      rw [hplug] at h2
      have hlast : ∀ x ∈ as, a.id < x.id := by
        intro x hx
        rw [List.pairwise_cons, idsF, List.append_assoc, List.pairwise_append] at hord
        exact hord.2.2.2 a.id (by rw [a.ids_eq]; exact List.mem_cons_self ..) x.id (List.mem_append_left _ (root_mem_idsF hx))
      have hz := difZip_or bs as g C N p q (n + b.ids.length) l (done ++ [transfer a b]) s hctx hqp
        (by
          rw [idsF_append, hd, idsF, idsF, List.append_nil, transfer_ids]
          conv => lhs; rw [hdc.1, hbid]
          rw [List.range'_append_1])
        (by
          refine List.Pairwise.sublist ?_ hord
          refine List.Sublist.cons_cons _ ?_
          rw [idsF, List.append_assoc]
          exact List.sublist_append_right _ _)
        (by
          intro r hr x hx
          rcases List.mem_append.1 hr with hr | hr
          · exact hroots r hr x (List.mem_cons_of_mem _ hx)
          · rw [List.mem_singleton.1 hr, transfer_id]
            have := hlast x hx
            omega)
        (by rw [hdc.2]; simp only [List.length_range']; rw [hbid]; congr 1; omega)
        (by simp at hlen; omega) h2
      rcases hz with ⟨z1, z2⟩ | ⟨e, z1, z2⟩
      · left
        refine ⟨?_, ?_⟩
        · rw [TSafeZip]; exact ⟨r1, z1⟩
        · rw [z2, transferZip, List.append_assoc]; rfl
      · right
        -- the entry, with `b` in place of what became of `a`
        rw [levs_append, levs, levs, List.append_nil] at z1
        have : ∃ e' ∈ leftE C ++ levs (C.length + 1) done ++ levs (C.length + 1) ((b :: bs).take (a :: as).length), e'.id = e.id ∧ e'.dep = e.dep := by
          rw [List.length_cons, List.take_succ_cons, levs]
          rcases List.mem_append.1 z1 with h | h
          · rcases List.mem_append.1 h with h | h
            · exact ⟨e, by simp [h], rfl, rfl⟩
            · rcases List.mem_append.1 h with h | h
              · exact ⟨e, by simp [h], rfl, rfl⟩
              · have hm : (e.id, e.dep) ∈ (Tr.lev (C.length + 1) b).map fun x => (x.id, x.dep) := by
                  rw [← transfer_lev b a]; exact List.mem_map.2 ⟨e, h, rfl⟩
                obtain ⟨e', he', heq⟩ := List.mem_map.1 hm
                simp only [Prod.mk.injEq] at heq
                exact ⟨e', by simp [he'], heq.1, heq.2⟩
          · exact ⟨e, by simp [h], rfl, rfl⟩
        obtain ⟨e', h3, h4, h5⟩ := this
        exact ⟨e', h3, by rw [h4, h5]; exact z2⟩
    · right
      refine ⟨e, ?_, r2.steps h2 (difZip_new bs as e.id ?_)⟩
      · rw [leftE] at r1
        rw [List.length_cons, List.take_succ_cons, levs]
        simp only [List.length_cons, List.mem_append] at r1 ⊢
        rcases r1 with (h | h) | h
        · exact Or.inl (Or.inl h)
        · exact Or.inl (Or.inr h)
        · exact Or.inr (Or.inl h)
      · intro hc
        have h3 := mem_dense hdc.2 hc
        rcases List.mem_append.1 r1 with h | h
        · have := hchild.left_lt e.id (List.mem_map.2 ⟨e, h, rfl⟩)
          omega
        · have h4 : e.id ∈ b.ids := by rw [← lev_ids b]; exact List.mem_map.2 ⟨e, h, rfl⟩
          have := mem_dense hdc.1 h4
          omega
end

/-- **Exact or wrong.** If the changeset between two densely numbered trees gives the ids of the second at the right depths, ids never grew, no collision had
children, and the result is exact. -/
theorem dif_exact {a b s : Tr α} (hid : b.id ≤ a.id) (ha : a.ids.Pairwise (· < ·)) (hb : b.ids = List.range' b.id b.ids.length)
    (hs : steps (dif a b) a = some s) (hres : ∀ e ∈ b.lev 0, ∃ x ∈ s.lev 0, x.id = e.id ∧ x.dep = e.dep) :
    TSafe [] a b ∧ s = transfer a b := by
  have hctx : Ctx b.id ([] : List (Fr α)) [] a.id b.id :=
    ⟨by simp, by simp, by simp [leftIds, leftE], by simp [leftIds, leftE], by simp, fun i h1 h2 => by omega, hid, by simp [postE], by simp⟩
  rcases dif_or b a b.id [] [] s hctx (by simpa [postIds, postE] using ha) hb hs with h | ⟨e, h1, h2⟩
  · exact h
  · rw [leftE, List.nil_append] at h1
    obtain ⟨x, h3, h4, h5⟩ := hres e h1
    exact absurd h5 (h2 x h3 h4)

end Puck.Shape
