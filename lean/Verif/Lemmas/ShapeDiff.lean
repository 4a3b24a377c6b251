import Verif.Lemmas.Shape
/-!
# Positional changesets between labelled trees: either exact, or wrong for good
-/
namespace Puck.Shape

variable {α : Type}

mutual
/-- creating a tree below `p` -/
def make (p : Nat) : Tr α → List (SOp α)
  | .node i l ks => .create i p l :: makeAll i ks
/-- a forest -/
def makeAll (p : Nat) : List (Tr α) → List (SOp α)
  | [] => []
  | t :: ts => make p t ++ makeAll p ts
end

mutual
/-- the structural part of the changeset from `a` to `b` -/
def dif (a : Tr α) : Tr α → List (SOp α)
  | .node bi _ bk =>
    (a.kids.drop bk.length).map (fun c => .delete c.id) ++ difZip a.kids bk ++ makeAll a.id (bk.drop a.kids.length) ++
      (if a.id = bi then [] else [.setId a.id bi])
/-- children, paired by position -/
def difZip (as : List (Tr α)) : List (Tr α) → List (SOp α)
  | [] => []
  | b :: bs =>
    match as with
    | [] => []
    | a :: as => dif a b ++ difZip as bs
end

mutual
/-- `b`, with the labels of `a` wherever there is a counterpart -/
def transfer (a : Tr α) : Tr α → Tr α
  | .node bi _ bk => .node bi a.lab (transferZip a.kids bk ++ bk.drop a.kids.length)
/-- children with a counterpart -/
def transferZip (as : List (Tr α)) : List (Tr α) → List (Tr α)
  | [] => []
  | b :: bs =>
    match as with
    | [] => []
    | a :: as => transfer a b :: transferZip as bs
end

mutual
/-- all subtrees -/
def Tr.nodes : Tr α → List (Tr α)
  | .node i l ks => .node i l ks :: nodesF ks
/-- of a forest -/
def nodesF : List (Tr α) → List (Tr α)
  | [] => []
  | t :: ts => t.nodes ++ nodesF ts
end

mutual
/-- Ids do not grow at compared positions; an element that is created while an ancestor with its id is still under way has no children.
`anc` are the old ids of the ancestors. -/
def TSafe (anc : List Nat) (a : Tr α) : Tr α → Prop
  | .node bi _ bk => bi ≤ a.id ∧ TSafeZip (a.id :: anc) a.kids bk ∧ ∀ K ∈ nodesF (bk.drop a.kids.length), K.id ∈ a.id :: anc → K.kids = []
/-- children, paired by position -/
def TSafeZip (anc : List Nat) (as : List (Tr α)) : List (Tr α) → Prop
  | [] => True
  | b :: bs =>
    match as with
    | [] => True
    | a :: as => TSafe anc a b ∧ TSafeZip anc as bs
end

/-! ## Small facts -/

theorem idsF_take_drop (ts : List (Tr α)) (n : Nat) : idsF ts = idsF (ts.take n) ++ idsF (ts.drop n) := by
  rw [← idsF_append, List.take_append_drop]

mutual
theorem transfer_ids : ∀ (b a : Tr α), (transfer a b).ids = b.ids
  | .node bi bl bk, a => by
    rw [transfer, Tr.ids, Tr.ids, idsF_append, transferZip_ids bk a.kids, ← idsF_take_drop]
theorem transferZip_ids : ∀ (bs as : List (Tr α)), idsF (transferZip as bs) = idsF (bs.take as.length)
  | [], as => by rw [transferZip]; simp
  | b :: bs, [] => by rw [transferZip]; simp
  | b :: bs, a :: as => by
    rw [transferZip, idsF, transfer_ids b a, transferZip_ids bs as, List.length_cons, List.take_succ_cons, idsF]
end

theorem transfer_id (b a : Tr α) : (transfer a b).id = b.id := by cases b; rw [transfer]; rfl

mutual
/-- same ids at the same depths -/
theorem transfer_lev : ∀ (b a : Tr α) (d : Nat), ((transfer a b).lev d).map (fun e => (e.id, e.dep)) = (b.lev d).map (fun e => (e.id, e.dep))
  | .node bi bl bk, a, d => by
    rw [transfer, Tr.lev, Tr.lev, levs_append, List.map_cons, List.map_append, transferZip_lev bk a.kids (d + 1), ← List.map_append, ← levs_append,
      List.take_append_drop, List.map_cons]
theorem transferZip_lev : ∀ (bs as : List (Tr α)) (d : Nat),
    (levs d (transferZip as bs)).map (fun e => (e.id, e.dep)) = (levs d (bs.take as.length)).map (fun e => (e.id, e.dep))
  | [], as, d => by rw [transferZip]; simp
  | b :: bs, [], d => by rw [transferZip]; simp
  | b :: bs, a :: as, d => by
    rw [transferZip, levs, List.map_append, transfer_lev b a d, transferZip_lev bs as d, List.length_cons, List.take_succ_cons, levs, List.map_append]
end

mutual
theorem make_new : ∀ (t : Tr α) (p v : Nat), v ∉ t.ids → ∀ op ∈ make p t, Quiet v op
  | .node i l ks, p, v, h, op, ho => by
    rw [Tr.ids, List.mem_cons, not_or] at h
    rw [make, List.mem_cons] at ho
    rcases ho with rfl | ho
    · exact fun e => h.1 e.symm
    · exact makeAll_new ks i v h.2 op ho
theorem makeAll_new : ∀ (ts : List (Tr α)) (p v : Nat), v ∉ idsF ts → ∀ op ∈ makeAll p ts, Quiet v op
  | [], p, v, _, op, ho => by rw [makeAll] at ho; cases ho
  | t :: ts, p, v, h, op, ho => by
    rw [idsF, List.mem_append, not_or] at h
    rw [makeAll, List.mem_append] at ho
    rcases ho with ho | ho
    · exact make_new t p v h.1 op ho
    · exact makeAll_new ts p v h.2 op ho
end

theorem mem_idsF_drop {ts : List (Tr α)} {n v : Nat} (h : v ∈ idsF (ts.drop n)) : v ∈ idsF ts := by
  rw [idsF_take_drop ts n]; exact List.mem_append_right _ h

mutual
theorem dif_new : ∀ (b a : Tr α) (v : Nat), v ∉ b.ids → ∀ op ∈ dif a b, Quiet v op
  | .node bi bl bk, a, v, h, op, ho => by
    rw [Tr.ids, List.mem_cons, not_or] at h
    rw [dif, List.mem_append, List.mem_append, List.mem_append] at ho
    rcases ho with ((ho | ho) | ho) | ho
    · obtain ⟨c, _, rfl⟩ := List.mem_map.1 ho; trivial
    · exact difZip_new bk a.kids v h.2 op ho
    · exact makeAll_new _ _ v (fun hc => h.2 (mem_idsF_drop hc)) op ho
    · split at ho
      · cases ho
      · rcases List.mem_singleton.1 ho with rfl
        exact fun e => h.1 e.symm
theorem difZip_new : ∀ (bs as : List (Tr α)) (v : Nat), v ∉ idsF bs → ∀ op ∈ difZip as bs, Quiet v op
  | [], as, v, _, op, ho => by rw [difZip] at ho; cases ho
  | b :: bs, [], v, _, op, ho => by rw [difZip] at ho; cases ho
  | b :: bs, a :: as, v, h, op, ho => by
    rw [idsF, List.mem_append, not_or] at h
    rw [difZip, List.mem_append] at ho
    rcases ho with ho | ho
    · exact dif_new b a v h.1 op ho
    · exact difZip_new bs as v h.2 op ho
end

/-- No element with id `v` is at depth `D`. -/
def Miss (v D : Nat) (s : Tr α) : Prop := ∀ e ∈ s.lev 0, e.id = v → e.dep ≠ D

theorem Miss.steps {v D : Nat} {s s' : Tr α} {ops : List (SOp α)} (h : Miss v D s) (hs : steps ops s = some s') (hq : ∀ op ∈ ops, Quiet v op) :
    Miss v D s' := by
  intro e he hv
  have := (steps_quiet 0 hs hq).subset (mem_at.2 ⟨he, hv⟩)
  exact h e (mem_at.1 this).1 hv

theorem first_unique {k : Nat} {p q r t : List (Ent α)} {e f : Ent α} (h : p ++ e :: r = q ++ f :: t) (he : e.id = k) (hf : f.id = k)
    (hp : ∀ x ∈ p, x.id ≠ k) (hq : ∀ x ∈ q, x.id ≠ k) : p = q ∧ e = f := by
  induction p generalizing q with
  | nil =>
    cases q with
    | nil => simp only [List.nil_append, List.cons.injEq] at h; exact ⟨rfl, h.1⟩
    | cons x q =>
      simp only [List.nil_append, List.cons_append, List.cons.injEq] at h
      exact absurd (h.1 ▸ he) (hq x (List.mem_cons_self ..))
  | cons y p ih =>
    cases q with
    | nil =>
      simp only [List.nil_append, List.cons_append, List.cons.injEq] at h
      exact absurd (h.1 ▸ hf) (hp y (List.mem_cons_self ..))
    | cons x q =>
      simp only [List.cons_append, List.cons.injEq] at h
      have := ih h.2 (fun z hz => hp z (List.mem_cons_of_mem _ hz)) (fun z hz => hq z (List.mem_cons_of_mem _ hz))
      exact ⟨by rw [h.1, this.1], this.2⟩

theorem first_split {k : Nat} {l : List (Ent α)} (h : ∃ e ∈ l, e.id = k) : ∃ p e r, l = p ++ e :: r ∧ e.id = k ∧ ∀ x ∈ p, x.id ≠ k := by
  induction l with
  | nil => obtain ⟨e, he, _⟩ := h; cases he
  | cons x l ih =>
    by_cases hx : x.id = k
    · exact ⟨[], x, l, rfl, hx, by simp⟩
    · obtain ⟨e, he, hk⟩ := h
      rcases List.mem_cons.1 he with rfl | he
      · exact absurd hk hx
      · obtain ⟨p, e, r, h1, h2, h3⟩ := ih ⟨e, he, hk⟩
        refine ⟨x :: p, e, r, by rw [h1]; rfl, h2, ?_⟩
        intro y hy
        rcases List.mem_cons.1 hy with rfl | hy
        · exact hx
        · exact h3 y hy

/-! ## Creating -/

/-- For every id `k ≥ n` already in front of the hole (its first occurrence at depth `D`): it is not deeper than `dmax`, and nothing with the next
id is deeper than `D + 1`. -/
def Col (n : Nat) (pre post : List (Ent α)) (dmax : Nat) : Prop :=
  ∀ k, n ≤ k → ∀ p e r, pre = p ++ e :: r → e.id = k → (∀ x ∈ p, x.id ≠ k) → e.dep ≤ dmax ∧ ∀ x ∈ pre ++ post, x.id = k + 1 → x.dep ≤ e.dep + 1

theorem Col.append {n m : Nat} {pre post X : List (Ent α)} {dmax : Nat} (h : Col n pre post dmax) (hn : n ≤ m) (hX : ∀ x ∈ X, x.id < m) :
    Col m (pre ++ X) post dmax := by
  intro k hk p e r hp he hf
  have hin : ∃ x ∈ pre, x.id = k := by
    have : e ∈ pre ++ X := by rw [hp]; simp
    rcases List.mem_append.1 this with hx | hx
    · exact ⟨e, hx, he⟩
    · have := hX e hx; omega
  obtain ⟨p', e', r', h1, h2, h3⟩ := first_split hin
  have hu := first_unique (k := k) (p := p) (q := p') (e := e) (f := e') (r := r) (t := r' ++ X) (by rw [← hp, h1]; simp) he h2 hf h3
  have := h k (by omega) p' e' r' h1 h2 h3
  rw [hu.2]
  refine ⟨this.1, ?_⟩
  intro x hx hxk
  refine this.2 x ?_ hxk
  rcases List.mem_append.1 hx with hx | hx
  · rcases List.mem_append.1 hx with hx | hx
    · exact List.mem_append_left _ hx
    · have := hX x hx; omega
  · exact List.mem_append_right _ hx

theorem range'_split {a b : List Nat} {g n : Nat} (h : a ++ b = List.range' g n) :
    a = List.range' g a.length ∧ b = List.range' (g + a.length) b.length := by
  have hl : a.length + b.length = n := by have := congrArg List.length h; simpa using this
  subst hl
  rw [← List.range'_append_1] at h
  have := List.append_inj h (by simp)
  exact ⟨this.1, this.2⟩

theorem dense_node {t : Tr α} {n : Nat} (h : t.ids = List.range' n t.ids.length) :
    t.id = n ∧ idsF t.kids = List.range' (n + 1) (idsF t.kids).length := by
  rw [t.ids_eq, List.length_cons, List.range'_succ, List.cons.injEq] at h
  exact h

theorem dense_cons {t : Tr α} {ts : List (Tr α)} {n : Nat} (h : idsF (t :: ts) = List.range' n (idsF (t :: ts)).length) :
    t.ids = List.range' n t.ids.length ∧ idsF ts = List.range' (n + t.ids.length) (idsF ts).length := by
  rw [idsF] at h
  exact range'_split h

theorem mem_dense {l : List Nat} {n v : Nat} (h : l = List.range' n l.length) (hv : v ∈ l) : n ≤ v ∧ v < n + l.length := by
  rw [h, List.mem_range'_1] at hv; exact hv

theorem plug_add (C : List (Fr α)) (p : Nat) (l : α) (done : List (Tr α)) (x : Tr α) :
    plug C (.node p l (done ++ [x])) = plug (⟨p, l, done, []⟩ :: C) x := rfl

theorem step_create_plug {C : List (Fr α)} {p i : Nat} {l m : α} {done : List (Tr α)} (hp : p ∉ preIds C) :
    step (.create i p m) (plug C (.node p l done)) = some (plug (⟨p, l, done, []⟩ :: C) (.node i m [])) := by
  rw [step, modify_plug hp rfl]
  rfl

mutual
theorem make_or : ∀ (K : Tr α) (C : List (Fr α)) (p : Nat) (l : α) (done : List (Tr α)) (n dmax : Nat) (s : Tr α), p ∉ preIds C →
    K.ids = List.range' n K.ids.length → Col n (preE (⟨p, l, done, []⟩ :: C)) (postE C) dmax → dmax ≤ C.length →
    steps (make p K) (plug C (.node p l done)) = some s →
    (s = plug C (.node p l (done ++ [K])) ∧ ∀ L ∈ K.nodes, L.id ∈ preIds (⟨p, l, done, []⟩ :: C) → L.kids = []) ∨
      ∃ e ∈ K.lev (C.length + 1), Miss e.id e.dep s
  | .node i kl kk, C, p, l, done, n, dmax, s, hp, hids, hcol, hd, hs => by
    obtain ⟨hi, hkk⟩ := dense_node hids
    simp only [Tr.id, Tr.kids] at hi hkk
    subst hi
    rw [make] at hs
    obtain ⟨m, h1, h2⟩ := steps_cons_some hs
    rw [step_create_plug hp] at h1
    cases h1
    by_cases hfresh : i ∈ preIds (⟨p, l, done, []⟩ :: C)
    · -- a pending element has that id
      cases kk with
      | nil =>
        rw [makeAll, steps] at h2
        cases h2
        refine Or.inl ⟨rfl, ?_⟩
        intro L hL _
        rw [Tr.nodes, nodesF] at hL
        rcases List.mem_singleton.1 hL with rfl
        rfl
      | cons K' rest =>
        refine Or.inr ⟨⟨K'.id, C.length + 2, K'.lab⟩, ?_, ?_⟩
        · rw [Tr.lev, levs, K'.lev_eq]; simp
        · simp only
          have hK' : K'.id = i + 1 := (dense_node (dense_cons hkk).1).1
          obtain ⟨K'i, K'l, K'k⟩ := K'
          simp only [Tr.id] at hK' ⊢
          subst hK'
          rw [makeAll, make, List.cons_append] at h2
          obtain ⟨m', h3, h4⟩ := steps_cons_some h2
          have hmiss : Miss (i + 1) (C.length + 2) m' := by
            have hf := step_flat 0 h3
            rw [lev_plug] at hf
            obtain ⟨p0, e0, r0, g1, g2, g3⟩ := first_split (k := i) (l := preE (⟨p, l, done, []⟩ :: C)) (by
              unfold preIds at hfresh
              obtain ⟨e, he, hk⟩ := List.mem_map.1 hfresh
              exact ⟨e, he, hk⟩)
            have hc := hcol i (Nat.le_refl _) p0 e0 r0 g1 g2 g3
            intro e he hek
            generalize hL : m'.lev 0 = L at hf he
            generalize hS : preE (⟨p, l, done, []⟩ :: C) ++ (Tr.node i kl []).lev (⟨p, l, done, []⟩ :: C : List (Fr α)).length ++
              postE (⟨p, l, done, []⟩ :: C) = S at hf
            cases hf with
            | create hpre =>
              rename_i m0 pre sub post D
              have hu := first_unique (k := i) (p := p0) (q := pre) (e := e0) (f := ⟨i, D, m0⟩) (r := r0 ++ (Tr.node i kl []).lev
                (⟨p, l, done, []⟩ :: C : List (Fr α)).length ++ postE (⟨p, l, done, []⟩ :: C)) (t := sub ++ post) (by rw [← hS, g1]; simp) g2 rfl g3 hpre
              have hD : e0.dep = D := by rw [hu.2]
              have hold : ∀ x ∈ pre ++ ⟨i, D, m0⟩ :: (sub ++ post), x.id = i + 1 → x.dep ≤ D + 1 := by
                intro x hx hxi
                rw [← hS, List.mem_append, List.mem_append] at hx
                rw [← hD]
                rcases hx with (hx | hx) | hx
                · exact hc.2 x (List.mem_append_left _ hx) hxi
                · rw [Tr.lev, levs] at hx
                  rcases List.mem_singleton.1 hx with rfl
                  simp only at hxi
                  omega
                · rw [postE, levs, List.nil_append] at hx
                  exact hc.2 x (List.mem_append_right _ hx) hxi
              have hle : e.dep ≤ D + 1 := by
                rw [List.mem_append, List.mem_cons, List.mem_append, List.mem_cons] at he
                rcases he with he | he | he | he | he
                · exact hold e (by simp [he]) hek
                · exact hold e (by simp [he]) hek
                · exact hold e (by simp [he]) hek
                · rw [he]; exact Nat.le_refl _
                · exact hold e (by simp [he]) hek
              have := hc.1
              omega
          refine hmiss.steps h4 ?_
          have hd1 := dense_cons hkk
          have hd2 := dense_node hd1.1
          simp only [Tr.kids] at hd2
          intro op ho
          rcases List.mem_append.1 ho with ho | ho
          · exact makeAll_new _ _ _ (fun hc => by have := mem_dense hd2.2 hc; omega) op ho
          · exact makeAll_new _ _ _ (fun hc => by
              have := mem_dense hd1.2 hc
              rw [Tr.ids, List.length_cons] at this
              omega) op ho
    · -- the id is new
      have hcol' : Col (i + 1) (preE (⟨i, kl, [], []⟩ :: ⟨p, l, done, []⟩ :: C)) (postE (⟨p, l, done, []⟩ :: C)) dmax := by
        have := hcol.append (m := i + 1) (X := [⟨i, C.length + 1, kl⟩]) (by omega) (by simp)
        rw [preE, postE, levs, levs, List.nil_append]
        exact this
      rcases makeAll_or kk (⟨p, l, done, []⟩ :: C) i kl [] (i + 1) dmax s hfresh hkk hcol' (by simp; omega) h2 with ⟨g1, g2⟩ | ⟨e, g1, g2⟩
      · refine Or.inl ⟨g1, ?_⟩
        intro L hL hLid
        rw [Tr.nodes, List.mem_cons] at hL
        rcases hL with rfl | hL
        · exact absurd hLid hfresh
        · exact g2 L hL ((preIds_cons _ _ _).2 (Or.inr (Or.inr hLid)))
      · refine Or.inr ⟨e, ?_, g2⟩
        rw [Tr.lev]
        exact List.mem_cons_of_mem _ g1
theorem makeAll_or : ∀ (cs : List (Tr α)) (C : List (Fr α)) (p : Nat) (l : α) (done : List (Tr α)) (n dmax : Nat) (s : Tr α), p ∉ preIds C →
    idsF cs = List.range' n (idsF cs).length → Col n (preE (⟨p, l, done, []⟩ :: C)) (postE C) dmax → dmax ≤ C.length →
    steps (makeAll p cs) (plug C (.node p l done)) = some s →
    (s = plug C (.node p l (done ++ cs)) ∧ ∀ L ∈ nodesF cs, L.id ∈ preIds (⟨p, l, done, []⟩ :: C) → L.kids = []) ∨
      ∃ e ∈ levs (C.length + 1) cs, Miss e.id e.dep s
  | [], C, p, l, done, n, dmax, s, hp, hids, hcol, hd, hs => by
    rw [makeAll, steps] at hs
    cases hs
    rw [List.append_nil]
    exact Or.inl ⟨rfl, fun L hL => by rw [nodesF] at hL; cases hL⟩
  | K :: cs, C, p, l, done, n, dmax, s, hp, hids, hcol, hd, hs => by
    have hdc := dense_cons hids
    rw [makeAll] at hs
    obtain ⟨m, h1, h2⟩ := steps_append_some hs
    rcases make_or K C p l done n dmax m hp hdc.1 hcol hd h1 with ⟨g1, g2⟩ | ⟨e, g1, g2⟩
    · subst g1
      have hcol' : Col (n + K.ids.length) (preE (⟨p, l, done ++ [K], []⟩ :: C)) (postE C) dmax := by
        have := hcol.append (m := n + K.ids.length) (X := K.lev (C.length + 1)) (by omega) (by
          intro x hx
          have : x.id ∈ K.ids := by rw [← lev_ids K (C.length + 1)]; exact List.mem_map.2 ⟨x, hx, rfl⟩
          have := mem_dense hdc.1 this
          omega)
        rw [preE] at this ⊢
        simp only at this ⊢
        rw [levs_append, levs, levs, List.append_nil]
        simpa using this
      rcases makeAll_or cs C p l (done ++ [K]) (n + K.ids.length) dmax s hp hdc.2 hcol' hd h2 with ⟨g3, g4⟩ | ⟨e, g3, g4⟩
      · refine Or.inl ⟨by rw [g3, List.append_assoc]; rfl, ?_⟩
        intro L hL hLid
        rw [nodesF, List.mem_append] at hL
        rcases hL with hL | hL
        · exact g2 L hL hLid
        · refine g4 L hL ?_
          rw [preIds_cons] at hLid ⊢
          simp only at hLid ⊢
          rw [idsF_append, List.mem_append]
          rcases hLid with h | h | h
          · exact Or.inl h
          · exact Or.inr (Or.inl (Or.inl h))
          · exact Or.inr (Or.inr h)
      · refine Or.inr ⟨e, ?_, g4⟩
        rw [levs]
        exact List.mem_append_right _ g3
    · refine Or.inr ⟨e, ?_, g2.steps h2 ?_⟩
      · rw [levs]; exact List.mem_append_left _ g1
      · refine makeAll_new cs p e.id (fun hc => ?_)
        have h3 : e.id ∈ K.ids := by rw [← lev_ids K (C.length + 1)]; exact List.mem_map.2 ⟨e, g1, rfl⟩
        have h4 := mem_dense hdc.1 h3
        have h5 := mem_dense hdc.2 hc
        omega
end

end Puck.Shape
