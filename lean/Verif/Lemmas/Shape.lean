import Verif.Model.Io
/-!
# Labelled trees under the operations of a changeset

A tree with ids, carrying labels, and the four kinds of operations a positional changeset consists of; everything is found by
"first in document order", as in `apply.rs`.  Used to show what *cannot* be repaired once an operation has gone to the wrong element.
-/
namespace Puck.Shape

/-- A tree with ids and labels. -/
inductive Tr (α : Type) where
  | node (id : Nat) (lab : α) (kids : List (Tr α))

/-- An entry of the document-order listing: id, depth, label. -/
structure Ent (α : Type) where
  id : Nat
  dep : Nat
  lab : α

variable {α β : Type}

/-- its id -/
def Tr.id : Tr α → Nat | .node i _ _ => i
/-- its label -/
def Tr.lab : Tr α → α | .node _ l _ => l
/-- its children -/
def Tr.kids : Tr α → List (Tr α) | .node _ _ ks => ks

mutual
/-- The tree in document order, its root at depth `d`. -/
def Tr.lev (d : Nat) : Tr α → List (Ent α)
  | .node i l ks => ⟨i, d, l⟩ :: levs (d + 1) ks
/-- A forest. -/
def levs (d : Nat) : List (Tr α) → List (Ent α)
  | [] => []
  | t :: ts => t.lev d ++ levs d ts
end

mutual
/-- ids in document order -/
def Tr.ids : Tr α → List Nat
  | .node i _ ks => i :: idsF ks
/-- of a forest -/
def idsF : List (Tr α) → List Nat
  | [] => []
  | t :: ts => t.ids ++ idsF ts
end

theorem Tr.ids_eq (t : Tr α) : t.ids = t.id :: idsF t.kids := by cases t; rw [Tr.ids]; rfl
theorem Tr.lev_eq (d : Nat) (t : Tr α) : t.lev d = ⟨t.id, d, t.lab⟩ :: levs (d + 1) t.kids := by cases t; rw [Tr.lev]; rfl

theorem levs_append (d : Nat) (as bs : List (Tr α)) : levs d (as ++ bs) = levs d as ++ levs d bs := by
  induction as with
  | nil => rfl
  | cons a as ih => rw [List.cons_append, levs, levs, ih, List.append_assoc]

theorem idsF_append (as bs : List (Tr α)) : idsF (as ++ bs) = idsF as ++ idsF bs := by
  induction as with
  | nil => rfl
  | cons a as ih => rw [List.cons_append, idsF, idsF, ih, List.append_assoc]

mutual
theorem lev_ids : ∀ (t : Tr α) (d : Nat), (t.lev d).map (·.id) = t.ids
  | .node i l ks, d => by rw [Tr.lev, Tr.ids, List.map_cons, levs_ids ks]
theorem levs_ids : ∀ (ts : List (Tr α)) (d : Nat), (levs d ts).map (·.id) = idsF ts
  | [], d => rfl
  | t :: ts, d => by rw [levs, idsF, List.map_append, lev_ids t, levs_ids ts]
end

mutual
theorem lev_dep : ∀ (t : Tr α) (d : Nat), ∀ e ∈ t.lev d, d ≤ e.dep
  | .node i l ks, d, e, h => by
    rw [Tr.lev, List.mem_cons] at h
    rcases h with rfl | h
    · exact Nat.le_refl _
    · have := levs_dep ks (d + 1) e h; omega
theorem levs_dep : ∀ (ts : List (Tr α)) (d : Nat), ∀ e ∈ levs d ts, d ≤ e.dep
  | [], d, e, h => by rw [levs] at h; cases h
  | t :: ts, d, e, h => by
    rw [levs, List.mem_append] at h
    rcases h with h | h
    · exact lev_dep t d e h
    · exact levs_dep ts d e h
end

/-! ## Operations -/

mutual
/-- find the first element with id `i` and change it -/
def modFirst (i : Nat) (f : Tr α → Option (Tr α)) : Tr α → Option (Option (Tr α))
  | .node j l ks =>
    if i = j then some (f (.node j l ks))
    else
      match modFirstIn i f ks with
      | none => none
      | some none => some none
      | some (some ks') => some (some (.node j l ks'))
/-- in a forest -/
def modFirstIn (i : Nat) (f : Tr α → Option (Tr α)) : List (Tr α) → Option (Option (List (Tr α)))
  | [] => none
  | t :: ts =>
    match modFirst i f t with
    | some none => some none
    | some (some t') => some (some (t' :: ts))
    | none =>
      match modFirstIn i f ts with
      | none => none
      | some none => some none
      | some (some ts') => some (some (t :: ts'))
end

/-- change the first element with id `i`; `none` if there is none -/
def modify (i : Nat) (f : Tr α → Option (Tr α)) (t : Tr α) : Option (Tr α) :=
  match modFirst i f t with
  | none => none
  | some r => r

mutual
/-- the id of the parent of the first element (other than the root) with id `i` -/
def findPar (i : Nat) : Tr α → Option Nat
  | .node j _ ks => findParIn i j ks
/-- among the children of `p` -/
def findParIn (i p : Nat) : List (Tr α) → Option Nat
  | [] => none
  | t :: ts =>
    if t.id = i then some p
    else
      match findPar i t with
      | some r => some r
      | none => findParIn i p ts
end

/-- remove the first child with id `i` -/
def removeKid (i : Nat) : List (Tr α) → Option (List (Tr α))
  | [] => none
  | t :: ts => if t.id = i then some ts else (removeKid i ts).map (t :: ·)

/-- The operations. -/
inductive SOp (α : Type) where
  | create (id parent : Nat) (lab : α)
  | setId (id new : Nat)
  | delete (id : Nat)
  | upd (id : Nat) (f : α → α)

/-- One operation; `none` is a failure. -/
def step : SOp α → Tr α → Option (Tr α)
  | .create i p l, t => modify p (fun x => some (.node x.id x.lab (x.kids ++ [.node i l []]))) t
  | .setId i n, t => modify i (fun x => some (.node n x.lab x.kids)) t
  | .delete i, t =>
    match findPar i t with
    | none => none
    | some p => modify p (fun x => (removeKid i x.kids).map fun ks => .node x.id x.lab ks) t
  | .upd i f, t => modify i (fun x => some (.node x.id (f x.lab) x.kids)) t

/-- Several. -/
def steps : List (SOp α) → Tr α → Option (Tr α)
  | [], t => some t
  | op :: ops, t =>
    match step op t with
    | none => none
    | some t' => steps ops t'

theorem steps_append (o1 o2 : List (SOp α)) (t : Tr α) : steps (o1 ++ o2) t = (steps o1 t).bind (steps o2) := by
  induction o1 generalizing t with
  | nil => rfl
  | cons o o1 ih =>
    rw [List.cons_append, steps, steps]
    cases step o t with
    | none => rfl
    | some t' => exact ih t'

theorem steps_append_some {o1 o2 : List (SOp α)} {t s : Tr α} (h : steps (o1 ++ o2) t = some s) :
    ∃ m, steps o1 t = some m ∧ steps o2 m = some s := by
  rw [steps_append] at h
  cases h1 : steps o1 t with
  | none => rw [h1] at h; cases h
  | some m => rw [h1] at h; exact ⟨m, rfl, h⟩

theorem steps_cons_some {o : SOp α} {os : List (SOp α)} {t s : Tr α} (h : steps (o :: os) t = some s) :
    ∃ m, step o t = some m ∧ steps os m = some s := by
  rw [steps] at h
  cases h1 : step o t with
  | none => rw [h1] at h; cases h
  | some m => rw [h1] at h; exact ⟨m, rfl, h⟩

/-! ## What an operation does to the listing -/

mutual
theorem modFirst_lev (i : Nat) (f : Tr α → Option (Tr α)) : ∀ (t t' : Tr α) (d : Nat), modFirst i f t = some (some t') →
    ∃ pre x x' post D, t.lev d = pre ++ x.lev D ++ post ∧ t'.lev d = pre ++ x'.lev D ++ post ∧ (∀ e ∈ pre, e.id ≠ i) ∧ x.id = i ∧ f x = some x'
  | .node j l ks, t', d, h => by
    rw [modFirst] at h
    by_cases hj : i = j
    · rw [if_pos hj] at h
      simp only [Option.some.injEq] at h
      exact ⟨[], .node j l ks, t', [], d, by simp, by simp, by simp, hj.symm, h⟩
    · rw [if_neg hj] at h
      cases hk : modFirstIn i f ks with
      | none => rw [hk] at h; cases h
      | some r =>
        cases r with
        | none => rw [hk] at h; cases h
        | some ks' =>
          rw [hk] at h
          simp only [Option.some.injEq] at h
          subst h
          obtain ⟨pre, x, x', post, D, h1, h2, h3, h4, h5⟩ := modFirstIn_lev i f ks ks' (d + 1) hk
          refine ⟨⟨j, d, l⟩ :: pre, x, x', post, D, ?_, ?_, ?_, h4, h5⟩
          · rw [Tr.lev, h1]; rfl
          · rw [Tr.lev, h2]; rfl
          · intro e he
            rcases List.mem_cons.1 he with rfl | he
            · exact fun e => hj e.symm
            · exact h3 e he
theorem modFirstIn_lev (i : Nat) (f : Tr α → Option (Tr α)) : ∀ (ts ts' : List (Tr α)) (d : Nat), modFirstIn i f ts = some (some ts') →
    ∃ pre x x' post D, levs d ts = pre ++ x.lev D ++ post ∧ levs d ts' = pre ++ x'.lev D ++ post ∧ (∀ e ∈ pre, e.id ≠ i) ∧ x.id = i ∧ f x = some x'
  | [], ts', d, h => by rw [modFirstIn] at h; cases h
  | t :: ts, ts', d, h => by
    rw [modFirstIn] at h
    cases ht : modFirst i f t with
    | some r =>
      cases r with
      | none => rw [ht] at h; cases h
      | some t' =>
        rw [ht] at h
        simp only [Option.some.injEq] at h
        subst h
        obtain ⟨pre, x, x', post, D, h1, h2, h3, h4, h5⟩ := modFirst_lev i f t t' d ht
        refine ⟨pre, x, x', post ++ levs d ts, D, ?_, ?_, h3, h4, h5⟩
        · rw [levs, h1]; simp
        · rw [levs, h2]; simp
    | none =>
      rw [ht] at h
      cases hk : modFirstIn i f ts with
      | none => rw [hk] at h; cases h
      | some r =>
        cases r with
        | none => rw [hk] at h; cases h
        | some ts'' =>
          rw [hk] at h
          simp only [Option.some.injEq] at h
          subst h
          obtain ⟨pre, x, x', post, D, h1, h2, h3, h4, h5⟩ := modFirstIn_lev i f ts ts'' d hk
          refine ⟨t.lev d ++ pre, x, x', post, D, ?_, ?_, ?_, h4, h5⟩
          · rw [levs, h1]; simp
          · rw [levs, h2]; simp
          · intro e he
            rcases List.mem_append.1 he with he | he
            · exact modFirst_none i f t d ht e he
            · exact h3 e he
theorem modFirst_none (i : Nat) (f : Tr α → Option (Tr α)) : ∀ (t : Tr α) (d : Nat), modFirst i f t = none → ∀ e ∈ t.lev d, e.id ≠ i
  | .node j l ks, d, h, e, he => by
    rw [modFirst] at h
    by_cases hj : i = j
    · rw [if_pos hj] at h; cases h
    · rw [if_neg hj] at h
      rw [Tr.lev, List.mem_cons] at he
      rcases he with rfl | he
      · exact fun e => hj e.symm
      · cases hk : modFirstIn i f ks with
        | none => exact modFirstIn_none i f ks (d + 1) hk e he
        | some r => rw [hk] at h; cases r <;> cases h
theorem modFirstIn_none (i : Nat) (f : Tr α → Option (Tr α)) : ∀ (ts : List (Tr α)) (d : Nat), modFirstIn i f ts = none → ∀ e ∈ levs d ts, e.id ≠ i
  | [], d, h, e, he => by rw [levs] at he; cases he
  | t :: ts, d, h, e, he => by
    rw [modFirstIn] at h
    cases ht : modFirst i f t with
    | some r => rw [ht] at h; cases r <;> cases h
    | none =>
      rw [ht] at h
      cases hk : modFirstIn i f ts with
      | some r => rw [hk] at h; cases r <;> cases h
      | none =>
        rw [levs, List.mem_append] at he
        rcases he with he | he
        · exact modFirst_none i f t d ht e he
        · exact modFirstIn_none i f ts d hk e he
end

theorem modify_lev {i : Nat} {f : Tr α → Option (Tr α)} {t t' : Tr α} (d : Nat) (h : modify i f t = some t') :
    ∃ pre x x' post D, t.lev d = pre ++ x.lev D ++ post ∧ t'.lev d = pre ++ x'.lev D ++ post ∧ (∀ e ∈ pre, e.id ≠ i) ∧ x.id = i ∧ f x = some x' := by
  unfold modify at h
  cases hm : modFirst i f t with
  | none => rw [hm] at h; cases h
  | some r =>
    rw [hm] at h
    simp only at h
    subst h
    exact modFirst_lev i f t t' d hm

/-- The effect of an operation on the listing. -/
inductive Flat : SOp α → List (Ent α) → List (Ent α) → Prop
  | create {i p : Nat} {l m : α} {pre sub post : List (Ent α)} {D : Nat} : (∀ e ∈ pre, e.id ≠ p) →
      Flat (.create i p l) (pre ++ ⟨p, D, m⟩ :: (sub ++ post)) (pre ++ ⟨p, D, m⟩ :: (sub ++ ⟨i, D + 1, l⟩ :: post))
  | setId {i n : Nat} {m : α} {pre post : List (Ent α)} {D : Nat} : (∀ e ∈ pre, e.id ≠ i) →
      Flat (.setId i n) (pre ++ ⟨i, D, m⟩ :: post) (pre ++ ⟨n, D, m⟩ :: post)
  | delete {i : Nat} {l l' : List (Ent α)} : l'.Sublist l → Flat (.delete i) l l'
  | upd {i : Nat} {f : α → α} {m : α} {pre post : List (Ent α)} {D : Nat} : (∀ e ∈ pre, e.id ≠ i) →
      Flat (.upd i f) (pre ++ ⟨i, D, m⟩ :: post) (pre ++ ⟨i, D, f m⟩ :: post)

theorem removeKid_sublist (i : Nat) : ∀ (ts ts' : List (Tr α)), removeKid i ts = some ts' → ts'.Sublist ts
  | [], ts', h => by rw [removeKid] at h; cases h
  | t :: ts, ts', h => by
    rw [removeKid] at h
    split at h
    · simp only [Option.some.injEq] at h; subst h; exact List.sublist_cons_self _ _
    · cases hr : removeKid i ts with
      | none => rw [hr] at h; cases h
      | some r =>
        rw [hr] at h
        simp only [Option.map_some, Option.some.injEq] at h
        subst h
        exact (removeKid_sublist i ts r hr).cons_cons t

theorem levs_sublist (d : Nat) {ts ts' : List (Tr α)} (h : ts'.Sublist ts) : (levs d ts').Sublist (levs d ts) := by
  induction h with
  | slnil => exact List.Sublist.refl _
  | cons a _ ih => rw [levs]; exact ih.trans (List.sublist_append_right _ _)
  | cons_cons a _ ih => rw [levs, levs]; exact (List.Sublist.refl _).append ih

theorem step_flat {op : SOp α} {t t' : Tr α} (d : Nat) (h : step op t = some t') : Flat op (t.lev d) (t'.lev d) := by
  cases op with
  | create i p l =>
    obtain ⟨pre, x, x', post, D, h1, h2, h3, h4, h5⟩ := modify_lev d h
    simp only [Option.some.injEq] at h5
    subst h5
    rw [h1, h2, Tr.lev_eq D x, h4, Tr.lev, levs_append]
    have := Flat.create (i := i) (p := p) (l := l) (m := x.lab) (pre := pre) (sub := levs (D + 1) x.kids) (post := post) (D := D) h3
    simpa [levs, Tr.lev] using this
  | setId i n =>
    obtain ⟨pre, x, x', post, D, h1, h2, h3, h4, h5⟩ := modify_lev d h
    simp only [Option.some.injEq] at h5
    subst h5
    rw [h1, h2, Tr.lev_eq D x, h4, Tr.lev]
    have := Flat.setId (i := i) (n := n) (m := x.lab) (pre := pre) (post := levs (D + 1) x.kids ++ post) (D := D) h3
    simpa using this
  | upd i f =>
    obtain ⟨pre, x, x', post, D, h1, h2, h3, h4, h5⟩ := modify_lev d h
    simp only [Option.some.injEq] at h5
    subst h5
    rw [h1, h2, Tr.lev_eq D x, h4, Tr.lev]
    have := Flat.upd (i := i) (f := f) (m := x.lab) (pre := pre) (post := levs (D + 1) x.kids ++ post) (D := D) h3
    simpa using this
  | delete i =>
    rw [step] at h
    split at h
    · cases h
    · obtain ⟨pre, x, x', post, D, h1, h2, h3, h4, h5⟩ := modify_lev d h
      refine .delete ?_
      rw [h1, h2]
      cases hr : removeKid i x.kids with
      | none => rw [hr] at h5; cases h5
      | some ks =>
        rw [hr] at h5
        simp only [Option.map_some, Option.some.injEq] at h5
        subst h5
        rw [Tr.lev_eq D x, Tr.lev]
        exact ((List.Sublist.refl _).append ((levs_sublist _ (removeKid_sublist i _ _ hr)).cons_cons _)).append (List.Sublist.refl _)

/-! ## Entries with a given id -/

/-- the entries with id `v` -/
def at_ (v : Nat) (l : List (Ent α)) : List (Ent α) := l.filter fun e => e.id == v

theorem at_append (v : Nat) (a b : List (Ent α)) : at_ v (a ++ b) = at_ v a ++ at_ v b := List.filter_append ..

theorem at_cons_pos {v : Nat} {e : Ent α} (h : e.id = v) (l : List (Ent α)) : at_ v (e :: l) = e :: at_ v l := by
  unfold at_; rw [List.filter_cons, if_pos (by simp [h])]

theorem at_cons_neg {v : Nat} {e : Ent α} (h : e.id ≠ v) (l : List (Ent α)) : at_ v (e :: l) = at_ v l := by
  unfold at_; rw [List.filter_cons, if_neg (by simp [h])]

theorem at_none {v : Nat} {l : List (Ent α)} (h : ∀ e ∈ l, e.id ≠ v) : at_ v l = [] := by
  unfold at_; rw [List.filter_eq_nil_iff]; intro e he; simpa using h e he

theorem mem_at {v : Nat} {l : List (Ent α)} {e : Ent α} : e ∈ at_ v l ↔ e ∈ l ∧ e.id = v := by
  unfold at_; rw [List.mem_filter]; simp

/-- The operation neither makes an element with id `v` nor changes the label of one. -/
def Quiet (v : Nat) : SOp α → Prop
  | .create i _ _ => i ≠ v
  | .setId _ n => n ≠ v
  | .delete _ => True
  | .upd i f => i = v → f = id

theorem flat_quiet {op : SOp α} {l l' : List (Ent α)} {v : Nat} (h : Flat op l l') (hq : Quiet v op) :
    (at_ v l').Sublist (at_ v l) := by
  cases h with
  | create hp =>
    rename_i i p lb m pre sub post D
    rw [at_append, at_append]
    by_cases hv : p = v
    · rw [at_cons_pos hv, at_cons_pos hv, at_append, at_append, at_cons_neg (e := ⟨i, D + 1, lb⟩) hq]
      exact List.Sublist.refl _
    · rw [at_cons_neg hv, at_cons_neg hv, at_append, at_append, at_cons_neg (e := ⟨i, D + 1, lb⟩) hq]
      exact List.Sublist.refl _
  | setId hp =>
    rename_i i n m pre post D
    rw [at_append, at_append, at_cons_neg (e := ⟨n, D, m⟩) hq]
    refine (List.Sublist.refl _).append ?_
    by_cases hv : i = v
    · rw [at_cons_pos hv]; exact List.sublist_cons_self _ _
    · rw [at_cons_neg hv]; exact List.Sublist.refl _
  | delete hs => exact hs.filter _
  | upd hp =>
    rename_i i f m pre post D
    rw [at_append, at_append]
    by_cases hv : i = v
    · rw [at_cons_pos hv, at_cons_pos hv, hq hv]; exact List.Sublist.refl _
    · rw [at_cons_neg hv, at_cons_neg hv]; exact List.Sublist.refl _

theorem steps_quiet {ops : List (SOp α)} {t t' : Tr α} {v : Nat} (d : Nat) (h : steps ops t = some t') (hq : ∀ op ∈ ops, Quiet v op) :
    (at_ v (t'.lev d)).Sublist (at_ v (t.lev d)) := by
  induction ops generalizing t with
  | nil => rw [steps] at h; cases h; exact List.Sublist.refl _
  | cons op ops ih =>
    obtain ⟨m, h1, h2⟩ := steps_cons_some h
    exact (ih h2 fun o ho => hq o (List.mem_cons_of_mem _ ho)).trans (flat_quiet (step_flat d h1) (hq op (List.mem_cons_self ..)))

/-- `setId v n` takes the first entry with id `v` away. -/
theorem setId_tail {t t' : Tr α} {v n : Nat} (d : Nat) (hn : n ≠ v) (h : step (.setId v n) t = some t') :
    ∃ e, at_ v (t.lev d) = e :: at_ v (t'.lev d) := by
  have hf := step_flat d h
  generalize t.lev d = l at hf ⊢
  generalize t'.lev d = l' at hf ⊢
  cases hf with
  | setId hp =>
    rename_i m pre post D
    refine ⟨⟨v, D, m⟩, ?_⟩
    rw [at_append, at_append, at_none hp, at_cons_pos (e := ⟨v, D, m⟩) rfl, at_cons_neg (e := ⟨n, D, m⟩) hn]
    rfl

/-! ## Contexts -/

/-- A node with a hole among its children. -/
structure Fr (α : Type) where
  id : Nat
  lab : α
  left : List (Tr α)
  right : List (Tr α)

/-- Fill the hole. -/
def Fr.fill (f : Fr α) (x : Tr α) : Tr α := .node f.id f.lab (f.left ++ x :: f.right)

/-- A path from a hole up to the root, innermost first. -/
def plug : List (Fr α) → Tr α → Tr α
  | [], x => x
  | f :: c, x => plug c (f.fill x)

/-- What precedes the hole (at depth `c.length`). -/
def preE : List (Fr α) → List (Ent α)
  | [] => []
  | f :: c => preE c ++ ⟨f.id, c.length, f.lab⟩ :: levs (c.length + 1) f.left

/-- What follows it. -/
def postE : List (Fr α) → List (Ent α)
  | [] => []
  | f :: c => levs (c.length + 1) f.right ++ postE c

theorem lev_plug : ∀ (C : List (Fr α)) (x : Tr α), (plug C x).lev 0 = preE C ++ x.lev C.length ++ postE C
  | [], x => by simp [plug, preE, postE]
  | f :: C, x => by
    rw [plug, lev_plug C, preE, postE, Fr.fill, Tr.lev, levs_append, levs]
    simp

mutual
theorem modFirst_absent (i : Nat) (f : Tr α → Option (Tr α)) : ∀ (t : Tr α), i ∉ t.ids → modFirst i f t = none
  | .node j l ks, h => by
    rw [Tr.ids, List.mem_cons, not_or] at h
    rw [modFirst, if_neg h.1, modFirstIn_absent i f ks h.2]
theorem modFirstIn_absent (i : Nat) (f : Tr α → Option (Tr α)) : ∀ (ts : List (Tr α)), i ∉ idsF ts → modFirstIn i f ts = none
  | [], h => rfl
  | t :: ts, h => by
    rw [idsF, List.mem_append, not_or] at h
    rw [modFirstIn, modFirst_absent i f t h.1, modFirstIn_absent i f ts h.2]
end

theorem modFirstIn_skip (i : Nat) (f : Tr α → Option (Tr α)) (l r : List (Tr α)) (h : i ∉ idsF l) :
    modFirstIn i f (l ++ r) = (modFirstIn i f r).map fun o => o.map (l ++ ·) := by
  induction l with
  | nil =>
    rw [List.nil_append]
    cases modFirstIn i f r with
    | none => rfl
    | some o => cases o <;> rfl
  | cons t l ih =>
    rw [idsF, List.mem_append, not_or] at h
    rw [List.cons_append, modFirstIn, modFirst_absent i f t h.1, ih h.2]
    cases modFirstIn i f r with
    | none => rfl
    | some o => cases o <;> rfl

/-- ids of what precedes the hole -/
def preIds (C : List (Fr α)) : List Nat := (preE C).map (·.id)

theorem preIds_cons (f : Fr α) (C : List (Fr α)) (i : Nat) : i ∈ preIds (f :: C) ↔ i = f.id ∨ i ∈ idsF f.left ∨ i ∈ preIds C := by
  unfold preIds
  rw [preE, List.map_append, List.map_cons, levs_ids, List.mem_append, List.mem_cons]
  constructor
  · rintro (h | h | h)
    · exact Or.inr (Or.inr h)
    · exact Or.inl h
    · exact Or.inr (Or.inl h)
  · rintro (h | h | h)
    · exact Or.inr (Or.inl h)
    · exact Or.inr (Or.inr h)
    · exact Or.inl h

theorem modFirst_plug {i : Nat} {f : Tr α → Option (Tr α)} : ∀ (C : List (Fr α)) (x : Tr α) (r : Option (Tr α)),
    i ∉ preIds C → modFirst i f x = some r → modFirst i f (plug C x) = some (r.map (plug C))
  | [], x, r, _, h => by rw [plug, h]; cases r <;> rfl
  | fr :: C, x, r, hb, h => by
    rw [preIds_cons, not_or, not_or] at hb
    have := modFirst_plug C (fr.fill x) (r.map fr.fill) hb.2.2 (by
      unfold Fr.fill
      rw [modFirst, if_neg hb.1, modFirstIn_skip i f _ _ hb.2.1, modFirstIn, h]
      cases r <;> rfl)
    rw [plug, this]
    cases r <;> rfl

theorem modify_plug {i : Nat} {f : Tr α → Option (Tr α)} {C : List (Fr α)} {x : Tr α} (hb : i ∉ preIds C) (hx : x.id = i) :
    modify i f (plug C x) = (f x).map (plug C) := by
  have : modFirst i f x = some (f x) := by
    cases x with
    | node j l ks =>
      have hx' : i = j := hx.symm
      rw [modFirst, if_pos hx']
  unfold modify
  rw [modFirst_plug C x _ hb this]

mutual
theorem findPar_absent (i : Nat) : ∀ (t : Tr α), i ∉ idsF t.kids → findPar i t = none
  | .node j l ks, h => by rw [findPar, findParIn_absent i j ks h]
theorem findParIn_absent (i p : Nat) : ∀ (ts : List (Tr α)), i ∉ idsF ts → findParIn i p ts = none
  | [], h => rfl
  | t :: ts, h => by
    rw [idsF, List.mem_append, not_or, t.ids_eq, List.mem_cons, not_or] at h
    rw [findParIn, if_neg (fun e => h.1.1 e.symm), findPar_absent i t h.1.2, findParIn_absent i p ts h.2]
end

theorem findParIn_skip (i p : Nat) (l r : List (Tr α)) (h : i ∉ idsF l) : findParIn i p (l ++ r) = findParIn i p r := by
  induction l with
  | nil => rfl
  | cons t l ih =>
    rw [idsF, List.mem_append, not_or, t.ids_eq, List.mem_cons, not_or] at h
    rw [List.cons_append, findParIn, if_neg (fun e => h.1.1 e.symm), findPar_absent i t h.1.2, ih h.2]

theorem findPar_plug {i p : Nat} : ∀ (C : List (Fr α)) (x : Tr α), i ∉ preIds C → i ≠ x.id → findPar i x = some p →
    findPar i (plug C x) = some p
  | [], x, _, _, h => h
  | fr :: C, x, hb, hx, h => by
    rw [preIds_cons, not_or, not_or] at hb
    refine findPar_plug C (fr.fill x) hb.2.2 hb.1 ?_
    unfold Fr.fill
    rw [findPar, findParIn_skip i _ _ _ hb.2.1, findParIn, if_neg (fun e => hx e.symm), h]

end Puck.Shape
