import Verif.Lemmas.ContentsDiff
/-!
# A page as a labelled tree, under the instructions the browser implements

Everything is found by "first in document order"; setting a text empties the element, removing listeners removes those of the whole subtree.
-/
namespace Puck.Shape.Paint


/-- What a page shows of an element, besides its id and the elements in it. -/
structure Lab where
  tag : String
  attrs : String → Option String
  lis : List ListenerRef
  text : String

/-- without listeners -/
def Lab.mute (l : Lab) : Lab := { l with lis := [] }

/-- what the label of an element should be -/
def labOf (e : Element) : Lab := ⟨e.name, e.attributes.get, e.listeners, e.text.getD ""⟩

/-- a new element -/
def blankLab (tag : String) : Lab := ⟨tag, fun _ => none, [], ""⟩

mutual
/-- without any listeners -/
def hush : Tr Lab → Tr Lab
  | .node i l ks => .node i l.mute (hushAll ks)
/-- a forest -/
def hushAll : List (Tr Lab) → List (Tr Lab)
  | [] => []
  | t :: ts => hush t :: hushAll ts
end

mutual
/-- the page that shows a view -/
def tr : Element → Tr Lab
  | ⟨i, n, at', ls, ks, tx, _⟩ => .node i ⟨n, at'.get, ls, tx.getD ""⟩ (trAll ks)
/-- a forest -/
def trAll : List Element → List (Tr Lab)
  | [] => []
  | e :: es => tr e :: trAll es
end

theorem tr_eq (e : Element) : tr e = .node e.id (labOf e) (trAll e.children) := by cases e; rw [tr]; rfl

theorem trAll_append (a b : List Element) : trAll (a ++ b) = trAll a ++ trAll b := by
  induction a with
  | nil => rfl
  | cons x a ih => rw [List.cons_append, trAll, trAll, ih]; rfl

theorem tr_id (e : Element) : (tr e).id = e.id := by cases e; rfl

mutual
theorem tr_ids : ∀ e : Element, (tr e).ids = e.ids
  | ⟨i, n, at', ls, ks, tx, _⟩ => by rw [tr, Tr.ids, Element.ids, trAll_ids ks]
theorem trAll_ids : ∀ es : List Element, idsF (trAll es) = idsOf es
  | [] => rfl
  | e :: es => by rw [trAll, idsF, idsOf, tr_ids e, trAll_ids es]
end

theorem hush_id (t : Tr Lab) : (hush t).id = t.id := by cases t; rw [hush]; rfl

mutual
theorem hush_ids : ∀ t : Tr Lab, (hush t).ids = t.ids
  | .node i l ks => by rw [hush, Tr.ids, Tr.ids, hushAll_ids ks]
theorem hushAll_ids : ∀ ts : List (Tr Lab), idsF (hushAll ts) = idsF ts
  | [] => rfl
  | t :: ts => by rw [hushAll, idsF, idsF, hush_ids t, hushAll_ids ts]
end

/-- an entry without listeners -/
def muteEnt (e : Ent Lab) : Ent Lab := ⟨e.id, e.dep, e.lab.mute⟩

mutual
theorem hush_lev : ∀ (t : Tr Lab) (d : Nat), (hush t).lev d = (t.lev d).map muteEnt
  | .node i l ks, d => by rw [hush, Tr.lev, Tr.lev, List.map_cons, hushAll_lev ks]; rfl
theorem hushAll_lev : ∀ (ts : List (Tr Lab)) (d : Nat), levs d (hushAll ts) = (levs d ts).map muteEnt
  | [], d => rfl
  | t :: ts, d => by rw [hushAll, levs, levs, List.map_append, hush_lev t, hushAll_lev ts]
end

mutual
theorem hush_hush : ∀ t : Tr Lab, hush (hush t) = hush t
  | .node i l ks => by rw [hush, hush, hushAll_hushAll ks]; rfl
theorem hushAll_hushAll : ∀ ts : List (Tr Lab), hushAll (hushAll ts) = hushAll ts
  | [] => rfl
  | t :: ts => by rw [hushAll, hushAll, hush_hush t, hushAll_hushAll ts]
end

theorem hushAll_append (a b : List (Tr Lab)) : hushAll (a ++ b) = hushAll a ++ hushAll b := by
  induction a with
  | nil => rfl
  | cons x a ih => rw [List.cons_append, hushAll, hushAll, ih]; rfl

/-! ## Instructions -/

mutual
/-- remove the first element with id `i` below the root -/
def dropKids (i : Nat) : Tr Lab → Option (Tr Lab)
  | .node j l ks =>
    match dropIn i ks with
    | none => none
    | some ks' => some (.node j l ks')
/-- in a forest -/
def dropIn (i : Nat) : List (Tr Lab) → Option (List (Tr Lab))
  | [] => none
  | t :: ts =>
    if t.id = i then some ts
    else
      match dropKids i t with
      | some t' => some (t' :: ts)
      | none =>
        match dropIn i ts with
        | some ts' => some (t :: ts')
        | none => none
end

/-- The instructions. -/
inductive BOp where
  | create (id parent : Nat) (tag : String)
  | setId (id new : Nat)
  | delete (id : Nat)
  | upd (id : Nat) (f : Lab → Lab)
  | wipe (id : Nat) (s : String)
  | mute (id : Nat)
  | retag (id : Nat) (tag : String)
  | skip

/-- One instruction on the tree; `none`: an exception, or the tree is gone. -/
def bstep : BOp → Tr Lab → Option (Tr Lab)
  | .create i p tag, t => modify p (fun x => some (.node x.id x.lab (x.kids ++ [.node i (blankLab tag) []]))) t
  | .setId i n, t => modify i (fun x => some (.node n x.lab x.kids)) t
  | .delete i, t => if t.id = i then none else dropKids i t
  | .upd i f, t => modify i (fun x => some (.node x.id (f x.lab) x.kids)) t
  | .wipe i s, t => modify i (fun x => some (.node x.id { x.lab with text := s } [])) t
  | .mute i, t => modify i (fun x => some (hush x)) t
  | .retag i n, t => modify i (fun x => some (.node x.id { x.lab.mute with tag := n } (hushAll x.kids))) t
  | .skip, t => some t

/-- Several. -/
def bsteps : List BOp → Tr Lab → Option (Tr Lab)
  | [], t => some t
  | op :: ops, t =>
    match bstep op t with
    | none => none
    | some t' => bsteps ops t'

theorem bsteps_append (o1 o2 : List BOp) (t : Tr Lab) : bsteps (o1 ++ o2) t = (bsteps o1 t).bind (bsteps o2) := by
  induction o1 generalizing t with
  | nil => rfl
  | cons o o1 ih =>
    rw [List.cons_append, bsteps, bsteps]
    cases bstep o t with
    | none => rfl
    | some t' => exact ih t'

theorem bsteps_append_some {o1 o2 : List BOp} {t s : Tr Lab} (h : bsteps (o1 ++ o2) t = some s) :
    ∃ m, bsteps o1 t = some m ∧ bsteps o2 m = some s := by
  rw [bsteps_append] at h
  cases h1 : bsteps o1 t with
  | none => rw [h1] at h; cases h
  | some m => rw [h1] at h; exact ⟨m, rfl, h⟩

theorem bsteps_cons_some {o : BOp} {os : List BOp} {t s : Tr Lab} (h : bsteps (o :: os) t = some s) :
    ∃ m, bstep o t = some m ∧ bsteps os m = some s := by
  rw [bsteps] at h
  cases h1 : bstep o t with
  | none => rw [h1] at h; cases h
  | some m => rw [h1] at h; exact ⟨m, rfl, h⟩

/-- What the browser does with an operation (those that occur in changesets between views without keys). -/
def toB (op : Op) : BOp :=
  match op.instruction with
  | .createTag name (some p) => .create op.id p name
  | .setId n => .setId op.id n
  | .deleteEl => .delete op.id
  | .setAttribute k v => .upd op.id fun l => { l with attrs := fun k' => if k' = k then some v else l.attrs k' }
  | .removeAttribute k => .upd op.id fun l => { l with attrs := fun k' => if k' = k then none else l.attrs k' }
  | .setText s => .wipe op.id s
  | .removeListeners => .mute op.id
  | .setTagName n => .retag op.id n
  | .attachListener n on => .upd op.id fun l => { l with lis := l.lis ++ [⟨n, on⟩] }
  | _ => .skip

/-! ## What cannot be repaired -/

/-- The instruction neither makes an element with id `v` nor touches the label of one (except to remove listeners). -/
def Quiet (v : Nat) : BOp → Prop
  | .create i _ _ => i ≠ v
  | .setId _ n => n ≠ v
  | .upd i _ => i ≠ v
  | .wipe i _ => i ≠ v
  | .retag i _ => i ≠ v
  | _ => True

/-- The instruction does not make an element with id `v`. -/
def Still (v : Nat) : BOp → Prop
  | .create i _ _ => i ≠ v
  | .setId _ n => n ≠ v
  | _ => True

/-- the depths at which there are elements with id `v` -/
def deps (v : Nat) (l : List (Ent Lab)) : List Nat := (at_ v l).map (·.dep)

theorem deps_append (v : Nat) (a b : List (Ent Lab)) : deps v (a ++ b) = deps v a ++ deps v b := by
  unfold deps; rw [at_append, List.map_append]

theorem deps_cons (v : Nat) (e : Ent Lab) (l : List (Ent Lab)) : deps v (e :: l) = (if e.id = v then [e.dep] else []) ++ deps v l := by
  unfold deps
  split
  · rename_i h; rw [at_cons_pos h]; rfl
  · rename_i h; rw [at_cons_neg h]; rfl

theorem deps_muted (v : Nat) (l : List (Ent Lab)) : deps v (l.map muteEnt) = deps v l := by
  induction l with
  | nil => rfl
  | cons e l ih => rw [List.map_cons, deps_cons, deps_cons, ih]; rfl

theorem deps_sublist (v : Nat) {l l' : List (Ent Lab)} (h : l'.Sublist l) : (deps v l').Sublist (deps v l) := (h.filter _).map _

theorem mem_deps {v d : Nat} {l : List (Ent Lab)} : d ∈ deps v l ↔ ∃ e ∈ l, e.id = v ∧ e.dep = d := by
  unfold deps
  rw [List.mem_map]
  constructor
  · rintro ⟨e, h, rfl⟩; exact ⟨e, (mem_at.1 h).1, (mem_at.1 h).2, rfl⟩
  · rintro ⟨e, h1, h2, rfl⟩; exact ⟨e, mem_at.2 ⟨h1, h2⟩, rfl⟩

mutual
theorem dropKids_lev (i : Nat) : ∀ (t t' : Tr Lab) (d : Nat), dropKids i t = some t' → (t'.lev d).Sublist (t.lev d)
  | .node j l ks, t', d, h => by
    rw [dropKids] at h
    split at h
    · cases h
    · rename_i ks' hk
      cases h
      rw [Tr.lev, Tr.lev]
      exact (dropIn_lev i ks ks' (d + 1) hk).cons_cons _
theorem dropIn_lev (i : Nat) : ∀ (ts ts' : List (Tr Lab)) (d : Nat), dropIn i ts = some ts' → (levs d ts').Sublist (levs d ts)
  | [], ts', d, h => by rw [dropIn] at h; cases h
  | t :: ts, ts', d, h => by
    rw [dropIn] at h
    split at h
    · cases h; rw [levs]; exact List.sublist_append_right _ _
    · split at h
      · rename_i t' ht
        cases h
        rw [levs, levs]
        exact (dropKids_lev i t t' d ht).append (List.Sublist.refl _)
      · split at h
        · rename_i ts'' hts
          cases h
          rw [levs, levs]
          exact (List.Sublist.refl _).append (dropIn_lev i ts ts'' d hts)
        · cases h
end

theorem bstep_still {op : BOp} {t t' : Tr Lab} {v : Nat} (d : Nat) (h : bstep op t = some t') (hq : Still v op) :
    (deps v (t'.lev d)).Sublist (deps v (t.lev d)) := by
  have key : ∀ {i : Nat} {f : Tr Lab → Option (Tr Lab)}, modify i f t = some t' →
      (∀ x x' D, x.id = i → f x = some x' → (deps v (x'.lev D)).Sublist (deps v (x.lev D))) → (deps v (t'.lev d)).Sublist (deps v (t.lev d)) := by
    intro i f hm hf
    obtain ⟨pre, x, x', post, D, h1, h2, -, h4, h5⟩ := modify_lev d hm
    rw [h1, h2, deps_append, deps_append, deps_append, deps_append]
    exact ((List.Sublist.refl _).append (hf x x' D h4 h5)).append (List.Sublist.refl _)
  cases op with
  | skip => rw [bstep] at h; cases h; exact List.Sublist.refl _
  | delete i =>
    rw [bstep] at h
    split at h
    · cases h
    · exact deps_sublist v (dropKids_lev i t t' d h)
  | create i p tag =>
    refine key h ?_
    intro x x' D _ hx
    cases hx
    rw [Tr.lev, levs_append, x.lev_eq, deps_cons, deps_cons, deps_append, levs, levs, List.append_nil, Tr.lev, levs, deps_cons, if_neg (show ¬ i = v from hq)]
    simp [deps, at_]
  | setId i n =>
    refine key h ?_
    intro x x' D _ hx
    cases hx
    rw [Tr.lev, x.lev_eq, deps_cons, deps_cons, if_neg (show ¬ n = v from hq)]
    exact List.sublist_append_right _ _
  | upd i f =>
    refine key h ?_
    intro x x' D _ hx
    cases hx
    rw [Tr.lev, x.lev_eq, deps_cons, deps_cons]
    exact List.Sublist.refl _
  | wipe i s =>
    refine key h ?_
    intro x x' D _ hx
    cases hx
    rw [Tr.lev, x.lev_eq, deps_cons, deps_cons, levs]
    exact (List.Sublist.refl _).append (by simp [deps, at_])
  | mute i =>
    refine key h ?_
    intro x x' D _ hx
    cases hx
    rw [hush_lev, deps_muted]
    exact List.Sublist.refl _
  | retag i n =>
    refine key h ?_
    intro x x' D _ hx
    cases hx
    rw [Tr.lev, x.lev_eq, deps_cons, deps_cons, hushAll_lev, deps_muted]
    exact List.Sublist.refl _

theorem bsteps_still {ops : List BOp} {t t' : Tr Lab} {v : Nat} (d : Nat) (h : bsteps ops t = some t') (hq : ∀ op ∈ ops, Still v op) :
    (deps v (t'.lev d)).Sublist (deps v (t.lev d)) := by
  induction ops generalizing t with
  | nil => rw [bsteps] at h; cases h; exact List.Sublist.refl _
  | cons op ops ih =>
    obtain ⟨m, h1, h2⟩ := bsteps_cons_some h
    exact (ih h2 fun o ho => hq o (List.mem_cons_of_mem _ ho)).trans (bstep_still d h1 (hq op (List.mem_cons_self ..)))

/-- `setId v n` takes the first element with id `v` away. -/
theorem setId_deps {t t' : Tr Lab} {v n : Nat} (d : Nat) (hn : n ≠ v) (h : bstep (.setId v n) t = some t') :
    ∃ k, deps v (t.lev d) = k :: deps v (t'.lev d) := by
  obtain ⟨pre, x, x', post, D, h1, h2, h3, h4, h5⟩ := modify_lev d h
  cases h5
  refine ⟨D, ?_⟩
  have hpre : deps v pre = [] := by unfold deps; rw [at_none h3]; rfl
  rw [h1, h2, deps_append, deps_append, deps_append, deps_append, hpre, x.lev_eq, Tr.lev, deps_cons, deps_cons, if_pos h4, if_neg (show ¬ n = v from hn)]
  rfl

/-- same place, and the label kept or without its listeners -/
def From (x x' : Ent Lab) : Prop := x.id = x'.id ∧ x.dep = x'.dep ∧ (x'.lab = x.lab ∨ x'.lab = x.lab.mute)

theorem From.refl (x : Ent Lab) : From x x := ⟨rfl, rfl, Or.inl rfl⟩

theorem bstep_quiet {op : BOp} {t t' : Tr Lab} {v : Nat} (d : Nat) (h : bstep op t = some t') (hq : Quiet v op) :
    ∀ x' ∈ t'.lev d, x'.id = v → ∃ x ∈ t.lev d, From x x' := by
  have key : ∀ {i : Nat} {f : Tr Lab → Option (Tr Lab)}, modify i f t = some t' →
      (∀ x x' D, x.id = i → f x = some x' → ∀ y' ∈ x'.lev D, y'.id = v → ∃ y ∈ x.lev D, From y y') →
      ∀ x' ∈ t'.lev d, x'.id = v → ∃ x ∈ t.lev d, From x x' := by
    intro i f hm hf y' hy' hv
    obtain ⟨pre, x, x', post, D, h1, h2, -, h4, h5⟩ := modify_lev d hm
    rw [h2, List.mem_append, List.mem_append] at hy'
    rw [h1]
    rcases hy' with (hy | hy) | hy
    · exact ⟨y', by simp [hy], .refl _⟩
    · obtain ⟨y, hy1, hy2⟩ := hf x x' D h4 h5 y' hy hv
      exact ⟨y, by simp [hy1], hy2⟩
    · exact ⟨y', by simp [hy], .refl _⟩
  cases op with
  | skip => rw [bstep] at h; cases h; exact fun x hx _ => ⟨x, hx, .refl _⟩
  | delete i =>
    rw [bstep] at h
    split at h
    · cases h
    · exact fun x hx _ => ⟨x, (dropKids_lev i t t' d h).subset hx, .refl _⟩
  | create i p tag =>
    refine key h ?_
    intro x x' D _ hx y hy hv
    cases hx
    rw [Tr.lev, levs_append, levs, levs, List.append_nil, Tr.lev, levs] at hy
    rw [x.lev_eq]
    simp only [List.mem_cons, List.mem_append, List.not_mem_nil, or_false] at hy ⊢
    rcases hy with hy | hy | hy
    · exact ⟨y, Or.inl hy, .refl _⟩
    · exact ⟨y, Or.inr hy, .refl _⟩
    · rw [hy] at hv; exact absurd hv hq
  | setId i n =>
    refine key h ?_
    intro x x' D _ hx y hy hv
    cases hx
    rw [Tr.lev, List.mem_cons] at hy
    rw [x.lev_eq]
    rcases hy with hy | hy
    · rw [hy] at hv; exact absurd hv hq
    · exact ⟨y, List.mem_cons_of_mem _ hy, .refl _⟩
  | upd i f =>
    refine key h ?_
    intro x x' D hi hx y hy hv
    cases hx
    rw [Tr.lev, List.mem_cons] at hy
    rw [x.lev_eq]
    rcases hy with hy | hy
    · rw [hy] at hv; exact absurd (hi.symm.trans hv) hq
    · exact ⟨y, List.mem_cons_of_mem _ hy, .refl _⟩
  | wipe i s =>
    refine key h ?_
    intro x x' D hi hx y hy hv
    cases hx
    rw [Tr.lev, List.mem_cons, levs] at hy
    rcases hy with hy | hy
    · rw [hy] at hv; exact absurd (hi.symm.trans hv) hq
    · cases hy
  | mute i =>
    refine key h ?_
    intro x x' D hi hx y hy hv
    cases hx
    rw [hush_lev] at hy
    obtain ⟨z, hz, rfl⟩ := List.mem_map.1 hy
    exact ⟨z, hz, rfl, rfl, Or.inr rfl⟩
  | retag i n =>
    refine key h ?_
    intro x x' D hi hx y hy hv
    cases hx
    rw [Tr.lev, List.mem_cons] at hy
    rw [x.lev_eq]
    rcases hy with hy | hy
    · rw [hy] at hv; exact absurd (hi.symm.trans hv) hq
    · rw [hushAll_lev] at hy
      obtain ⟨z, hz, rfl⟩ := List.mem_map.1 hy
      exact ⟨z, List.mem_cons_of_mem _ hz, rfl, rfl, Or.inr rfl⟩

/-- A label that cannot be mistaken for `e`, not even after listeners have been removed. -/
def Lacks (m e : Lab) : Prop := m.tag ≠ e.tag ∨ m.attrs ≠ e.attrs ∨ m.text ≠ e.text ∨ (e.lis ≠ [] ∧ m.lis ≠ e.lis)

theorem Lacks.mute {m e : Lab} (h : Lacks m e) : Lacks m.mute e := by
  rcases h with h | h | h | ⟨h1, h2⟩
  · exact Or.inl h
  · exact Or.inr (Or.inl h)
  · exact Or.inr (Or.inr (Or.inl h))
  · exact Or.inr (Or.inr (Or.inr ⟨h1, fun h => h1 h.symm⟩))

theorem Lacks.irrefl {e : Lab} : ¬ Lacks e e := by
  rintro (h | h | h | ⟨-, h⟩) <;> exact h rfl

/-- No element with id `v` is at depth `D`. -/
def SMiss (v D : Nat) (s : Tr Lab) : Prop := ∀ x ∈ s.lev 0, x.id = v → x.dep ≠ D

/-- No element with the id and the depth of `e` shows what `e` shows. -/
def LMiss (e : Ent Lab) (s : Tr Lab) : Prop := ∀ x ∈ s.lev 0, x.id = e.id → x.dep = e.dep → Lacks x.lab e.lab

theorem SMiss.lmiss {e : Ent Lab} {s : Tr Lab} (h : SMiss e.id e.dep s) : LMiss e s := fun x hx h1 h2 => absurd h2 (h x hx h1)

theorem SMiss.bsteps {v D : Nat} {s s' : Tr Lab} {ops : List BOp} (h : SMiss v D s) (hs : bsteps ops s = some s') (hq : ∀ op ∈ ops, Still v op) :
    SMiss v D s' := by
  intro x hx hv hD
  have := (bsteps_still 0 hs hq).subset (mem_deps.2 ⟨x, hx, hv, hD⟩)
  obtain ⟨y, hy, h1, h2⟩ := mem_deps.1 this
  exact h y hy h1 h2

theorem LMiss.bsteps {e : Ent Lab} {s s' : Tr Lab} {ops : List BOp} (h : LMiss e s) (hs : bsteps ops s = some s') (hq : ∀ op ∈ ops, Quiet e.id op) :
    LMiss e s' := by
  induction ops generalizing s with
  | nil => rw [Paint.bsteps] at hs; cases hs; exact h
  | cons op ops ih =>
    obtain ⟨m, h1, h2⟩ := bsteps_cons_some hs
    refine ih ?_ h2 (fun o ho => hq o (List.mem_cons_of_mem _ ho))
    intro x hx hv hd
    obtain ⟨y, hy, g1, g2, g3⟩ := bstep_quiet 0 h1 (hq op (List.mem_cons_self ..)) x hx hv
    have := h y hy (g1.trans hv) (g2.trans hd)
    rcases g3 with g | g
    · rw [g]; exact this
    · rw [g]; exact this.mute

/-! ## Instructions of a changeset -/

theorem still_of {op : Op} {v : Nat} (h : crt op ≠ some v) : Still v (toB op) := by
  obtain ⟨i, ins⟩ := op
  cases ins with
  | createTag n p =>
    cases p with
    | none => trivial
    | some p => exact fun e => h (by rw [← e]; rfl)
  | setId n => exact fun e => h (by rw [← e]; rfl)
  | _ => trivial

theorem quiet_of {op : Op} {v : Nat} (h : op.id ≠ v) (hc : crt op ≠ some v) : Quiet v (toB op) := by
  obtain ⟨i, ins⟩ := op
  cases ins with
  | createTag n p =>
    cases p with
    | none => trivial
    | some p => exact h
  | setId n => exact fun e => hc (by rw [← e]; rfl)
  | setAttribute => exact h
  | removeAttribute => exact h
  | setText => exact h
  | setTagName => exact h
  | attachListener => exact h
  | _ => trivial

end Puck.Shape.Paint
