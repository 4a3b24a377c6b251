import Verif.Lemmas.Paint
/-!
# Instructions at a place in the page
-/
namespace Puck.Shape.Paint


/-! ## Places -/

theorem mem_preIds {C : List (Fr Lab)} {i : Nat} : i ∈ preIds C ↔ i ∈ C.map (·.id) ∨ i ∈ leftIds C := by
  induction C with
  | nil => simp [preIds, preE, leftIds, leftE]
  | cons f C ih =>
    rw [preIds_cons, leftIds_cons, ih, List.map_cons, List.mem_cons, List.mem_append]
    constructor
    · rintro (h | h | h | h)
      · exact Or.inl (Or.inl h)
      · exact Or.inr (Or.inr h)
      · exact Or.inl (Or.inr h)
      · exact Or.inr (Or.inl h)
    · rintro ((h | h) | h | h)
      · exact Or.inl h
      · exact Or.inr (Or.inr (Or.inl h))
      · exact Or.inr (Or.inr (Or.inr h))
      · exact Or.inr (Or.inl h)

theorem plug_append (C1 C2 : List (Fr Lab)) (x : Tr Lab) : plug (C1 ++ C2) x = plug C2 (plug C1 x) := by
  induction C1 generalizing x with
  | nil => rfl
  | cons f C ih => exact ih (f.fill x)

theorem chain_split {D : List (Fr Lab)} {i : Nat} (h : i ∈ D.map (·.id)) (hl : i ∉ leftIds D) :
    ∃ C1 f C2, D = C1 ++ f :: C2 ∧ f.id = i ∧ i ∉ preIds C2 := by
  induction D with
  | nil => cases h
  | cons g D ih =>
    rw [leftIds_cons, List.mem_append, not_or] at hl
    by_cases hi : i ∈ D.map (·.id)
    · obtain ⟨C1, f, C2, h1, h2, h3⟩ := ih hi hl.1
      exact ⟨g :: C1, f, C2, by rw [h1]; rfl, h2, h3⟩
    · rw [List.map_cons, List.mem_cons] at h
      refine ⟨[], g, D, rfl, (h.resolve_right hi).symm, ?_⟩
      rw [mem_preIds, not_or]
      exact ⟨hi, hl.1⟩

theorem postE_suffix {C1 C2 : List (Fr Lab)} {e : Ent Lab} (h : e ∈ postE C2) : e ∈ postE (C1 ++ C2) := by
  induction C1 with
  | nil => exact h
  | cons f C ih => rw [List.cons_append, postE]; exact List.mem_append_right _ ih

theorem preE_split (C1 : List (Fr Lab)) (f : Fr Lab) (C2 : List (Fr Lab)) :
    ∃ r, preE (C1 ++ f :: C2) = preE C2 ++ ⟨f.id, C2.length, f.lab⟩ :: r := by
  induction C1 with
  | nil => exact ⟨_, rfl⟩
  | cons g C ih =>
    obtain ⟨r, hr⟩ := ih
    rw [List.cons_append, preE, hr]
    exact ⟨_, by rw [List.append_assoc]; rfl⟩

theorem modFirst_none_of {i : Nat} {f : Tr Lab → Option (Tr Lab)} {t : Tr Lab} (h : i ∉ t.ids) : modify i f t = none := by
  unfold modify; rw [modFirst_absent i f t h]

theorem plug_ids (C : List (Fr Lab)) (x : Tr Lab) : (plug C x).ids = preIds C ++ x.ids ++ postIds C := by
  rw [← lev_ids _ 0, lev_plug, List.map_append, List.map_append, lev_ids]
  rfl

/-- Same path, up to the labels on it and the listeners beside it. -/
def SameCtx (C C' : List (Fr Lab)) : Prop :=
  C.map (fun f => (f.id, hushAll f.left, hushAll f.right)) = C'.map (fun f => (f.id, hushAll f.left, hushAll f.right))

theorem SameCtx.refl (C : List (Fr Lab)) : SameCtx C C := rfl
theorem SameCtx.trans {A B C : List (Fr Lab)} (h : SameCtx A B) (h' : SameCtx B C) : SameCtx A C := Eq.trans h h'

theorem SameCtx.cons {f f' : Fr Lab} {C C' : List (Fr Lab)} (h : SameCtx (f :: C) (f' :: C')) :
    f.id = f'.id ∧ hushAll f.left = hushAll f'.left ∧ hushAll f.right = hushAll f'.right ∧ SameCtx C C' := by
  unfold SameCtx at h
  simp only [List.map_cons, List.cons.injEq, Prod.mk.injEq] at h
  exact ⟨h.1.1, h.1.2.1, h.1.2.2, h.2⟩

theorem SameCtx.length {C C' : List (Fr Lab)} (h : SameCtx C C') : C.length = C'.length := by
  have := congrArg List.length h; simpa using this

theorem SameCtx.ids {C C' : List (Fr Lab)} (h : SameCtx C C') : C.map (·.id) = C'.map (·.id) := by
  have := congrArg (List.map Prod.fst) h; simpa [Function.comp_def] using this

theorem SameCtx.leftE {C C' : List (Fr Lab)} (h : SameCtx C C') : (leftE C).map muteEnt = (leftE C').map muteEnt := by
  induction C generalizing C' with
  | nil => cases C' with
    | nil => rfl
    | cons f C' => exact absurd h.length (by simp)
  | cons f C ih => cases C' with
    | nil => exact absurd h.length (by simp)
    | cons f' C' =>
      obtain ⟨-, h2, -, h4⟩ := h.cons
      rw [Shape.leftE, Shape.leftE, List.map_append, List.map_append, ih h4, ← hushAll_lev, ← hushAll_lev, h2, h4.length]

theorem SameCtx.postE {C C' : List (Fr Lab)} (h : SameCtx C C') : (postE C).map muteEnt = (postE C').map muteEnt := by
  induction C generalizing C' with
  | nil => cases C' with
    | nil => rfl
    | cons f C' => exact absurd h.length (by simp)
  | cons f C ih => cases C' with
    | nil => exact absurd h.length (by simp)
    | cons f' C' =>
      obtain ⟨-, -, h3, h4⟩ := h.cons
      rw [Shape.postE, Shape.postE, List.map_append, List.map_append, ih h4, ← hushAll_lev, ← hushAll_lev, h3, h4.length]

theorem muted_ids (l : List (Ent Lab)) : (l.map muteEnt).map (·.id) = l.map (·.id) := by simp [muteEnt, Function.comp_def]

theorem SameCtx.leftIds {C C' : List (Fr Lab)} (h : SameCtx C C') : leftIds C = leftIds C' := by
  unfold Shape.leftIds; rw [← muted_ids, h.leftE, muted_ids]
theorem SameCtx.postIds {C C' : List (Fr Lab)} (h : SameCtx C C') : postIds C = postIds C' := by
  unfold Shape.postIds; rw [← muted_ids, h.postE, muted_ids]
theorem SameCtx.preIds {C C' : List (Fr Lab)} (h : SameCtx C C') {i : Nat} : i ∈ preIds C ↔ i ∈ preIds C' := by
  rw [mem_preIds, mem_preIds, h.ids, h.leftIds]

/-- the same element on the other path -/
theorem SameCtx.left_mem {C C' : List (Fr Lab)} (h : SameCtx C C') {e : Ent Lab} (he : e ∈ Shape.leftE C') : ∃ e' ∈ Shape.leftE C, e'.id = e.id ∧ e'.dep = e.dep := by
  have : muteEnt e ∈ (Shape.leftE C).map muteEnt := by rw [h.leftE]; exact List.mem_map.2 ⟨e, he, rfl⟩
  obtain ⟨e', h1, h2⟩ := List.mem_map.1 this
  exact ⟨e', h1, (by have := congrArg (·.id) h2; exact this), (by have := congrArg (·.dep) h2; exact this)⟩

theorem SameCtx.chain {C C' : List (Fr Lab)} (h : SameCtx C C') {P : Nat → Prop} (hp : ∀ f ∈ C, P f.id) : ∀ f ∈ C', P f.id := by
  intro f hf
  have : f.id ∈ C.map (·.id) := by rw [h.ids]; exact List.mem_map.2 ⟨f, hf, rfl⟩
  obtain ⟨g, hg, he⟩ := List.mem_map.1 this
  rw [← he]; exact hp g hg

theorem hushAll_mem {ts ts' : List (Tr Lab)} (h : hushAll ts = hushAll ts') {r : Tr Lab} (hr : r ∈ ts') : ∃ r' ∈ ts, r'.id = r.id := by
  induction ts' generalizing ts with
  | nil => cases hr
  | cons t' ts' ih =>
    cases ts with
    | nil => rw [hushAll, hushAll] at h; cases h
    | cons t ts =>
      rw [hushAll, hushAll, List.cons.injEq] at h
      rcases List.mem_cons.1 hr with rfl | hr
      · exact ⟨t, List.mem_cons_self .., by rw [← hush_id t, h.1, hush_id]⟩
      · obtain ⟨r', h1, h2⟩ := ih h.2 hr
        exact ⟨r', List.mem_cons_of_mem _ h1, h2⟩

theorem SameCtx.ctx {C C' : List (Fr Lab)} (h : SameCtx C C') {g p q : Nat} {N : List Nat} (hc : Ctx g C N p q) : Ctx g C' N p q := by
  refine ⟨h.chain (P := fun i => i < p) hc.chain, by rw [← h.ids]; exact hc.sorted, by rw [← h.leftIds]; exact hc.left_lt, by rw [← h.leftIds]; exact hc.left_nodup,
    hc.new_lt, by rw [← h.leftIds]; exact hc.cover, hc.ge, ?_, ?_⟩
  · intro e r he
    have hp := h.postE
    rw [he, List.map_cons] at hp
    cases hc' : Shape.postE C with
    | nil => rw [hc'] at hp; cases hp
    | cons e' r' =>
      rw [hc', List.map_cons, List.cons.injEq] at hp
      have h1 := hc.head e' r' hc'
      have h2 : e'.dep = e.dep := by have := congrArg (·.dep) hp.1; exact this
      rw [← h.length, ← h2]
      exact h1
  · intro f D' he
    subst he
    cases C with
    | nil => exact absurd h.length (by simp)
    | cons f0 C0 =>
      obtain ⟨-, h2, -, h4⟩ := h.cons
      obtain ⟨o1, o2⟩ := hc.outer f0 C0 rfl
      refine ⟨fun i hi => o1 i (h4.preIds.2 hi), ?_⟩
      intro r hr
      obtain ⟨r', h5, h6⟩ := hushAll_mem h2 hr
      rw [← h6]
      exact o2 r' h5

/-! ## Instructions on an element whose id does not occur before it -/

theorem upd_plug {C : List (Fr Lab)} {i : Nat} {l : Lab} {ks : List (Tr Lab)} {f : Lab → Lab} (h : i ∉ preIds C) :
    bstep (.upd i f) (plug C (.node i l ks)) = some (plug C (.node i (f l) ks)) := by
  rw [bstep, modify_plug h rfl]; rfl

theorem wipe_plug {C : List (Fr Lab)} {i : Nat} {l : Lab} {ks : List (Tr Lab)} {s : String} (h : i ∉ preIds C) :
    bstep (.wipe i s) (plug C (.node i l ks)) = some (plug C (.node i { l with text := s } [])) := by
  rw [bstep, modify_plug h rfl]; rfl

theorem mute_plug {C : List (Fr Lab)} {i : Nat} {l : Lab} {ks : List (Tr Lab)} (h : i ∉ preIds C) :
    bstep (.mute i) (plug C (.node i l ks)) = some (plug C (.node i l.mute (hushAll ks))) := by
  rw [bstep, modify_plug h rfl, hush]; rfl

theorem retag_plug {C : List (Fr Lab)} {i : Nat} {n : String} {l : Lab} {ks : List (Tr Lab)} (h : i ∉ preIds C) :
    bstep (.retag i n) (plug C (.node i l ks)) = some (plug C (.node i { l.mute with tag := n } (hushAll ks))) := by
  rw [bstep, modify_plug h rfl]; rfl

theorem setId_plug {C : List (Fr Lab)} {i n : Nat} {l : Lab} {ks : List (Tr Lab)} (h : i ∉ preIds C) :
    bstep (.setId i n) (plug C (.node i l ks)) = some (plug C (.node n l ks)) := by
  rw [bstep, modify_plug h rfl]; rfl

theorem create_plug {C : List (Fr Lab)} {p i : Nat} {l : Lab} {done : List (Tr Lab)} {tag : String} (h : p ∉ preIds C) :
    bstep (.create i p tag) (plug C (.node p l done)) = some (plug (⟨p, l, done, []⟩ :: C) (.node i (blankLab tag) [])) := by
  rw [bstep, modify_plug h rfl]; rfl

/-- setting attributes, on maps -/
def insF (g : String → Option String) (p : String × String) : String → Option String := fun k => if k = p.1 then some p.2 else g k
/-- removing one -/
def remF (g : String → Option String) (k : String) : String → Option String := fun k' => if k' = k then none else g k'

theorem sets_plug {C : List (Fr Lab)} {i : Nat} (h : i ∉ preIds C) (ks : List (Tr Lab)) : ∀ (ps : Headers) (l : Lab),
    bsteps ((ps.map fun p => (⟨i, .setAttribute p.1 p.2⟩ : Op)).map toB) (plug C (.node i l ks)) =
      some (plug C (.node i { l with attrs := ps.foldl insF l.attrs } ks))
  | [], l => rfl
  | p :: ps, l => by
    rw [List.map_cons, List.map_cons, bsteps, toB]
    simp only [upd_plug h]
    exact sets_plug h ks ps _

theorem removes_plug {C : List (Fr Lab)} {i : Nat} (h : i ∉ preIds C) (ks : List (Tr Lab)) : ∀ (ps : List String) (l : Lab),
    bsteps ((ps.map fun k => (⟨i, .removeAttribute k⟩ : Op)).map toB) (plug C (.node i l ks)) =
      some (plug C (.node i { l with attrs := ps.foldl remF l.attrs } ks))
  | [], l => rfl
  | p :: ps, l => by
    rw [List.map_cons, List.map_cons, bsteps, toB]
    simp only [upd_plug h]
    exact removes_plug h ks ps _

theorem attaches_plug {C : List (Fr Lab)} {i : Nat} (h : i ∉ preIds C) (ks : List (Tr Lab)) : ∀ (ls : List ListenerRef) (l : Lab),
    bsteps ((ls.map fun l => (⟨i, .attachListener l.listenerName l.jsEvent⟩ : Op)).map toB) (plug C (.node i l ks)) =
      some (plug C (.node i { l with lis := l.lis ++ ls } ks))
  | [], l => by simp [bsteps]
  | p :: ps, l => by
    rw [List.map_cons, List.map_cons, bsteps, toB]
    simp only [upd_plug h]
    rw [attaches_plug h ks ps _]
    simp

theorem foldl_insF (ps : Headers) (h : Headers) : ps.foldl insF h.get = Headers.get (ps.foldl (fun h p => h.insert p.1 p.2) h) := by
  induction ps generalizing h with
  | nil => rfl
  | cons p ps ih =>
    rw [List.foldl_cons, List.foldl_cons, ← ih]
    congr 1
    funext k
    rw [insF, Headers.get_insert]

theorem foldl_remF (ps : List String) (h : Headers) : ps.foldl remF h.get = Headers.get (ps.foldl (fun h k => h.remove k) h) := by
  induction ps generalizing h with
  | nil => rfl
  | cons p ps ih =>
    rw [List.foldl_cons, List.foldl_cons, ← ih]
    congr 1
    funext k
    rw [remF, Headers.get_remove]

/-- Changing the label of an element that is not here but may be on the path. -/
theorem upd_away {C : List (Fr Lab)} {x m : Tr Lab} {v : Nat} {f : Lab → Lab} (hl : v ∉ leftIds C) (hx : v ∉ x.ids) (hp : v ∉ postIds C)
    (h : bstep (.upd v f) (plug C x) = some m) : ∃ C', SameCtx C C' ∧ m = plug C' x := by
  by_cases hc : v ∈ C.map (·.id)
  · obtain ⟨C1, fr, C2, rfl, h2, h3⟩ := chain_split hc hl
    rw [plug_append, plug, Fr.fill, h2, upd_plug h3] at h
    refine ⟨C1 ++ ⟨fr.id, f fr.lab, fr.left, fr.right⟩ :: C2, ?_, ?_⟩
    · unfold SameCtx; simp
    · cases h; rw [plug_append, plug, Fr.fill, h2]
  · rw [bstep, modFirst_none_of] at h
    · cases h
    · rw [plug_ids, List.mem_append, List.mem_append, mem_preIds]
      rintro (((h | h) | h) | h)
      · exact hc h
      · exact hl h
      · exact hx h
      · exact hp h

/-- without listeners -/
def hushFr (f : Fr Lab) : Fr Lab := ⟨f.id, f.lab.mute, hushAll f.left, hushAll f.right⟩

theorem hush_plug (C : List (Fr Lab)) (x : Tr Lab) : hush (plug C x) = plug (C.map hushFr) (hush x) := by
  induction C generalizing x with
  | nil => rfl
  | cons f C ih =>
    rw [List.map_cons, plug, plug, ih]
    congr 1
    unfold Fr.fill hushFr
    rw [hush, hushAll_append, hushAll]

/-- Changing the tag of an element that is not here but may be on the path: everything in it loses its listeners. -/
theorem retag_away {C : List (Fr Lab)} {x m : Tr Lab} {v : Nat} {n : String} (hl : v ∉ leftIds C) (hx : v ∉ x.ids) (hp : v ∉ postIds C)
    (h : bstep (.retag v n) (plug C x) = some m) : ∃ C', SameCtx C C' ∧ m = plug C' (hush x) := by
  by_cases hc : v ∈ C.map (·.id)
  · obtain ⟨C1, fr, C2, rfl, h2, h3⟩ := chain_split hc hl
    rw [plug_append, plug, Fr.fill, h2, retag_plug h3] at h
    refine ⟨C1.map hushFr ++ ⟨fr.id, { fr.lab.mute with tag := n }, hushAll fr.left, hushAll fr.right⟩ :: C2, ?_, ?_⟩
    · unfold SameCtx; simp [hushFr, hushAll_hushAll, Function.comp_def]
    · cases h; rw [plug_append, plug, Fr.fill, h2, hushAll_append, hushAll, hush_plug]
  · rw [bstep, modFirst_none_of] at h
    · cases h
    · rw [plug_ids, List.mem_append, List.mem_append, mem_preIds]
      rintro (((h | h) | h) | h)
      · exact hc h
      · exact hl h
      · exact hx h
      · exact hp h

theorem attaches_away {x : Tr Lab} {v : Nat} (hx : v ∉ x.ids) : ∀ (ls : List ListenerRef) {C : List (Fr Lab)} {m : Tr Lab}, v ∉ leftIds C → v ∉ postIds C →
    bsteps ((ls.map fun l => (⟨v, .attachListener l.listenerName l.jsEvent⟩ : Op)).map toB) (plug C x) = some m →
    ∃ C', SameCtx C C' ∧ m = plug C' x
  | [], C, m, _, _, h => by cases h; exact ⟨C, .refl _, rfl⟩
  | l :: ls, C, m, hl, hp, h => by
    rw [List.map_cons, List.map_cons] at h
    obtain ⟨m1, h1, h2⟩ := bsteps_cons_some h
    obtain ⟨C1, s1, rfl⟩ := upd_away hl hx hp h1
    obtain ⟨C2, s2, rfl⟩ := attaches_away hx ls (by rw [← s1.leftIds]; exact hl) (by rw [← s1.postIds]; exact hp) h2
    exact ⟨C2, s1.trans s2, rfl⟩

/-! ## Deleting -/

theorem dropKids_absent : ∀ (i : Nat) (t : Tr Lab), i ∉ idsF t.kids → dropKids i t = none := by
  have key : ∀ (i : Nat), (∀ (t : Tr Lab), i ∉ idsF t.kids → dropKids i t = none) := by
    intro i t
    refine Tr.rec (motive_1 := fun t => i ∉ idsF t.kids → dropKids i t = none) (motive_2 := fun ts => i ∉ idsF ts → dropIn i ts = none) ?_ ?_ ?_ t
    · intro j l ks ih h
      rw [dropKids, ih h]
    · intro _; rfl
    · intro t ts ih1 ih2 h
      rw [idsF, List.mem_append, not_or, t.ids_eq, List.mem_cons, not_or] at h
      rw [dropIn, if_neg (fun e => h.1.1 e.symm), ih1 h.1.2, ih2 h.2]
  exact key

theorem dropIn_absent (i : Nat) (ts : List (Tr Lab)) (h : i ∉ idsF ts) : dropIn i ts = none := by
  induction ts with
  | nil => rfl
  | cons t ts ih =>
    rw [idsF, List.mem_append, not_or, t.ids_eq, List.mem_cons, not_or] at h
    rw [dropIn, if_neg (fun e => h.1.1 e.symm), dropKids_absent i t h.1.2, ih h.2]

theorem dropIn_skip (i : Nat) (l r : List (Tr Lab)) (h : i ∉ idsF l) : dropIn i (l ++ r) = (dropIn i r).map (l ++ ·) := by
  induction l with
  | nil => rw [List.nil_append]; cases dropIn i r <;> rfl
  | cons t l ih =>
    rw [idsF, List.mem_append, not_or, t.ids_eq, List.mem_cons, not_or] at h
    rw [List.cons_append, dropIn, if_neg (fun e => h.1.1 e.symm), dropKids_absent i t h.1.2, ih h.2]
    cases dropIn i r <;> rfl

theorem dropKids_plug {i : Nat} : ∀ (C : List (Fr Lab)) (x x' : Tr Lab), i ∉ preIds C → i ≠ x.id → dropKids i x = some x' →
    dropKids i (plug C x) = some (plug C x') ∧ (plug C x).id ≠ i
  | [], x, x', _, hx, h => ⟨h, fun e => hx e.symm⟩
  | fr :: C, x, x', hb, hx, h => by
    rw [preIds_cons, not_or, not_or] at hb
    refine dropKids_plug C (fr.fill x) (fr.fill x') hb.2.2 hb.1 ?_
    unfold Fr.fill
    rw [dropKids, dropIn_skip i _ _ hb.2.1, dropIn, if_neg (fun e => hx e.symm), h]
    rfl

theorem deletes {C : List (Fr Lab)} {p : Nat} {l : Lab} {keep : List (Tr Lab)} : ∀ (del : List (Tr Lab)),
    (p :: idsF (keep ++ del)).Nodup → (∀ i ∈ idsF (keep ++ del), i ∉ preIds C) →
    bsteps (del.map fun c => .delete c.id) (plug C (.node p l (keep ++ del))) = some (plug C (.node p l keep))
  | [], _, _ => by rw [List.map_nil, bsteps, List.append_nil]
  | c :: del, hn, hb => by
    have hci : c.id ∈ idsF (keep ++ c :: del) := root_mem_idsF (by simp)
    rw [List.nodup_cons] at hn
    have hck : c.id ∉ idsF keep := by
      intro hk
      have hn2 := hn.2
      rw [idsF_append, List.nodup_append] at hn2
      exact hn2.2.2 _ hk c.id (root_mem_idsF (List.mem_cons_self ..)) rfl
    have hstep : bstep (.delete c.id) (plug C (.node p l (keep ++ c :: del))) = some (plug C (.node p l (keep ++ del))) := by
      have hd : dropKids c.id (.node p l (keep ++ c :: del)) = some (.node p l (keep ++ del)) := by
        rw [dropKids, dropIn_skip _ _ _ hck, dropIn, if_pos rfl]; rfl
      obtain ⟨h1, h2⟩ := dropKids_plug C (.node p l (keep ++ c :: del)) _ (hb _ hci) (fun (e : c.id = p) => hn.1 (e ▸ hci)) hd
      rw [bstep, if_neg h2, h1]
    rw [List.map_cons, bsteps, hstep]
    have hsub : ∀ i ∈ idsF (keep ++ del), i ∈ idsF (keep ++ c :: del) := by
      intro i hi
      rw [idsF_append, List.mem_append] at hi ⊢
      rcases hi with hi | hi
      · exact Or.inl hi
      · right; rw [idsF]; exact List.mem_append_right _ hi
    refine deletes del ?_ (fun i hi => hb i (hsub i hi))
    rw [List.nodup_cons]
    refine ⟨fun h => hn.1 (hsub _ h), ?_⟩
    have hn2 := hn.2
    rw [idsF_append, idsF, List.nodup_append, List.nodup_append] at hn2
    rw [idsF_append, List.nodup_append]
    exact ⟨hn2.1, hn2.2.1.2.1, fun x hx y hy => hn2.2.2 x hx y (List.mem_append_right _ hy)⟩

theorem delete_absent {i : Nat} {s : Tr Lab} (h : i ∉ s.ids) : bstep (.delete i) s = none := by
  rw [s.ids_eq, List.mem_cons, not_or] at h
  rw [bstep]
  split
  · rfl
  · exact dropKids_absent i s h.2

/-! ## Nothing left to change -/

/-- the id of the element an instruction looks for -/
def need : BOp → Option Nat
  | .create _ p _ => some p
  | .setId i _ => some i
  | .delete i => some i
  | .upd i _ => some i
  | .wipe i _ => some i
  | .mute i => some i
  | .retag i _ => some i
  | .skip => none

theorem need_absent {op : BOp} {s : Tr Lab} {i : Nat} (h : need op = some i) (hi : i ∉ s.ids) : bstep op s = none := by
  cases op with
  | skip => cases h
  | delete j => cases h; exact delete_absent hi
  | create j p tag => cases h; exact modFirst_none_of hi
  | setId j n => cases h; exact modFirst_none_of hi
  | upd j f => cases h; exact modFirst_none_of hi
  | wipe j t => cases h; exact modFirst_none_of hi
  | mute j => cases h; exact modFirst_none_of hi
  | retag j n => cases h; exact modFirst_none_of hi

theorem bsteps_absent {ops : List BOp} {s s' : Tr Lab} (h : bsteps ops s = some s') (hn : ∀ op ∈ ops, op = .skip ∨ ∃ i, need op = some i ∧ i ∉ s.ids) :
    s' = s ∧ ∀ op ∈ ops, op = .skip := by
  induction ops with
  | nil => cases h; exact ⟨rfl, fun _ h => nomatch h⟩
  | cons op ops ih =>
    obtain ⟨m, h1, h2⟩ := bsteps_cons_some h
    rcases hn op (List.mem_cons_self ..) with rfl | ⟨i, h3, h4⟩
    · cases h1
      obtain ⟨g1, g2⟩ := ih h2 (fun o ho => hn o (List.mem_cons_of_mem _ ho))
      refine ⟨g1, ?_⟩
      intro o ho
      rcases List.mem_cons.1 ho with rfl | ho
      · rfl
      · exact g2 o ho
    · rw [need_absent h3 h4] at h1; cases h1

/-- Ids that are not there and are not made are not there afterwards. -/
theorem bsteps_ids {ops : List BOp} {s s' : Tr Lab} {v : Nat} (h : bsteps ops s = some s') (hq : ∀ op ∈ ops, Still v op) (hv : v ∉ s.ids) : v ∉ s'.ids := by
  intro hv'
  rw [← lev_ids s' 0] at hv'
  obtain ⟨e, he, h1⟩ := List.mem_map.1 hv'
  have := (bsteps_still 0 h hq).subset (mem_deps.2 ⟨e, he, h1, rfl⟩)
  obtain ⟨x, hx, h2, -⟩ := mem_deps.1 this
  exact hv (by rw [← lev_ids s 0]; exact List.mem_map.2 ⟨x, hx, h2⟩)

theorem own_need {a b : Element} {op : Op} (h : op ∈ ownOps a b) : (∃ i, need (toB op) = some i ∧ (i = a.id ∨ i = b.id)) ∨ toB op = .skip := by
  rcases own_cases h with ⟨rfl, _⟩ | ⟨h1, h2⟩ | ⟨_, l, _, rfl⟩
  · exact Or.inl ⟨_, rfl, Or.inr rfl⟩
  · obtain ⟨i, ins⟩ := op
    simp only at h1 h2
    subst h1
    rcases h2 with ⟨k, rfl⟩ | ⟨k, v, rfl⟩ | ⟨v, rfl⟩ | rfl | rfl
    · exact Or.inl ⟨_, rfl, Or.inl rfl⟩
    · exact Or.inl ⟨_, rfl, Or.inl rfl⟩
    · exact Or.inl ⟨_, rfl, Or.inl rfl⟩
    · exact Or.inr rfl
    · exact Or.inl ⟨_, rfl, Or.inl rfl⟩
  · exact Or.inl ⟨_, rfl, Or.inr rfl⟩

theorem own_still {a b : Element} {v : Nat} : ∀ op ∈ (ownOps a b).map toB, Still v op := by
  intro op ho
  obtain ⟨o, h, rfl⟩ := List.mem_map.1 ho
  exact still_of (by rw [(own_soft h).2.1]; exact fun h => nomatch h)

theorem createAll_cons_need {p : Nat} {c : Element} {cs : List Element} :
    ∃ o os, createAll (some p) (c :: cs) = o :: os ∧ need (toB o) = some p := by
  rw [createAll, create_eq_fill]
  exact ⟨_, _, rfl, rfl⟩

mutual
/-- If nothing of the old element is there, only a comparison without any instruction succeeds. -/
theorem gone : ∀ (b a : Element) (ops : List Op) (s s' : Tr Lab), a.Unkeyed → b.Unkeyed → diff a b = some ops → (∀ i ∈ a.ids, i ∉ s.ids) →
    bsteps (ops.map toB) s = some s' → s' = s ∧ a.id = b.id
  | ⟨bi, bn, ba, bl, bk, bt, bkey⟩, a, ops, s, s', ka, kb, h, hs, hr => by
    obtain ⟨pairs, hz, rfl⟩ := diff_parts ka kb h
    simp only at hz hr
    rw [List.map_append, List.map_append, List.map_append, List.map_append] at hr
    obtain ⟨m3, hr, hset⟩ := bsteps_append_some hr
    obtain ⟨m1, hown, hr⟩ := bsteps_append_some hr
    obtain ⟨m2, hr, hmake⟩ := bsteps_append_some hr
    obtain ⟨m0, hdel, hzip⟩ := bsteps_append_some hr
    have hs1 : ∀ i ∈ a.ids, i ∉ m1.ids := fun i hi => bsteps_ids hown own_still (hs i hi)
    -- deletions
    have hdel0 : m0 = m1 := by
      refine (bsteps_absent hdel ?_).1
      intro op ho
      obtain ⟨o, ho', rfl⟩ := List.mem_map.1 ho
      obtain ⟨c, hc, rfl⟩ := List.mem_map.1 ho'
      refine Or.inr ⟨c.id, rfl, hs1 _ ?_⟩
      rw [a.ids_eq]
      exact List.mem_cons_of_mem _ (mem_idsOf_of_mem (List.mem_of_mem_drop hc) c.id_mem_ids)
    subst hdel0
    -- pairs
    have hzip0 : m2 = m0 := by
      refine goneZip bk a.children pairs m0 m2 (Unkeyed.children ka) (Unkeyed.children kb) hz ?_ hzip
      intro i hi
      exact hs1 i (by rw [a.ids_eq]; exact List.mem_cons_of_mem _ hi)
    subst hzip0
    -- creations
    have hmake0 : m3 = m2 := by
      cases hd : bk.drop a.children.length with
      | nil => rw [hd] at hmake; cases hmake; rfl
      | cons c cs =>
        rw [hd] at hmake
        obtain ⟨o, os, h1, h2⟩ := createAll_cons_need (p := a.id) (c := c) (cs := cs)
        rw [h1, List.map_cons, bsteps, need_absent h2 (hs1 _ a.id_mem_ids)] at hmake
        cases hmake
    subst hmake0
    -- the id
    have hid : a.id = bi ∧ s' = m3 := by
      unfold Element.diffId at hset
      simp only at hset
      split at hset
      · rename_i he; cases hset; exact ⟨he, rfl⟩
      · rw [List.map_cons, bsteps, toB] at hset
        simp only [need_absent (show need (.setId a.id bi) = some a.id from rfl) (hs1 _ a.id_mem_ids)] at hset
        cases hset
    obtain ⟨hid, rfl⟩ := hid
    refine ⟨?_, hid⟩
    refine (bsteps_absent hown ?_).1
    intro op ho
    obtain ⟨o, ho', rfl⟩ := List.mem_map.1 ho
    rcases own_need ho' with ⟨i, h1, h2⟩ | h
    · refine Or.inr ⟨i, h1, ?_⟩
      have : i = a.id := by rcases h2 with h | h; · exact h
                            · exact h.trans hid.symm
      rw [this]
      exact hs _ a.id_mem_ids
    · exact Or.inl h
/-- Children. -/
theorem goneZip : ∀ (bs as : List Element) (ops : List Op) (s s' : Tr Lab), UnkeyedAll as → UnkeyedAll bs → diffZip as bs = some ops →
    (∀ i ∈ idsOf as, i ∉ s.ids) → bsteps (ops.map toB) s = some s' → s' = s
  | [], as, ops, s, s', _, _, h, hs, hr => by rw [diffZip] at h; cases h; cases hr; rfl
  | b :: bs, [], ops, s, s', _, _, h, hs, hr => by rw [diffZip] at h; cases h; cases hr; rfl
  | b :: bs, a :: as, ops, s, s', ka, kb, h, hs, hr => by
    rw [UnkeyedAll] at ka kb
    obtain ⟨d, ds, h1, h2, rfl⟩ := diffZip_cons h
    rw [List.map_append] at hr
    obtain ⟨m, h3, h4⟩ := bsteps_append_some hr
    have := (gone b a d s m ka.1 kb.1 h1 (fun i hi => hs i (by rw [idsOf]; exact List.mem_append_left _ hi)) h3).1
    subst this
    exact goneZip bs as ds m s' ka.2 kb.2 h2 (fun i hi => hs i (by rw [idsOf]; exact List.mem_append_right _ hi)) h4
end

end Puck.Shape.Paint
