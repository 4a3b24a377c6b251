import Verif.Lemmas.ContentsDiff
/-!
# Following elements through a changeset
-/
namespace Puck.Shape

/-- marks of the elements that were there -/
def old (i : Nat) : Bool × Nat := (false, i)
/-- marks of the elements that are created -/
def new (i : Nat) : Bool × Nat := (true, i)

variable {β : Type}

/-! ## The result -/

mutual
theorem same_lev (mk : Nat → β) : ∀ (F : Tr (Content × β)) (b : Element) (d : Nat), (strip F).Same b →
    (F.lev d).map (fun e => (e.id, e.dep)) = ((mtr mk b).lev d).map (fun e => (e.id, e.dep))
  | .node i l ks, ⟨bi, bn, ba, bl, bk, bt, bkey⟩, d, h => by
    rw [strip, Element.Same] at h
    rw [mtr, Tr.lev, Tr.lev, List.map_cons, List.map_cons, sameAll_lev mk ks bk (d + 1) h.2.2.2.2.2.2, h.1]
theorem sameAll_lev (mk : Nat → β) : ∀ (Fs : List (Tr (Content × β))) (bs : List Element) (d : Nat), SameList (stripAll Fs) bs →
    (levs d Fs).map (fun e => (e.id, e.dep)) = (levs d (mtrAll mk bs)).map (fun e => (e.id, e.dep))
  | [], bs, d, h => by rw [stripAll, SameList] at h; subst h; rfl
  | F :: Fs, bs, d, h => by
    rw [stripAll, SameList] at h
    obtain ⟨b, bs', rfl, h1, h2⟩ := h
    rw [mtrAll, levs, levs, List.map_append, List.map_append, same_lev mk F b d h1, sameAll_lev mk Fs bs' d h2]
end

/-- an entry shows an element -/
def Shows (e : Ent (Content × β)) (z : Element) : Prop :=
  z.id = e.id ∧ z.name = e.lab.1.name ∧ (∀ k, z.attributes.get k = e.lab.1.attributes.get k) ∧ z.listeners = e.lab.1.listeners ∧ z.text = e.lab.1.text

mutual
theorem same_shows : ∀ (F : Tr (Content × β)) (b : Element) (d : Nat), (strip F).Same b → ∀ e ∈ F.lev d, ∃ z ∈ b.nodes, Shows e z
  | .node i l ks, ⟨bi, bn, ba, bl, bk, bt, bkey⟩, d, h, e, he => by
    rw [strip, Element.Same] at h
    rw [Tr.lev, List.mem_cons] at he
    rcases he with rfl | he
    · exact ⟨_, self_nodes _, h.1.symm, h.2.1.symm, fun k => (h.2.2.1 k).symm, h.2.2.2.1.symm, h.2.2.2.2.1.symm⟩
    · obtain ⟨z, h1, h2⟩ := sameAll_shows ks bk (d + 1) h.2.2.2.2.2.2 e he
      exact ⟨z, by rw [Element.nodes]; exact List.mem_cons_of_mem _ h1, h2⟩
theorem sameAll_shows : ∀ (Fs : List (Tr (Content × β))) (bs : List Element) (d : Nat), SameList (stripAll Fs) bs →
    ∀ e ∈ levs d Fs, ∃ z ∈ nodesAll bs, Shows e z
  | [], bs, d, h, e, he => by rw [levs] at he; cases he
  | F :: Fs, bs, d, h, e, he => by
    rw [stripAll, SameList] at h
    obtain ⟨b, bs', rfl, h1, h2⟩ := h
    rw [levs, List.mem_append] at he
    rw [nodesAll]
    rcases he with he | he
    · obtain ⟨z, h3, h4⟩ := same_shows F b d h1 e he; exact ⟨z, List.mem_append_left _ h3, h4⟩
    · obtain ⟨z, h3, h4⟩ := sameAll_shows Fs bs' d h2 e he; exact ⟨z, List.mem_append_right _ h3, h4⟩
end

mutual
/-- entries of a marked tree -/
theorem lift_lev (mk : Nat → β) : ∀ (a : Element) (d : Nat), ∀ e ∈ (lift mk a).lev d, e.lab.2 = mk e.id ∧ ∃ z ∈ a.nodes, z.id = e.id ∧ e.lab.1.name = z.name ∧
    e.lab.1.listeners = z.listeners
  | ⟨i, n, at', ls, ks, tx, key⟩, d, e, he => by
    rw [lift, Tr.lev, List.mem_cons] at he
    rcases he with rfl | he
    · exact ⟨rfl, _, self_nodes _, rfl, rfl, rfl⟩
    · obtain ⟨h1, z, h2, h3⟩ := liftAll_lev mk ks (d + 1) e he
      exact ⟨h1, z, by rw [Element.nodes]; exact List.mem_cons_of_mem _ h2, h3⟩
theorem liftAll_lev (mk : Nat → β) : ∀ (as : List Element) (d : Nat), ∀ e ∈ levs d (liftAll mk as), e.lab.2 = mk e.id ∧ ∃ z ∈ nodesAll as, z.id = e.id ∧
    e.lab.1.name = z.name ∧ e.lab.1.listeners = z.listeners
  | [], d, e, he => by rw [liftAll, levs] at he; cases he
  | a :: as, d, e, he => by
    rw [liftAll, levs, List.mem_append] at he
    rw [nodesAll]
    rcases he with he | he
    · obtain ⟨h1, z, h2, h3⟩ := lift_lev mk a d e he; exact ⟨h1, z, List.mem_append_left _ h2, h3⟩
    · obtain ⟨h1, z, h2, h3⟩ := liftAll_lev mk as d e he; exact ⟨h1, z, List.mem_append_right _ h2, h3⟩
end

mutual
theorem lift_ids (mk : Nat → β) : ∀ a : Element, (lift mk a).ids = a.ids
  | ⟨i, n, at', ls, ks, tx, key⟩ => by rw [lift, Tr.ids, Element.ids, liftAll_ids mk ks]
theorem liftAll_ids (mk : Nat → β) : ∀ as : List Element, idsF (liftAll mk as) = idsOf as
  | [] => rfl
  | a :: as => by rw [liftAll, idsF, idsOf, lift_ids mk a, liftAll_ids mk as]
end

/-- A changeset that does what it should, with its elements marked. -/
structure Run (a b : Element) where
  ops : List Op
  F : Tr (Content × (Bool × Nat))
  ka : a.Unkeyed
  kb : b.Unkeyed
  ia : a.ids.Pairwise (· < ·)
  ib : b.ids.Pairwise (· < ·)
  diff : diff a b = some ops
  run : steps (ops.map (liftOp new)) (lift old a) = some F
  same : (strip F).Same b
  safe : TSafe [] (mtr old a) (mtr new b)
  exact : marks F = transfer (mtr old a) (mtr new b)

theorem run_of {a b : Element} (ka : a.Unkeyed) (kb : b.Unkeyed) (ia : a.ids.Pairwise (· < ·)) (ib : b.ids = List.range' b.id b.ids.length)
    (hid : b.id ≤ a.id) {ops : List Op} {t : Element} (hd : Puck.diff a b = some ops) (ha : applyOps ops a = some t) (hs : t.Same b) : Nonempty (Run a b) := by
  have hp : ∀ op ∈ ops, Plain op := fun op ho => (diff_facts b a ops ka kb hd op ho).1
  obtain ⟨F, h1, h2⟩ := applyOps_lift new ops hp (lift old a) t (by rw [strip_lift old a ka]; exact ha)
  have hm := steps_marks new ops hp _ _ h1
  rw [diff_struct old new b a ops ka kb hd, marks_lift] at hm
  rw [← h2] at hs
  have := dif_exact (a := mtr old a) (b := mtr new b) (by rw [mtr_id, mtr_id]; exact hid) (by rw [mtr_ids]; exact ia)
    (by rw [mtr_ids, mtr_id]; exact ib) hm (by
      intro e he
      have hl := same_lev new F b 0 hs
      have : (e.id, e.dep) ∈ (F.lev 0).map fun e => (e.id, e.dep) := by rw [hl]; exact List.mem_map.2 ⟨e, he, rfl⟩
      obtain ⟨f, hf, hfe⟩ := List.mem_map.1 this
      simp only [Prod.mk.injEq] at hfe
      rw [marks_lev]
      exact ⟨_, List.mem_map.2 ⟨f, hf, rfl⟩, hfe.1, hfe.2⟩)
  exact ⟨⟨ops, F, ka, kb, ia, by rw [ib]; exact List.pairwise_lt_range', hd, h1, hs, this.1, this.2⟩⟩

/-! ## Going down -/

theorem mtrAll_get {mk : Nat → β} {cs : List Element} {k : Nat} {c : Element} (h : cs[k]? = some c) : (mtrAll mk cs)[k]? = some (mtr mk c) := by
  rw [mtrAll_eq, List.getElem?_map, h]; rfl

theorem transferZip_get : ∀ (k : Nat) (as bs : List (Tr β)) (a b : Tr β), as[k]? = some a → bs[k]? = some b → transfer a b ∈ transferZip as bs
  | k, as, [], a, b, _, h => by simp at h
  | k, [], b' :: bs, a, b, h, _ => by simp at h
  | 0, a' :: as, b' :: bs, a, b, h1, h2 => by
    simp only [List.getElem?_cons_zero, Option.some.injEq] at h1 h2
    subst h1; subst h2
    rw [transferZip]; exact List.mem_cons_self ..
  | k + 1, a' :: as, b' :: bs, a, b, h1, h2 => by
    rw [transferZip]; exact List.mem_cons_of_mem _ (transferZip_get k as bs a b h1 h2)

theorem TSafeZip_get (anc : List Nat) : ∀ (k : Nat) (as bs : List (Tr β)) (a b : Tr β), TSafeZip anc as bs → as[k]? = some a → bs[k]? = some b → TSafe anc a b
  | k, as, [], a, b, _, _, h => by simp at h
  | k, [], b' :: bs, a, b, _, h, _ => by simp at h
  | 0, a' :: as, b' :: bs, a, b, h, h1, h2 => by
    simp only [List.getElem?_cons_zero, Option.some.injEq] at h1 h2
    subst h1; subst h2
    rw [TSafeZip] at h; exact h.1
  | k + 1, a' :: as, b' :: bs, a, b, h, h1, h2 => by
    rw [TSafeZip] at h; exact TSafeZip_get anc k as bs a b h.2 h1 h2

theorem lev_levs {ts : List (Tr β)} {r : Tr β} (h : r ∈ ts) (d : Nat) : ∀ e ∈ r.lev d, e ∈ levs d ts := by
  induction ts with
  | nil => cases h
  | cons t ts ih =>
    intro e he
    rw [levs]
    rcases List.mem_cons.1 h with rfl | h
    · exact List.mem_append_left _ he
    · exact List.mem_append_right _ (ih h e he)

theorem transfer_eq (a b : Tr β) : transfer a b = .node b.id a.lab (transferZip a.kids b.kids ++ b.kids.drop a.kids.length) := by
  cases b; rw [transfer]; rfl

theorem TSafe_eq (anc : List Nat) (a b : Tr β) : TSafe anc a b ↔ b.id ≤ a.id ∧ TSafeZip (a.id :: anc) a.kids b.kids ∧
    ∀ K ∈ nodesF (b.kids.drop a.kids.length), K.id ∈ a.id :: anc → K.kids = [] := by
  cases b; rw [TSafe]; rfl

theorem transfer_down {mk mk' : Nat → β} {a b x y : Element} (h : Compared a b x y) :
    ∃ d, ∀ e ∈ (transfer (mtr mk x) (mtr mk' y)).lev d, e ∈ (transfer (mtr mk a) (mtr mk' b)).lev 0 := by
  induction h with
  | root => exact ⟨0, fun _ h => h⟩
  | child k _ h1 h2 ih =>
    obtain ⟨d, ih⟩ := ih
    refine ⟨d + 1, fun e he => ih e ?_⟩
    rw [transfer_eq, Tr.lev]
    refine List.mem_cons_of_mem _ (lev_levs (List.mem_append_left _ (transferZip_get k _ _ _ _ ?_ ?_)) _ e he)
    · rw [mtr_kids]; exact mtrAll_get h1
    · rw [mtr_kids]; exact mtrAll_get h2

theorem safe_down {mk mk' : Nat → β} {x y u v : Element} (h : Compared x y u v) {anc : List Nat} (hs : TSafe anc (mtr mk x) (mtr mk' y)) :
    ∃ anc', TSafe anc' (mtr mk u) (mtr mk' v) ∧ x.id ∈ u.id :: anc' := by
  induction h with
  | root => exact ⟨anc, hs, List.mem_cons_self ..⟩
  | child k _ h1 h2 ih =>
    rename_i u v u' v' _
    obtain ⟨anc', h3, h4⟩ := ih
    rw [TSafe_eq, mtr_kids, mtr_kids, mtr_id mk u] at h3
    exact ⟨u.id :: anc', TSafeZip_get _ k _ _ _ _ h3.2.1 (mtrAll_get h1) (mtrAll_get h2), List.mem_cons_of_mem _ h4⟩

mutual
theorem nodes_mtr (mk : Nat → β) : ∀ (c K : Element), K ∈ c.nodes → mtr mk K ∈ (mtr mk c).nodes
  | ⟨i, n, at', ls, ks, tx, key⟩, K, h => by
    rw [Element.nodes] at h
    rcases List.mem_cons.1 h with rfl | h
    · rw [mtr, Tr.nodes]; exact List.mem_cons_self ..
    · rw [mtr, Tr.nodes]; exact List.mem_cons_of_mem _ (nodesAll_mtr mk ks K h)
theorem nodesAll_mtr (mk : Nat → β) : ∀ (cs : List Element) (K : Element), K ∈ nodesAll cs → mtr mk K ∈ nodesF (mtrAll mk cs)
  | [], K, h => by rw [nodesAll] at h; cases h
  | c :: cs, K, h => by
    rw [nodesAll] at h
    rw [mtrAll, nodesF]
    rcases List.mem_append.1 h with h | h
    · exact List.mem_append_left _ (nodes_mtr mk c K h)
    · exact List.mem_append_right _ (nodesAll_mtr mk cs K h)
end

theorem nodesAll_of {cs : List Element} {c K : Element} (hc : c ∈ cs) (hK : K ∈ c.nodes) : K ∈ nodesAll cs := by
  induction cs with
  | nil => cases hc
  | cons d cs ih =>
    rw [nodesAll]
    rcases List.mem_cons.1 hc with rfl | h
    · exact List.mem_append_left _ hK
    · exact List.mem_append_right _ (ih h)

mutual
theorem nodes_lev : ∀ (t K : Tr β) (d : Nat), K ∈ t.nodes → ∃ e ∈ t.lev d, e.id = K.id ∧ e.lab = K.lab
  | .node i l ks, K, d, h => by
    rw [Tr.nodes] at h
    rw [Tr.lev]
    rcases List.mem_cons.1 h with rfl | h
    · exact ⟨_, List.mem_cons_self .., rfl, rfl⟩
    · obtain ⟨e, h1, h2⟩ := nodesF_lev ks K (d + 1) h; exact ⟨e, List.mem_cons_of_mem _ h1, h2⟩
theorem nodesF_lev : ∀ (ts : List (Tr β)) (K : Tr β) (d : Nat), K ∈ nodesF ts → ∃ e ∈ levs d ts, e.id = K.id ∧ e.lab = K.lab
  | [], K, d, h => by rw [nodesF] at h; cases h
  | t :: ts, K, d, h => by
    rw [nodesF] at h
    rw [levs]
    rcases List.mem_append.1 h with h | h
    · obtain ⟨e, h1, h2⟩ := nodes_lev t K d h; exact ⟨e, List.mem_append_left _ h1, h2⟩
    · obtain ⟨e, h1, h2⟩ := nodesF_lev ts K d h; exact ⟨e, List.mem_append_right _ h1, h2⟩
end

variable {a b : Element}

theorem Run.shown (r : Run a b) {z : Element} (hz : z ∈ b.nodes) {m : Bool × Nat}
    (h : ∃ e ∈ (transfer (mtr old a) (mtr new b)).lev 0, e.id = z.id ∧ e.lab = m) : ∃ e ∈ r.F.lev 0, e.lab.2 = m ∧ Shows e z := by
  obtain ⟨e, h1, h2, h3⟩ := h
  rw [← r.exact, marks_lev] at h1
  obtain ⟨f, hf, rfl⟩ := List.mem_map.1 h1
  obtain ⟨z', q1, q2⟩ := same_shows r.F b 0 r.same f hf
  have : z' = z := node_unique (nodup_of_increasing r.ib) q1 hz (q2.1.trans h2)
  subst this
  exact ⟨f, hf, h3, q2⟩

theorem Run.pair (r : Run a b) {x y : Element} (h : Compared a b x y) : ∃ e ∈ r.F.lev 0, e.lab.2 = old x.id ∧ Shows e y := by
  refine r.shown ((Compared.nodes h).2 y (self_nodes y)) ?_
  obtain ⟨d, hd⟩ := transfer_down (mk := old) (mk' := new) h
  refine ⟨⟨y.id, d, old x.id⟩, hd _ ?_, rfl, rfl⟩
  rw [transfer_eq, Tr.lev, mtr_id, mtr_lab]
  exact List.mem_cons_self ..

theorem Run.created (r : Run a b) {K : Element} (h : Created a b K) : ∃ e ∈ r.F.lev 0, e.lab.2 = new K.id ∧ Shows e K := by
  refine r.shown (Created.node h) ?_
  obtain ⟨u, v, c, h1, h2, h3⟩ := h
  obtain ⟨d, hd⟩ := transfer_down (mk := old) (mk' := new) h1
  obtain ⟨e, q1, q2, q3⟩ := nodesF_lev _ _ (d + 1) (nodesAll_mtr new _ K (nodesAll_of h2 h3))
  refine ⟨e, hd e ?_, by rw [q2, mtr_id], by rw [q3, mtr_lab]⟩
  rw [transfer_eq, Tr.lev, mtr_kids, mtr_kids]
  refine List.mem_cons_of_mem _ ?_
  rw [levs_append]
  refine List.mem_append_right _ ?_
  have : (mtrAll old u.children).length = u.children.length := by rw [mtrAll_eq, List.length_map]
  rw [this]
  have : (mtrAll new v.children).drop u.children.length = mtrAll new (v.children.drop u.children.length) := by
    rw [mtrAll_eq, mtrAll_eq, List.map_drop]
  rw [this]
  exact q1

/-- Ids do not grow. -/
theorem Run.le (r : Run a b) {x y : Element} (h : Compared a b x y) : y.id ≤ x.id := by
  obtain ⟨anc, h1, _⟩ := safe_down h r.safe
  have := ((TSafe_eq _ _ _).1 h1).1
  rwa [mtr_id, mtr_id] at this

/-- A created element with the id of an old element above it has no children. -/
theorem Run.childless (r : Run a b) {x y K : Element} (h : Compared a b x y) (hK : Created x y K) (he : K.id = x.id) : K.children = [] := by
  obtain ⟨anc, h1, _⟩ := safe_down h r.safe
  obtain ⟨u, v, c, h2, h3, h4⟩ := hK
  obtain ⟨anc', h5, h6⟩ := safe_down h2 h1
  rw [TSafe_eq, mtr_kids, mtr_kids, mtr_id old u] at h5
  have : (mtrAll new v.children).drop (mtrAll old u.children).length = mtrAll new (v.children.drop u.children.length) := by
    rw [mtrAll_eq, mtrAll_eq, mtrAll_eq, List.map_drop, List.length_map]
  rw [this] at h5
  have := h5.2.2 (mtr new K) (nodesAll_mtr new _ K (nodesAll_of h3 h4)) (by rw [mtr_id, he]; exact h6)
  rw [mtr_kids, mtrAll_eq] at this
  simpa using this

/-! ## One operation -/

theorem flat_mem {α : Type} {op : SOp α} {l l' : List (Ent α)} (h : Flat op l l') : ∀ e' ∈ l', e' ∈ l ∨
    (∃ i p lb, op = .create i p lb ∧ e'.id = i ∧ e'.lab = lb) ∨ (∃ i n, op = .setId i n ∧ e'.id = n ∧ ∃ e ∈ l, e.id = i ∧ e'.lab = e.lab) ∨
    (∃ i f, op = .upd i f ∧ e'.id = i ∧ ∃ e ∈ l, e.id = i ∧ e'.lab = f e.lab) := by
  intro e' he
  cases h with
  | create hp =>
    rename_i i p lb m pre sub post D
    simp only [List.mem_append, List.mem_cons] at he ⊢
    rcases he with h | h | h | h | h
    · exact Or.inl (Or.inl h)
    · exact Or.inl (Or.inr (Or.inl h))
    · exact Or.inl (Or.inr (Or.inr (Or.inl h)))
    · subst h; exact Or.inr (Or.inl ⟨i, p, lb, rfl, rfl, rfl⟩)
    · exact Or.inl (Or.inr (Or.inr (Or.inr h)))
  | setId hp =>
    rename_i i n m pre post D
    simp only [List.mem_append, List.mem_cons] at he ⊢
    rcases he with h | h | h
    · exact Or.inl (Or.inl h)
    · subst h; exact Or.inr (Or.inr (Or.inl ⟨i, n, rfl, rfl, ⟨i, D, m⟩, Or.inr (Or.inl rfl), rfl, rfl⟩))
    · exact Or.inl (Or.inr (Or.inr h))
  | delete hs => exact Or.inl (hs.subset he)
  | upd hp =>
    rename_i i f m pre post D
    simp only [List.mem_append, List.mem_cons] at he ⊢
    rcases he with h | h | h
    · exact Or.inl (Or.inl h)
    · subst h; exact Or.inr (Or.inr (Or.inr ⟨i, f, rfl, rfl, ⟨i, D, m⟩, Or.inr (Or.inl rfl), rfl, rfl⟩))
    · exact Or.inl (Or.inr (Or.inr h))

theorem liftOp_cases (mk : Nat → β) (op : Op) :
    (∃ n p, op.instruction = .createTag n (some p) ∧ liftOp mk op = .create op.id p (⟨n, [], [], none⟩, mk op.id)) ∨
    (∃ w, op.instruction = .setId w ∧ liftOp mk op = .setId op.id w) ∨
    (∃ f : Content → Content, liftOp mk op = .upd op.id (content f) ∧ ((∃ n, op.instruction = .setTagName n) ∨ ∀ c, (f c).name = c.name) ∧
      ((∃ n o, op.instruction = .attachListener n o) ∨ ∀ c, (f c).listeners = [] ∨ (f c).listeners = c.listeners)) ∨
    liftOp mk op = .delete op.id := by
  obtain ⟨i, ins⟩ := op
  cases ins with
  | insertChild _ => exact Or.inr (Or.inr (Or.inr rfl))
  | insertAfter _ => exact Or.inr (Or.inr (Or.inr rfl))
  | insertBefore _ => exact Or.inr (Or.inr (Or.inr rfl))
  | setInnerHtml _ _ => exact Or.inr (Or.inr (Or.inr rfl))
  | deleteEl => exact Or.inr (Or.inr (Or.inr rfl))
  | setAttribute k v => exact Or.inr (Or.inr (Or.inl ⟨_, rfl, Or.inr fun _ => rfl, Or.inr fun _ => Or.inr rfl⟩))
  | removeAttribute k => exact Or.inr (Or.inr (Or.inl ⟨_, rfl, Or.inr fun _ => rfl, Or.inr fun _ => Or.inr rfl⟩))
  | setText v => exact Or.inr (Or.inr (Or.inl ⟨_, rfl, Or.inr fun _ => rfl, Or.inr fun _ => Or.inr rfl⟩))
  | setTagName n => exact Or.inr (Or.inr (Or.inl ⟨_, rfl, Or.inl ⟨_, rfl⟩, Or.inr fun _ => Or.inr rfl⟩))
  | removeText => exact Or.inr (Or.inr (Or.inl ⟨_, rfl, Or.inr fun _ => rfl, Or.inr fun _ => Or.inr rfl⟩))
  | removeListeners => exact Or.inr (Or.inr (Or.inl ⟨_, rfl, Or.inr fun _ => rfl, Or.inr fun _ => Or.inl rfl⟩))
  | attachListener n on => exact Or.inr (Or.inr (Or.inl ⟨_, rfl, Or.inr fun _ => rfl, Or.inl ⟨_, _, rfl⟩⟩))
  | setId v => exact Or.inr (Or.inl ⟨v, rfl, rfl⟩)
  | createTag n p =>
    cases p with
    | none => exact Or.inr (Or.inr (Or.inr rfl))
    | some p => exact Or.inl ⟨n, p, rfl, rfl⟩

/-- Where an entry comes from. -/
theorem lift_mem {mk : Nat → β} {op : Op} {t t' : Tr (Content × β)} (h : step (liftOp mk op) t = some t') {e' : Ent (Content × β)} (he : e' ∈ t'.lev 0) :
    e' ∈ t.lev 0 ∨
    (∃ n p, op.instruction = .createTag n (some p) ∧ e'.id = op.id ∧ e'.lab = (⟨n, [], [], none⟩, mk op.id)) ∨
    (∃ w, op.instruction = .setId w ∧ e'.id = w ∧ ∃ e ∈ t.lev 0, e.id = op.id ∧ e'.lab = e.lab) ∨
    (e'.id = op.id ∧ ∃ e ∈ t.lev 0, e.id = op.id ∧ e'.lab.2 = e.lab.2 ∧ ((∃ n, op.instruction = .setTagName n) ∨ e'.lab.1.name = e.lab.1.name) ∧
      ((∃ n o, op.instruction = .attachListener n o) ∨ e'.lab.1.listeners = [] ∨ e'.lab.1.listeners = e.lab.1.listeners)) := by
  have hf := step_flat 0 h
  rcases flat_mem hf e' he with h1 | ⟨i, p, lb, h1, h2, h3⟩ | ⟨i, n, h1, h2, e, h3, h4, h5⟩ | ⟨i, f, h1, h2, e, h3, h4, h5⟩
  · exact Or.inl h1
  · rcases liftOp_cases mk op with ⟨n, p', q1, q2⟩ | ⟨w, q1, q2⟩ | ⟨f, q1, q2, q3⟩ | q1
    · rw [q2] at h1; cases h1; exact Or.inr (Or.inl ⟨n, _, q1, h2, h3⟩)
    · rw [q2] at h1; cases h1
    · rw [q1] at h1; cases h1
    · rw [q1] at h1; cases h1
  · rcases liftOp_cases mk op with ⟨n, p', q1, q2⟩ | ⟨w, q1, q2⟩ | ⟨f, q1, q2, q3⟩ | q1
    · rw [q2] at h1; cases h1
    · rw [q2] at h1; cases h1; exact Or.inr (Or.inr (Or.inl ⟨_, q1, h2, e, h3, h4, h5⟩))
    · rw [q1] at h1; cases h1
    · rw [q1] at h1; cases h1
  · rcases liftOp_cases mk op with ⟨n, p', q1, q2⟩ | ⟨w, q1, q2⟩ | ⟨g, q1, q2, q3⟩ | q1
    · rw [q2] at h1; cases h1
    · rw [q2] at h1; cases h1
    · rw [q1] at h1; cases h1
      refine Or.inr (Or.inr (Or.inr ⟨h2, e, h3, h4, by rw [h5]; rfl, ?_, ?_⟩))
      · rw [h5]; exact q2.imp_right fun h => h _
      · rw [h5]; exact q3.imp_right fun h => h _
    · rw [q1] at h1; cases h1

/-- A property of entries that every operation keeps. -/
theorem steps_inv {mk : Nat → β} (P : Ent (Content × β) → Prop) : ∀ (ops : List Op) (t s : Tr (Content × β)), steps (ops.map (liftOp mk)) t = some s →
    (∀ op ∈ ops, ∀ t t', step (liftOp mk op) t = some t' → (∀ e ∈ t.lev 0, P e) → ∀ e ∈ t'.lev 0, P e) → (∀ e ∈ t.lev 0, P e) → ∀ e ∈ s.lev 0, P e
  | [], t, s, h, _, h0 => by rw [List.map_nil, steps] at h; cases h; exact h0
  | op :: ops, t, s, h, hs, h0 => by
    obtain ⟨m, h1, h2⟩ := steps_cons_some h
    exact steps_inv P ops m s h2 (fun o ho => hs o (List.mem_cons_of_mem _ ho)) (hs op (List.mem_cons_self ..) t m h1 h0)

/-! ## Created elements with the id of an element above them -/

theorem at_lift {mk : Nat → β} {op : Op} {t t' : Tr (Content × β)} {o : Nat} (h : step (liftOp mk op) t = some t') (hc : crt op ≠ some o)
    (hs : ∀ w, op.instruction = .setId w → op.id ≠ o) : (at_ o (t'.lev 0)).Sublist (at_ o (t.lev 0)) ∨
    ∃ e e' rest, at_ o (t.lev 0) = e :: rest ∧ at_ o (t'.lev 0) = e' :: rest ∧ e'.lab.2 = e.lab.2 := by
  rcases liftOp_cases mk op with ⟨n, p', q1, q2⟩ | ⟨w, q1, q2⟩ | ⟨f, q1, q2, q3⟩ | q1
  · left
    rw [q2] at h
    refine flat_quiet (step_flat 0 h) ?_
    intro e
    apply hc
    unfold crt
    rw [q1]
    exact congrArg some e
  · left
    rw [q2] at h
    refine flat_quiet (step_flat 0 h) ?_
    intro e
    apply hc
    unfold crt
    rw [q1]
    exact congrArg some e
  · rw [q1] at h
    have hf := step_flat 0 h
    generalize t.lev 0 = l at hf ⊢
    generalize t'.lev 0 = l' at hf ⊢
    cases hf with
    | upd hp =>
      rename_i m pre post D
      by_cases ho : op.id = o
      · right
        subst ho
        refine ⟨⟨op.id, D, m⟩, ⟨op.id, D, content f m⟩, at_ op.id post, ?_, ?_, rfl⟩
        · rw [at_append, at_none hp, at_cons_pos (e := ⟨op.id, D, m⟩) rfl]; rfl
        · rw [at_append, at_none hp, at_cons_pos (e := ⟨op.id, D, content f m⟩) rfl]; rfl
      · left
        rw [at_append, at_append, at_cons_neg (e := ⟨op.id, D, m⟩) ho, at_cons_neg (e := ⟨op.id, D, content f m⟩) ho]
        exact List.Sublist.refl _
  · left
    rw [q1] at h
    exact flat_quiet (step_flat 0 h) trivial

/-- at most one entry, and none of the marked ones -/
def Few (o : Nat) (l : List (Ent (Content × (Bool × Nat)))) : Prop := (at_ o l).length ≤ 1 ∧ ∀ e ∈ at_ o l, e.lab.2 ≠ new o

/-- the marked one is not second, or it is, and blank -/
def Second (o : Nat) (c : Content) (l : List (Ent (Content × (Bool × Nat)))) : Prop :=
  (∀ e ∈ (at_ o l).tail, e.lab.2 ≠ new o) ∨ ∃ e1 e2, at_ o l = [e1, e2] ∧ e2.lab.1 = c

theorem few_step {op : Op} {t t' : Tr (Content × (Bool × Nat))} {o : Nat} (h : step (liftOp new op) t = some t') (hc : crt op ≠ some o)
    (hs : ∀ w, op.instruction = .setId w → op.id ≠ o) (hq : Few o (t.lev 0)) : Few o (t'.lev 0) := by
  rcases at_lift h hc hs with h1 | ⟨e, e', rest, h1, h2, h3⟩
  · exact ⟨Nat.le_trans h1.length_le hq.1, fun e he => hq.2 e (h1.subset he)⟩
  · refine ⟨by have := hq.1; rw [h1] at this; rw [h2]; simpa using this, ?_⟩
    intro x hx
    rw [h2] at hx
    rcases List.mem_cons.1 hx with rfl | hx
    · rw [h3]; exact hq.2 e (by rw [h1]; exact List.mem_cons_self ..)
    · exact hq.2 x (by rw [h1]; exact List.mem_cons_of_mem _ hx)

theorem second_step {op : Op} {t t' : Tr (Content × (Bool × Nat))} {o : Nat} {c : Content} (h : step (liftOp new op) t = some t') (hc : crt op ≠ some o)
    (hs : ∀ w, op.instruction = .setId w → op.id ≠ o) (hq : Second o c (t.lev 0)) : Second o c (t'.lev 0) := by
  rcases at_lift h hc hs with h1 | ⟨e, e', rest, h1, h2, h3⟩
  · rcases hq with hq | ⟨e1, e2, hq, hb⟩
    · exact Or.inl fun e he => hq e ((h1.tail).subset he)
    · rw [hq] at h1
      rcases Nat.lt_or_ge (at_ o (t'.lev 0)).length 2 with hl | hl
      · left
        intro e he
        have : (at_ o (t'.lev 0)).tail = [] := by
          rw [List.eq_nil_iff_length_eq_zero, List.length_tail]; omega
        rw [this] at he; cases he
      · exact Or.inr ⟨e1, e2, h1.eq_of_length_le (by simpa using hl), hb⟩
  · rcases hq with hq | ⟨e1, e2, hq, hb⟩
    · left; rw [h2]; rw [h1] at hq; exact hq
    · rw [h1] at hq
      simp only [List.cons.injEq] at hq
      exact Or.inr ⟨e', e2, by rw [h2, hq.2], hb⟩

theorem steps_all {mk : Nat → β} (P : List (Ent (Content × β)) → Prop) : ∀ (ops : List Op) (t s : Tr (Content × β)), steps (ops.map (liftOp mk)) t = some s →
    (∀ op ∈ ops, ∀ t t', step (liftOp mk op) t = some t' → P (t.lev 0) → P (t'.lev 0)) → P (t.lev 0) → P (s.lev 0)
  | [], t, s, h, _, h0 => by rw [List.map_nil, steps] at h; cases h; exact h0
  | op :: ops, t, s, h, hs, h0 => by
    obtain ⟨m, h1, h2⟩ := steps_cons_some h
    exact steps_all P ops m s h2 (fun o ho => hs o (List.mem_cons_of_mem _ ho)) (hs op (List.mem_cons_self ..) t m h1 h0)

theorem create_second {o p : Nat} {c : Content} {t t' : Tr (Content × (Bool × Nat))} (h : step (.create o p (c, new o)) t = some t') (hq : Few o (t.lev 0)) :
    Second o c (t'.lev 0) := by
  have hf := step_flat 0 h
  have key : ∃ l r d, at_ o (t.lev 0) = l ++ r ∧ at_ o (t'.lev 0) = l ++ ⟨o, d, (c, new o)⟩ :: r := by
    generalize t.lev 0 = l at hf ⊢
    generalize t'.lev 0 = l' at hf ⊢
    cases hf with
    | create hp =>
      rename_i m pre sub post D
      refine ⟨at_ o (pre ++ ⟨p, D, m⟩ :: sub), at_ o post, D + 1, ?_, ?_⟩
      · rw [← at_append]; simp
      · rw [← at_cons_pos (e := ⟨o, D + 1, (c, new o)⟩) rfl, ← at_append]; simp
  obtain ⟨l, r, d, h1, h2⟩ := key
  obtain ⟨q1, q2⟩ := hq
  rw [h1] at q1 q2
  match l, r, q1 with
  | [], r, _ =>
    left
    rw [h2]
    intro e he
    exact q2 e (by simpa using he)
  | [e], [], _ => exact Or.inr ⟨e, _, h2, rfl⟩
  | e :: f :: l, r, q1 => simp at q1
  | [e], x :: r, q1 => simp at q1

theorem headers_nil {h : Headers} (hg : ∀ k, Headers.get h k = none) : h = [] := by
  cases h with
  | nil => rfl
  | cons p h =>
    have := hg p.1
    simp [Headers.get] at this

/-- **A created element with the id of an old element above it is blank.** -/
theorem Run.blank (r : Run a b) {x y K : Element} (h : Compared a b x y) (hK : Created x y K) (he : K.id = x.id) : K.Empty := by
  have hle := r.le h
  obtain ⟨A, D, B, hops, hD, hA, hB⟩ := diff_split h r.ka r.kb r.ia r.ib r.diff
  obtain ⟨kx, ky⟩ := Compared.unkeyed h r.ka r.kb
  obtain ⟨ix, iy⟩ := Compared.ids h r.ia r.ib
  obtain ⟨p, hp⟩ := created_mem kx ky ix iy hD hK
  have hlt : y.id < K.id := by
    obtain ⟨u, v, c, h1, h2, h3⟩ := hK
    have hc : K.id ∈ idsOf v.children := child_ids (List.mem_of_mem_drop h2) _ (ids_of_nodes h3 _ K.id_mem_ids)
    have h4 := (pairwise_parts (Compared.ids h1 ix iy).2).1 _ hc
    have h5 : y.id ≤ v.id := by
      have := (Compared.sub_ids h1).2 v.id v.id_mem_ids
      rw [y.ids_eq] at this
      rcases List.mem_cons.1 this with h | h
      · omega
      · exact Nat.le_of_lt ((pairwise_parts iy).1 _ h)
    omega
  have hKy : K.id ∈ y.ids := ids_of_nodes (Created.node hK) _ K.id_mem_ids
  have hKx : K.id ∈ x.ids := by rw [he]; exact x.id_mem_ids
  obtain ⟨D', rfl, hD'⟩ := diff_last kx ky ix (by omega) hD
  have hcrt := diff_crt y x _ kx ky (nodup_of_increasing iy) hD
  have hp' : (⟨K.id, .createTag K.name (some p)⟩ : Op) ∈ D' := by
    rcases List.mem_append.1 hp with h | h
    · exact h
    · exact absurd (congrArg Op.instruction (List.mem_singleton.1 h)) (fun hc => nomatch hc)
  obtain ⟨D1, D2, rfl⟩ := List.append_of_mem hp'
  -- nothing else makes that id
  have hmk : (∀ op ∈ D1, crt op ≠ some K.id) ∧ ∀ op ∈ D2, crt op ≠ some K.id := by
    rw [List.filterMap_append, List.filterMap_append, List.filterMap_cons] at hcrt
    have : crt ⟨K.id, .createTag K.name (some p)⟩ = some K.id := rfl
    rw [this] at hcrt
    simp only at hcrt
    rw [List.append_assoc, List.nodup_append] at hcrt
    obtain ⟨-, n2, n3⟩ := hcrt
    constructor
    · intro op ho hc
      exact n3 K.id (List.mem_filterMap.2 ⟨op, ho, hc⟩) K.id (by simp) rfl
    · intro op ho hc
      rw [List.cons_append, List.nodup_cons] at n2
      exact n2.1 (List.mem_append_left _ (List.mem_filterMap.2 ⟨op, ho, hc⟩))
  -- the run
  have hrun := r.run
  rw [hops] at hrun
  have e1 : A ++ (D1 ++ ⟨K.id, .createTag K.name (some p)⟩ :: D2 ++ [⟨x.id, .setId y.id⟩]) ++ B =
      (A ++ D1) ++ ⟨K.id, .createTag K.name (some p)⟩ :: (D2 ++ ⟨x.id, .setId y.id⟩ :: B) := by simp
  rw [e1, List.map_append, List.map_cons, List.map_append (l₁ := D2), List.map_cons] at hrun
  obtain ⟨s1, r1, hrun⟩ := steps_append_some hrun
  obtain ⟨s2, r2, hrun⟩ := steps_cons_some hrun
  obtain ⟨s3, r3, hrun⟩ := steps_append_some hrun
  obtain ⟨s4, r4, r5⟩ := steps_cons_some hrun
  have f0 : Few K.id ((lift old a).lev 0) := by
    refine ⟨?_, fun e hm => ?_⟩
    · have hn : (((lift old a).lev 0).map (·.id)).Nodup := by rw [lev_ids, lift_ids]; exact nodup_of_increasing r.ia
      match hx : at_ K.id ((lift old a).lev 0) with
      | [] => simp
      | e :: l =>
        have hm := mem_at.1 (show e ∈ at_ K.id ((lift old a).lev 0) by rw [hx]; exact List.mem_cons_self ..)
        have := at_nodup hn hm.1 hm.2
        rw [hx] at this
        rw [this]; simp
    · rw [(lift_lev old a 0 e (mem_at.1 hm).1).1]
      intro hc; cases hc
  have f1 : Few K.id (s1.lev 0) := by
    refine steps_all (Few K.id) _ _ _ r1 (fun op ho t t' ht hq => few_step ht ?_ ?_ hq) f0
    · rcases List.mem_append.1 ho with ho | ho
      · intro hc
        have := (hA op ho).1 _ (tgt_of_crt hc)
        omega
      · exact hmk.1 op ho
    · intro w hw hc
      rcases List.mem_append.1 ho with ho | ho
      · exact (hA op ho).2 w hw (by rw [hc]; exact hKx)
      · exact hD' op (List.mem_append_left _ ho) w hw (hc.trans he)
  have f2 : Second K.id ⟨K.name, [], [], none⟩ (s2.lev 0) := create_second r2 f1
  have f3 : Second K.id ⟨K.name, [], [], none⟩ (s3.lev 0) := by
    refine steps_all (Second K.id _) _ _ _ r3 (fun op ho t t' ht hq => second_step ht (hmk.2 op ho) ?_ hq) f2
    intro w hw hc
    exact hD' op (List.mem_append_right _ (List.mem_cons_of_mem _ ho)) w hw (hc.trans he)
  have f4 : ∀ e ∈ s4.lev 0, e.id = K.id → e.lab.2 = new K.id → e.lab.1 = ⟨K.name, [], [], none⟩ := by
    intro e hm hi hmark
    obtain ⟨f, hf⟩ := setId_tail (v := K.id) (n := y.id) 0 (by omega) (by rw [he]; exact r4)
    have hm' : e ∈ at_ K.id (s4.lev 0) := mem_at.2 ⟨hm, hi⟩
    rcases f3 with h3 | ⟨e1, e2, h3, h4⟩
    · rw [hf] at h3
      exact absurd hmark (h3 e hm')
    · rw [hf] at h3
      simp only [List.cons.injEq] at h3
      rw [h3.2] at hm'
      rw [List.mem_singleton.1 hm']; exact h4
  have f5 := steps_inv (fun e => e.id = K.id → e.lab.2 = new K.id → e.lab.1 = ⟨K.name, [], [], none⟩) _ _ _ r5 (fun op ho t t' ht hq e hm hi hmark => by
    rcases lift_mem ht hm with h1 | ⟨n, p', h1, h2, h3⟩ | ⟨w, h1, h2, e0, h3, h4, h5⟩ | ⟨h1, _⟩
    · exact hq e h1 hi hmark
    · exfalso
      refine (hB op ho).1 K.id ?_ hKy
      unfold tgt; rw [h1]; exact congrArg some (h2.symm.trans hi)
    · exfalso
      refine (hB op ho).1 K.id ?_ hKy
      unfold tgt; rw [h1]; exact congrArg some (h2.symm.trans hi)
    · exfalso
      rw [hi] at h1
      rcases (hB op ho).2 with h | h
      · exact h (by rw [← h1]; exact hKx)
      · exact h (by rw [← h1]; exact hKy)) f4
  obtain ⟨e, g1, g2, g3, g4, g5, g6, g7⟩ := r.created (Created.of h hK)
  have hb := f5 e g1 g3.symm g2
  rw [hb] at g5 g6 g7
  exact ⟨headers_nil (fun k => (g5 k).trans rfl), g6, g7, r.childless h hK he⟩

/-! ## Tags and listeners -/

/-- the states a run goes through around the renumbering of `x` -/
theorem Run.around (r : Run a b) {x y : Element} (h : Compared a b x y) (hne : y.id ≠ x.id) {P Q : Ent (Content × (Bool × Nat)) → Prop}
    (h0 : ∀ e ∈ (lift old a).lev 0, P e)
    (h1 : ∀ op ∈ r.ops, (∀ v, ToNew op → op.id = v → y.id < v → ∃ D, Puck.diff x y = some D ∧ op ∈ D) → (∀ w, op.instruction = .setId w → op.id ≠ x.id) →
      ∀ t t', step (liftOp new op) t = some t' → (∀ e ∈ t.lev 0, P e) → ∀ e ∈ t'.lev 0, P e)
    (h2 : ∀ t t', step (.setId x.id y.id) t = some t' → (∀ e ∈ t.lev 0, P e) → ∀ e ∈ t'.lev 0, Q e)
    (h3 : ∀ op, tgt op ≠ some y.id → ∀ t t', step (liftOp new op) t = some t' → (∀ e ∈ t.lev 0, Q e) → ∀ e ∈ t'.lev 0, Q e) :
    ∀ e ∈ r.F.lev 0, Q e := by
  obtain ⟨A, D, B, hops, hD, hA, hB⟩ := diff_split h r.ka r.kb r.ia r.ib r.diff
  obtain ⟨kx, ky⟩ := Compared.unkeyed h r.ka r.kb
  obtain ⟨ix, iy⟩ := Compared.ids h r.ia r.ib
  obtain ⟨D', rfl, hD'⟩ := diff_last kx ky ix (fun e => hne e.symm) hD
  have hrun := r.run
  rw [hops] at hrun
  have e1 : A ++ (D' ++ [⟨x.id, .setId y.id⟩]) ++ B = (A ++ D') ++ ⟨x.id, .setId y.id⟩ :: B := by simp
  rw [e1, List.map_append, List.map_cons] at hrun
  obtain ⟨s1, r1, hrun⟩ := steps_append_some hrun
  obtain ⟨s2, r2, r3⟩ := steps_cons_some hrun
  have f1 : ∀ e ∈ s1.lev 0, P e := by
    refine steps_inv P _ _ _ r1 (fun op ho => h1 op ?_ ?_ ?_) h0
    · rw [hops]; simp only [List.mem_append] at ho ⊢; exact ho.elim (fun h => Or.inl (Or.inl h)) (fun h => Or.inl (Or.inr (Or.inl h)))
    · intro v ht hv hlt
      refine ⟨_, hD, ?_⟩
      rcases List.mem_append.1 ho with ho | ho
      · exfalso
        have : tgt op = some v := by
          unfold tgt
          rcases ht with ⟨n, ht⟩ | ⟨n, o, ht⟩ <;> (rw [ht]; exact congrArg some hv)
        have := (hA op ho).1 v this
        omega
      · exact List.mem_append_left _ ho
    · intro w hw hc
      rcases List.mem_append.1 ho with ho | ho
      · exact (hA op ho).2 w hw (by rw [hc]; exact x.id_mem_ids)
      · exact hD' op ho w hw hc
  have f2 : ∀ e ∈ s2.lev 0, Q e := h2 _ _ r2 f1
  exact steps_inv Q _ _ _ r3 (fun op ho => h3 op (fun hc => (hB op ho).1 _ hc y.id_mem_ids)) f2

theorem bounded (l : List Nat) : ∃ M, ∀ i ∈ l, i < M := by
  induction l with
  | nil => exact ⟨0, fun i hi => nomatch hi⟩
  | cons j l ih =>
    obtain ⟨M, hM⟩ := ih
    refine ⟨max M (j + 1), fun i hi => ?_⟩
    rcases List.mem_cons.1 hi with rfl | hi
    · omega
    · have := hM i hi; omega

/-- induction on old ids, downwards -/
theorem Run.down (r : Run a b) {T : Element → Element → Prop}
    (hT : ∀ x y, Compared a b x y → y.id < x.id → (∀ x' y', Compared a b x' y' → y'.id < x'.id → y'.id = x.id → T x' y') → T x y) :
    ∀ x y, Compared a b x y → y.id < x.id → T x y := by
  obtain ⟨M, hM⟩ := bounded a.ids
  have key : ∀ n x y, M ≤ x.id + n → Compared a b x y → y.id < x.id → T x y := by
    intro n
    induction n with
    | zero =>
      intro x y hx h _
      have := hM x.id ((Compared.sub_ids h).1 _ x.id_mem_ids)
      omega
    | succ n ih =>
      intro x y hx h hlt
      exact hT x y h hlt fun x' y' h' hlt' he => ih x' y' (by omega) h' hlt'
  intro x y h hlt
  exact key M x y (by omega) h hlt

/-- the pair whose new id is an old id that changes -/
theorem Run.other (r : Run a b) {x y x' y' : Element} (h : Compared a b x y) (hlt : y.id < x.id) (h' : Compared a b x' y') (he : y'.id = x.id) : y'.id < x'.id := by
  have := r.le h'
  rcases Nat.lt_or_eq_of_le this with h1 | h1
  · exact h1
  · exfalso
    have := Compared.unique h h' (nodup_of_increasing r.ia) (he.symm.trans h1)
    rw [this] at hlt
    omega

/-- **Tags change only where ids do not.** -/
theorem Run.name (r : Run a b) : ∀ x y, Compared a b x y → y.id < x.id → x.name = y.name := by
  refine r.down fun x y h hlt ih => ?_
  have hxn : x ∈ a.nodes := (Compared.nodes h).1 x (self_nodes x)
  have hQ := r.around h (by omega) (P := fun e => e.lab.2 = old x.id → e.id = x.id ∧ e.lab.1.name = x.name)
    (Q := fun e => e.lab.2 = old x.id → e.id = y.id → e.lab.1.name = x.name)
    (by
      intro e he hm
      obtain ⟨q1, z, q2, q3, q4, _⟩ := lift_lev old a 0 e he
      rw [q1] at hm
      have hid : e.id = x.id := by injection hm
      refine ⟨hid, ?_⟩
      rw [q4, node_unique (nodup_of_increasing r.ia) q2 hxn (q3.trans hid)])
    (by
      intro op ho _ hset t t' ht hP e he hm
      rcases lift_mem ht he with h1 | ⟨n, p, h1, h2, h3⟩ | ⟨w, h1, h2, e0, h3, h4, h5⟩ | ⟨h1, e0, h2, h3, h4, h5, h6⟩
      · exact hP e h1 hm
      · rw [h3] at hm; cases hm
      · exfalso
        rw [h5] at hm
        exact hset w h1 (h4.symm.trans (hP e0 h3 hm).1)
      · rw [h4] at hm
        obtain ⟨g1, g2⟩ := hP e0 h2 hm
        refine ⟨h1.trans (h3.symm.trans g1), ?_⟩
        rcases h5 with ⟨n, h5⟩ | h5
        · exfalso
          have hid : op.id = x.id := h3.symm.trans g1
          rcases diff_origin b a r.ops r.ka r.kb r.diff op ho (Or.inl ⟨n, h5⟩) with ⟨x', y', k1, k2⟩ | ⟨K, _, _, _, n', o, k⟩
          · rcases own_cases k2 with ⟨rfl, k3⟩ | ⟨_, k3⟩ | ⟨_, l, _, rfl⟩
            · exact k3 (ih x' y' k1 (r.other h hlt k1 hid) hid)
            · rcases k3 with ⟨k, k3⟩ | ⟨k, w, k3⟩ | ⟨w, k3⟩ | k3 | k3 <;> (rw [k3] at h5; cases h5)
            · cases h5
          · rw [k] at h5; cases h5
        · rw [h5]; exact g2)
    (by
      intro t t' ht hP e he hm _
      rcases lift_mem (mk := new) (op := ⟨x.id, .setId y.id⟩) ht he with h1 | ⟨n, p, h1, h2, h3⟩ | ⟨w, h1, h2, e0, h3, h4, h5⟩ | ⟨h1, e0, h2, h3, h4, h5, h6⟩
      · exact (hP e h1 hm).2
      · cases h1
      · rw [h5] at hm ⊢; exact (hP e0 h3 hm).2
      · rcases h5 with ⟨n, h5⟩ | h5
        · cases h5
        · rw [h4] at hm; rw [h5]; exact (hP e0 h2 hm).2)
    (by
      intro op hop t t' ht hQ e he hm hid
      rcases lift_mem ht he with h1 | ⟨n, p, h1, h2, h3⟩ | ⟨w, h1, h2, e0, h3, h4, h5⟩ | ⟨h1, e0, h2, h3, h4, h5, h6⟩
      · exact hQ e h1 hm hid
      · rw [h3] at hm; cases hm
      · exfalso
        apply hop
        unfold tgt; rw [h1]; exact congrArg some (h2.symm.trans hid)
      · rcases h5 with ⟨n, h5⟩ | h5
        · exfalso
          apply hop
          unfold tgt; rw [h5]; exact congrArg some (h1.symm.trans hid)
        · rw [h4] at hm; rw [h5]; exact hQ e0 h2 hm (h3.trans (h1.symm.trans hid)))
  obtain ⟨e, g1, g2, g3, g4, _⟩ := r.pair h
  rw [g4]
  exact (hQ e g1 g2 g3.symm).symm

/-- **Listeners change only where ids do not, unless to nothing.** -/
theorem Run.listeners (r : Run a b) : ∀ x y, Compared a b x y → y.id < x.id → x.listeners = y.listeners ∨ y.listeners = [] := by
  refine r.down fun x y h hlt ih => ?_
  have hxn : x ∈ a.nodes := (Compared.nodes h).1 x (self_nodes x)
  have hQ := r.around h (by omega) (P := fun e => e.lab.2 = old x.id → e.id = x.id ∧ (e.lab.1.listeners = x.listeners ∨ e.lab.1.listeners = []))
    (Q := fun e => e.lab.2 = old x.id → e.id = y.id → e.lab.1.listeners = x.listeners ∨ e.lab.1.listeners = [])
    (by
      intro e he hm
      obtain ⟨q1, z, q2, q3, _, q4⟩ := lift_lev old a 0 e he
      rw [q1] at hm
      have hid : e.id = x.id := by injection hm
      refine ⟨hid, Or.inl ?_⟩
      rw [q4, node_unique (nodup_of_increasing r.ia) q2 hxn (q3.trans hid)])
    (by
      intro op ho hin hset t t' ht hP e he hm
      rcases lift_mem ht he with h1 | ⟨n, p, h1, h2, h3⟩ | ⟨w, h1, h2, e0, h3, h4, h5⟩ | ⟨h1, e0, h2, h3, h4, h5, h6⟩
      · exact hP e h1 hm
      · rw [h3] at hm; cases hm
      · exfalso
        rw [h5] at hm
        exact hset w h1 (h4.symm.trans (hP e0 h3 hm).1)
      · rw [h4] at hm
        obtain ⟨g1, g2⟩ := hP e0 h2 hm
        refine ⟨h1.trans (h3.symm.trans g1), ?_⟩
        rcases h6 with ⟨n, o, h6⟩ | h6 | h6
        · exfalso
          have hid : op.id = x.id := h3.symm.trans g1
          obtain ⟨D, hD, hoD⟩ := hin x.id (Or.inr ⟨n, o, h6⟩) hid hlt
          obtain ⟨kx, ky⟩ := Compared.unkeyed h r.ka r.kb
          rcases diff_origin y x D kx ky hD op hoD (Or.inr ⟨n, o, h6⟩) with ⟨x', y', k1, k2⟩ | ⟨K, k1, k2, k3, _⟩
          · have k1' := Compared.trans h k1
            rcases own_cases k2 with ⟨rfl, k3⟩ | ⟨_, k3⟩ | ⟨k3, l, hl, rfl⟩
            · cases h6
            · rcases k3 with ⟨k, k3⟩ | ⟨k, w, k3⟩ | ⟨w, k3⟩ | k3 | k3 <;> (rw [k3] at h6; cases h6)
            · rcases ih x' y' k1' (r.other h hlt k1' hid) hid with h7 | h7
              · exact k3 h7
              · rw [h7] at hl; cases hl
          · exact k3 (r.blank h k1 (k2.symm.trans hid)).2.1
        · exact Or.inr h6
        · rw [h6]; exact g2)
    (by
      intro t t' ht hP e he hm _
      rcases lift_mem (mk := new) (op := ⟨x.id, .setId y.id⟩) ht he with h1 | ⟨n, p, h1, h2, h3⟩ | ⟨w, h1, h2, e0, h3, h4, h5⟩ | ⟨h1, e0, h2, h3, h4, h5, h6⟩
      · exact (hP e h1 hm).2
      · cases h1
      · rw [h5] at hm ⊢; exact (hP e0 h3 hm).2
      · rcases h6 with ⟨n, o, h6⟩ | h6 | h6
        · cases h6
        · exact Or.inr h6
        · rw [h4] at hm; rw [h6]; exact (hP e0 h2 hm).2)
    (by
      intro op hop t t' ht hQ e he hm hid
      rcases lift_mem ht he with h1 | ⟨n, p, h1, h2, h3⟩ | ⟨w, h1, h2, e0, h3, h4, h5⟩ | ⟨h1, e0, h2, h3, h4, h5, h6⟩
      · exact hQ e h1 hm hid
      · rw [h3] at hm; cases hm
      · exfalso
        apply hop
        unfold tgt; rw [h1]; exact congrArg some (h2.symm.trans hid)
      · rcases h6 with ⟨n, o, h6⟩ | h6 | h6
        · exfalso
          apply hop
          unfold tgt; rw [h6]; exact congrArg some (h1.symm.trans hid)
        · exact Or.inr h6
        · rw [h4] at hm; rw [h6]; exact hQ e0 h2 hm (h3.trans (h1.symm.trans hid)))
  obtain ⟨e, g1, g2, g3, g4, g5, g6, g7⟩ := r.pair h
  rw [g6]
  exact (hQ e g1 g2 g3.symm).imp_left Eq.symm

end Puck.Shape
