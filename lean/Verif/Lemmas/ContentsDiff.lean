import Verif.Lemmas.Contents
/-!
# What a positional changeset consists of, and where
-/
namespace Puck.Shape

variable {β : Type}

/-! ## Compared positions -/

theorem Compared.trans {a b x y u v : Element} (h : Compared a b x y) (h' : Compared x y u v) : Compared a b u v := by
  induction h' with
  | root => exact h
  | child k _ h1 h2 ih => exact .child k ih h1 h2

theorem Created.of {a b x y K : Element} (h : Compared a b x y) (h' : Created x y K) : Created a b K := by
  obtain ⟨u, v, c, h1, h2, h3⟩ := h'
  exact ⟨u, v, c, Compared.trans h h1, h2, h3⟩

theorem unkeyedAll_mem {cs : List Element} (h : UnkeyedAll cs) {c : Element} (hc : c ∈ cs) : c.Unkeyed := by
  induction cs with
  | nil => cases hc
  | cons d cs ih =>
    rw [UnkeyedAll] at h
    rcases List.mem_cons.1 hc with rfl | hc
    · exact h.1
    · exact ih h.2 hc

theorem Compared.unkeyed {a b x y : Element} (h : Compared a b x y) (ha : a.Unkeyed) (hb : b.Unkeyed) : x.Unkeyed ∧ y.Unkeyed := by
  induction h with
  | root => exact ⟨ha, hb⟩
  | child k _ h1 h2 ih =>
    exact ⟨unkeyedAll_mem (Unkeyed.children ih.1) (List.mem_of_getElem? h1), unkeyedAll_mem (Unkeyed.children ih.2) (List.mem_of_getElem? h2)⟩

theorem child_nodes {x c : Element} (h : c ∈ x.children) : ∀ z ∈ c.nodes, z ∈ x.nodes := by
  intro z hz
  rw [nodes_eq x]
  refine List.mem_cons_of_mem _ ?_
  generalize x.children = cs at h
  induction cs with
  | nil => cases h
  | cons d cs ih =>
    rw [nodesAll]
    rcases List.mem_cons.1 h with rfl | h
    · exact List.mem_append_left _ hz
    · exact List.mem_append_right _ (ih h)

theorem self_nodes (x : Element) : x ∈ x.nodes := by rw [nodes_eq]; exact List.mem_cons_self ..

theorem Compared.nodes {a b x y : Element} (h : Compared a b x y) : (∀ z ∈ x.nodes, z ∈ a.nodes) ∧ (∀ z ∈ y.nodes, z ∈ b.nodes) := by
  induction h with
  | root => exact ⟨fun _ h => h, fun _ h => h⟩
  | child k _ h1 h2 ih =>
    exact ⟨fun z hz => ih.1 z (child_nodes (List.mem_of_getElem? h1) z hz), fun z hz => ih.2 z (child_nodes (List.mem_of_getElem? h2) z hz)⟩

theorem Created.node {a b K : Element} (h : Created a b K) : K ∈ b.nodes := by
  obtain ⟨u, v, c, h1, h2, h3⟩ := h
  exact (Compared.nodes h1).2 K (child_nodes (List.mem_of_mem_drop h2) K h3)

theorem child_ids {x c : Element} (h : c ∈ x.children) : ∀ i ∈ c.ids, i ∈ idsOf x.children := fun i hi => mem_idsOf_of_mem h hi

theorem split_ids {cs : List Element} {k : Nat} {c : Element} (h : cs[k]? = some c) :
    cs = cs.take k ++ c :: cs.drop (k + 1) := by
  obtain ⟨hk, rfl⟩ := List.getElem?_eq_some_iff.1 h
  rw [← List.drop_eq_getElem_cons hk, List.take_append_drop]

/-- Ids along compared positions. -/
theorem Compared.ids {a b x y : Element} (h : Compared a b x y) (ha : a.ids.Pairwise (· < ·)) (hb : b.ids.Pairwise (· < ·)) :
    x.ids.Pairwise (· < ·) ∧ y.ids.Pairwise (· < ·) := by
  induction h with
  | root => exact ⟨ha, hb⟩
  | child k _ h1 h2 ih =>
    obtain ⟨i1, i2⟩ := ih
    have j1 := (pairwise_parts i1).2
    have j2 := (pairwise_parts i2).2
    rw [split_ids h1, idsOf_append, idsOf, List.pairwise_append, List.pairwise_append] at j1
    rw [split_ids h2, idsOf_append, idsOf, List.pairwise_append, List.pairwise_append] at j2
    exact ⟨j1.2.1.1, j2.2.1.1⟩

/-- The other way to go down. -/
theorem Compared.cases_top {a b x y : Element} (h : Compared a b x y) : (x = a ∧ y = b) ∨
    ∃ (k : Nat) (a' b' : Element), a.children[k]? = some a' ∧ b.children[k]? = some b' ∧ Compared a' b' x y := by
  induction h with
  | root => exact Or.inl ⟨rfl, rfl⟩
  | child k hc h1 h2 ih =>
    rcases ih with ⟨rfl, rfl⟩ | ⟨j, a', b', h3, h4, h5⟩
    · exact Or.inr ⟨k, _, _, h1, h2, .root⟩
    · exact Or.inr ⟨j, a', b', h3, h4, .child k h5 h1 h2⟩

theorem ids_of_nodes : ∀ {e z : Element}, z ∈ e.nodes → ∀ i ∈ z.ids, i ∈ e.ids := by
  have key : ∀ (n : Nat) (e z : Element), e.ids.length ≤ n → z ∈ e.nodes → ∀ i ∈ z.ids, i ∈ e.ids := by
    intro n
    induction n with
    | zero => intro e z h; rw [e.ids_eq] at h; simp at h
    | succ n ih =>
      intro e z hl hz i hi
      rw [nodes_eq] at hz
      rcases List.mem_cons.1 hz with rfl | hz
      · exact hi
      · rw [e.ids_eq]
        rw [e.ids_eq] at hl
        simp only [List.length_cons] at hl
        refine List.mem_cons_of_mem _ ?_
        have hl : (idsOf e.children).length ≤ n := by omega
        generalize e.children = cs at hz hl
        induction cs with
        | nil => cases hz
        | cons c cs ihc =>
          rw [nodesAll] at hz
          rw [idsOf] at hl ⊢
          simp only [List.length_append] at hl
          rcases List.mem_append.1 hz with hz | hz
          · exact List.mem_append_left _ (ih c z (by omega) hz i hi)
          · exact List.mem_append_right _ (ihc hz (by omega))
  intro e z
  exact key _ e z (Nat.le_refl _)

theorem Compared.sub_ids {a b x y : Element} (h : Compared a b x y) : (∀ i ∈ x.ids, i ∈ a.ids) ∧ (∀ i ∈ y.ids, i ∈ b.ids) :=
  ⟨ids_of_nodes ((Compared.nodes h).1 x (self_nodes x)), ids_of_nodes ((Compared.nodes h).2 y (self_nodes y))⟩

/-- An old element is compared with one new element only. -/
theorem Compared.unique {a b x y x' y' : Element} (h : Compared a b x y) (h' : Compared a b x' y') (hn : a.ids.Nodup) (he : x.id = x'.id) : y = y' := by
  have key : ∀ (n : Nat) (a b x y x' y' : Element), a.ids.length ≤ n → Compared a b x y → Compared a b x' y' → a.ids.Nodup → x.id = x'.id → y = y' := by
    intro n
    induction n with
    | zero => intro a b x y x' y' h; rw [a.ids_eq] at h; simp at h
    | succ n ih =>
      intro a b x y x' y' hl h h' hn he
      have hn' := Element.nodup_children hn
      rw [a.ids_eq, List.length_cons] at hl
      have below : ∀ {k : Nat} {a' b' z w : Element}, a.children[k]? = some a' → Compared a' b' z w → z.id ∈ idsOf a.children := fun hk hc =>
        child_ids (List.mem_of_getElem? hk) _ ((Compared.sub_ids hc).1 _ (Element.id_mem_ids _))
      rcases Compared.cases_top h with ⟨rfl, rfl⟩ | ⟨k, c, d, h1, h2, h3⟩ <;>
      rcases Compared.cases_top h' with ⟨rfl, rfl⟩ | ⟨k', c', d', h1', h2', h3'⟩
      · rfl
      · exact absurd (by rw [he]; exact below h1' h3') hn'.2
      · exact absurd (by rw [← he]; exact below h1 h3) hn'.2
      · have m1 : x.id ∈ c.ids := (Compared.sub_ids h3).1 _ x.id_mem_ids
        have m2 : x'.id ∈ c'.ids := (Compared.sub_ids h3').1 _ x'.id_mem_ids
        have hlen : ∀ {k : Nat} {c : Element}, a.children[k]? = some c → c.ids.length ≤ n ∧ c.ids.Nodup := by
          intro k c hk
          have := split_ids hk
          have h5 := congrArg idsOf this
          rw [idsOf_append, idsOf] at h5
          have h6 := congrArg List.length h5
          simp only [List.length_append] at h6
          refine ⟨by omega, ?_⟩
          have := hn'.1
          rw [h5, List.nodup_append, List.nodup_append] at this
          exact this.2.1.1
        by_cases hk : k = k'
        · subst hk
          rw [h1] at h1'
          rw [h2] at h2'
          cases h1'; cases h2'
          exact ih c d x y x' y' (hlen h1).1 h3 h3' (hlen h1).2 he
        · exfalso
          have dis : ∀ {k k' : Nat} {c c' : Element} {i : Nat}, k < k' → a.children[k]? = some c → a.children[k']? = some c' → i ∈ c.ids → i ∈ c'.ids → False := by
            intro k k' c c' i hlt hk hk' hi hi'
            have h5 := congrArg idsOf (split_ids hk)
            rw [idsOf_append, idsOf] at h5
            have hn2 := hn'.1
            rw [h5, List.nodup_append, List.nodup_append] at hn2
            refine hn2.2.1.2.2 i hi i (mem_idsOf_of_mem (c := c') ?_ hi') rfl
            have : (a.children.drop (k + 1))[k' - (k + 1)]? = some c' := by
              rw [List.getElem?_drop, show k + 1 + (k' - (k + 1)) = k' from by omega, hk']
            exact List.mem_of_getElem? this
          rcases Nat.lt_or_gt_of_ne hk with hlt | hlt
          · exact dis hlt h1 h1' m1 (by rw [he]; exact m2)
          · exact dis hlt h1' h1 m2 (by rw [← he]; exact m1)
  exact key _ a b x y x' y' (Nat.le_refl _) h h' hn he

/-! ## Creating -/

mutual
theorem create_facts : ∀ (c : Element) (p : Nat), ∀ op ∈ createFromScratch (some p) c, Plain op ∧ op.id ∈ c.ids ∧ ∀ v, op.instruction ≠ .setId v
  | ⟨id, name, attributes, listeners, children, text, key⟩, p, op, ho => by
    rw [create_eq_fill] at ho
    rcases List.mem_cons.1 ho with rfl | ho
    · exact ⟨trivial, Element.id_mem_ids _, fun v h => nomatch h⟩
    · rcases fill_cases ho with ⟨h1, h2⟩ | h
      · refine ⟨?_, ?_, ?_⟩
        · rcases h2 with ⟨k, v, h⟩ | ⟨v, h⟩ | ⟨l, _, h⟩ <;> (unfold Plain; rw [h]; trivial)
        · rw [h1]; exact Element.id_mem_ids _
        · intro v hv
          rcases h2 with ⟨k, v, h⟩ | ⟨v, h⟩ | ⟨l, _, h⟩ <;> (rw [h] at hv; cases hv)
      · obtain ⟨h1, h2, h3⟩ := createAll_facts children id op h
        exact ⟨h1, by rw [Element.ids]; exact List.mem_cons_of_mem _ h2, h3⟩
theorem createAll_facts : ∀ (cs : List Element) (p : Nat), ∀ op ∈ createAll (some p) cs, Plain op ∧ op.id ∈ idsOf cs ∧ ∀ v, op.instruction ≠ .setId v
  | [], p, op, ho => by rw [createAll] at ho; cases ho
  | c :: cs, p, op, ho => by
    rw [createAll] at ho
    rw [idsOf]
    rcases List.mem_append.1 ho with h | h
    · obtain ⟨h1, h2, h3⟩ := create_facts c p op h
      exact ⟨h1, List.mem_append_left _ h2, h3⟩
    · obtain ⟨h1, h2, h3⟩ := createAll_facts cs p op h
      exact ⟨h1, List.mem_append_right _ h2, h3⟩
end

/-- the ids an operation creates or gives -/
def crt (op : Op) : Option Nat :=
  match op.instruction with
  | .createTag _ _ => some op.id
  | .setId v => some v
  | _ => none

/-- the new ids an operation is about -/
def tgt (op : Op) : Option Nat :=
  match op.instruction with
  | .createTag _ _ | .setTagName _ | .attachListener _ _ => some op.id
  | .setId v => some v
  | _ => none

theorem tgt_of_crt {op : Op} {v : Nat} (h : crt op = some v) : tgt op = some v := by
  unfold crt at h
  unfold tgt
  split at h
  · rename_i hi; rw [hi]; exact h
  · rename_i hi; rw [hi]; exact h
  · cases h

theorem soft_of {op : Op} (h : (∃ k, op.instruction = .removeAttribute k) ∨ (∃ k v, op.instruction = .setAttribute k v) ∨ (∃ v, op.instruction = .setText v) ∨
      op.instruction = .removeText ∨ op.instruction = .removeListeners ∨ (∃ n, op.instruction = .setTagName n) ∨ ∃ n o, op.instruction = .attachListener n o) :
    Plain op ∧ crt op = none ∧ ∀ {β : Type} (mk : Nat → β), structOp mk op = none := by
  unfold Plain crt structOp
  rcases h with ⟨k, h⟩ | ⟨k, v, h⟩ | ⟨v, h⟩ | h | h | ⟨n, h⟩ | ⟨n, o, h⟩ <;> (rw [h]; exact ⟨trivial, rfl, fun _ => rfl⟩)

theorem own_soft {a b : Element} {op : Op} (h : op ∈ ownOps a b) : Plain op ∧ crt op = none ∧ ∀ {β : Type} (mk : Nat → β), structOp mk op = none := by
  rcases own_cases h with ⟨rfl, _⟩ | ⟨_, h⟩ | ⟨_, l, _, rfl⟩
  · exact soft_of (Or.inr (Or.inr (Or.inr (Or.inr (Or.inr (Or.inl ⟨_, rfl⟩))))))
  · rcases h with h | h | h | h | h
    · exact soft_of (Or.inl h)
    · exact soft_of (Or.inr (Or.inl h))
    · exact soft_of (Or.inr (Or.inr (Or.inl h)))
    · exact soft_of (Or.inr (Or.inr (Or.inr (Or.inl h))))
    · exact soft_of (Or.inr (Or.inr (Or.inr (Or.inr (Or.inl h)))))
  · exact soft_of (Or.inr (Or.inr (Or.inr (Or.inr (Or.inr (Or.inr ⟨_, _, rfl⟩))))))

theorem filterMap_none {α γ : Type} {f : α → Option γ} {l : List α} (h : ∀ x ∈ l, f x = none) : l.filterMap f = [] :=
  List.filterMap_eq_nil_iff.2 h

/-- the operations that fill an element before its children are created -/
theorem fill_split (K : Element) : ∃ fs, fillOps K = fs ++ createAll (some K.id) K.children ∧
    ∀ op ∈ fs, Plain op ∧ crt op = none ∧ ∀ {β : Type} (mk : Nat → β), structOp mk op = none := by
  cases K with
  | mk id name attributes listeners children text key =>
  refine ⟨_, by rw [fillOps], ?_⟩
  intro op ho
  simp only [List.mem_append] at ho
  rcases ho with (h | h) | h
  · obtain ⟨p, _, rfl⟩ := List.mem_map.1 h; exact soft_of (Or.inr (Or.inl ⟨_, _, rfl⟩))
  · obtain ⟨p, _, rfl⟩ := List.mem_map.1 h; exact soft_of (Or.inr (Or.inr (Or.inr (Or.inr (Or.inr (Or.inr ⟨_, _, rfl⟩))))))
  · cases text with
    | none => cases h
    | some v => rcases List.mem_singleton.1 h with rfl; exact soft_of (Or.inr (Or.inr (Or.inl ⟨_, rfl⟩)))

mutual
theorem create_crt : ∀ (c : Element) (p : Nat), (createFromScratch (some p) c).filterMap crt = c.ids
  | ⟨id, name, attributes, listeners, children, text, key⟩, p => by
    obtain ⟨fs, h1, h2⟩ := fill_split ⟨id, name, attributes, listeners, children, text, key⟩
    rw [create_eq_fill, h1, List.filterMap_cons, List.filterMap_append, filterMap_none (fun op ho => (h2 op ho).2.1), createAll_crt children id, Element.ids]
    rfl
theorem createAll_crt : ∀ (cs : List Element) (p : Nat), (createAll (some p) cs).filterMap crt = idsOf cs
  | [], p => rfl
  | c :: cs, p => by rw [createAll, List.filterMap_append, create_crt c p, createAll_crt cs p, idsOf]
end

mutual
theorem create_struct (mk : Nat → β) : ∀ (c : Element) (p : Nat), (createFromScratch (some p) c).filterMap (structOp mk) = make p (mtr mk c)
  | ⟨id, name, attributes, listeners, children, text, key⟩, p => by
    obtain ⟨fs, h1, h2⟩ := fill_split ⟨id, name, attributes, listeners, children, text, key⟩
    rw [create_eq_fill, h1, List.filterMap_cons, List.filterMap_append, filterMap_none (fun op ho => (h2 op ho).2.2 mk), createAll_struct mk children id, mtr,
      make]
    rfl
theorem createAll_struct (mk : Nat → β) : ∀ (cs : List Element) (p : Nat), (createAll (some p) cs).filterMap (structOp mk) = makeAll p (mtrAll mk cs)
  | [], p => rfl
  | c :: cs, p => by rw [createAll, List.filterMap_append, create_struct mk c p, createAll_struct mk cs p, mtrAll, makeAll]
end

/-! ## Comparing -/

theorem diffId_cases {a b : Element} {op : Op} (h : op ∈ a.diffId b) : op = ⟨a.id, .setId b.id⟩ := by
  unfold Element.diffId at h
  split at h
  · cases h
  · exact List.mem_singleton.1 h

mutual
theorem diff_facts : ∀ (b a : Element) (ops : List Op), a.Unkeyed → b.Unkeyed → diff a b = some ops → ∀ op ∈ ops,
    Plain op ∧ (op.id ∈ a.ids ∨ op.id ∈ b.ids) ∧ (∀ v, tgt op = some v → v ∈ b.ids) ∧ ∀ v, op.instruction = .setId v → op.id ∈ a.ids
  | ⟨bi, bn, ba, bl, bk, bt, bkey⟩, a, ops, ha, hb, h, op, ho => by
    obtain ⟨pairs, hz, rfl⟩ := diff_parts ha hb h
    have hid : bi ∈ Element.ids ⟨bi, bn, ba, bl, bk, bt, bkey⟩ := Element.id_mem_ids _
    simp only [List.mem_append] at ho
    rcases ho with (ho | (ho | ho) | ho) | ho
    · refine ⟨(own_soft ho).1, ?_⟩
      rcases own_cases ho with ⟨rfl, _⟩ | ⟨h1, h2⟩ | ⟨_, l, _, rfl⟩
      · exact ⟨Or.inr hid, fun v hv => by cases hv; exact hid, fun v hv => nomatch hv⟩
      · refine ⟨Or.inl (by rw [h1]; exact a.id_mem_ids), ?_, fun v _ => by rw [h1]; exact a.id_mem_ids⟩
        intro v hv
        unfold tgt at hv
        rcases h2 with ⟨k, h⟩ | ⟨k, w, h⟩ | ⟨w, h⟩ | h | h <;> (rw [h] at hv; cases hv)
      · exact ⟨Or.inr hid, fun v hv => by cases hv; exact hid, fun v hv => nomatch hv⟩
    · obtain ⟨c, hc, rfl⟩ := List.mem_map.1 ho
      refine ⟨trivial, Or.inl ?_, (fun v hv => nomatch hv), (fun v hv => nomatch hv)⟩
      rw [a.ids_eq]
      exact List.mem_cons_of_mem _ (mem_idsOf_of_mem (List.mem_of_mem_drop hc) c.id_mem_ids)
    · obtain ⟨h1, h2, h3, h4⟩ := diffZip_facts bk a.children pairs (Unkeyed.children ha) (Unkeyed.children hb) hz op ho
      rw [a.ids_eq, Element.ids]
      exact ⟨h1, h2.imp (List.mem_cons_of_mem _) (List.mem_cons_of_mem _), fun v hv => List.mem_cons_of_mem _ (h3 v hv), fun v hv => List.mem_cons_of_mem _ (h4 v hv)⟩
    · obtain ⟨h1, h2, h3⟩ := createAll_facts _ _ op ho
      have : op.id ∈ Element.ids ⟨bi, bn, ba, bl, bk, bt, bkey⟩ := by
        rw [Element.ids]
        refine List.mem_cons_of_mem _ ?_
        rw [idsOf_take_drop bk a.children.length]
        exact List.mem_append_right _ h2
      refine ⟨h1, Or.inr this, ?_, fun v hv => absurd hv (h3 v)⟩
      intro v hv
      unfold tgt at hv
      split at hv
      · cases hv; exact this
      · cases hv; exact this
      · cases hv; exact this
      · rename_i hh; exact absurd hh (h3 _)
      · cases hv
    · rcases diffId_cases ho with rfl
      exact ⟨trivial, Or.inl a.id_mem_ids, fun v hv => by cases hv; exact hid, fun _ _ => a.id_mem_ids⟩
theorem diffZip_facts : ∀ (bs as : List Element) (ops : List Op), UnkeyedAll as → UnkeyedAll bs → diffZip as bs = some ops → ∀ op ∈ ops,
    Plain op ∧ (op.id ∈ idsOf as ∨ op.id ∈ idsOf bs) ∧ (∀ v, tgt op = some v → v ∈ idsOf bs) ∧ ∀ v, op.instruction = .setId v → op.id ∈ idsOf as
  | [], as, ops, _, _, h, op, ho => by rw [diffZip] at h; cases h; cases ho
  | b :: bs, [], ops, _, _, h, op, ho => by rw [diffZip] at h; cases h; cases ho
  | b :: bs, a :: as, ops, ha, hb, h, op, ho => by
    rw [UnkeyedAll] at ha hb
    rw [diffZip] at h
    cases h1 : diff a b with
    | none => simp only [h1] at h; cases h
    | some d =>
      simp only [h1] at h
      cases h2 : diffZip as bs with
      | none => simp only [h2] at h; cases h
      | some ds =>
        simp only [h2, Option.some.injEq] at h
        subst h
        rw [idsOf, idsOf]
        rcases List.mem_append.1 ho with ho | ho
        · obtain ⟨q1, q2, q3, q4⟩ := diff_facts b a d ha.1 hb.1 h1 op ho
          exact ⟨q1, q2.imp (List.mem_append_left _) (List.mem_append_left _), fun v hv => List.mem_append_left _ (q3 v hv), fun v hv => List.mem_append_left _ (q4 v hv)⟩
        · obtain ⟨q1, q2, q3, q4⟩ := diffZip_facts bs as ds ha.2 hb.2 h2 op ho
          exact ⟨q1, q2.imp (List.mem_append_right _) (List.mem_append_right _), fun v hv => List.mem_append_right _ (q3 v hv), fun v hv => List.mem_append_right _ (q4 v hv)⟩
end

theorem diffZip_cons {a b : Element} {as bs : List Element} {ops : List Op} (h : diffZip (a :: as) (b :: bs) = some ops) :
    ∃ d ds, diff a b = some d ∧ diffZip as bs = some ds ∧ ops = d ++ ds := by
  rw [diffZip] at h
  cases h1 : diff a b with
  | none => simp only [h1] at h; cases h
  | some d =>
    simp only [h1] at h
    cases h2 : diffZip as bs with
    | none => simp only [h2] at h; cases h
    | some ds =>
      simp only [h2, Option.some.injEq] at h
      exact ⟨d, ds, rfl, rfl, h.symm⟩

theorem crt_ids {b a : Element} {ops : List Op} (ha : a.Unkeyed) (hb : b.Unkeyed) (h : diff a b = some ops) : ∀ v ∈ ops.filterMap crt, v ∈ b.ids := by
  intro v hv
  obtain ⟨op, ho, hc⟩ := List.mem_filterMap.1 hv
  exact (diff_facts b a ops ha hb h op ho).2.2.1 v (tgt_of_crt hc)

theorem crtZip_ids {bs as : List Element} {ops : List Op} (ha : UnkeyedAll as) (hb : UnkeyedAll bs) (h : diffZip as bs = some ops) :
    ∀ v ∈ ops.filterMap crt, v ∈ idsOf (bs.take as.length) := by
  induction bs generalizing as ops with
  | nil => rw [diffZip] at h; cases h; intro v hv; cases hv
  | cons b bs ih =>
    cases as with
    | nil => rw [diffZip] at h; cases h; intro v hv; cases hv
    | cons a as =>
      rw [UnkeyedAll] at ha hb
      obtain ⟨d, ds, h1, h2, rfl⟩ := diffZip_cons h
      intro v hv
      rw [List.filterMap_append, List.mem_append] at hv
      rw [List.length_cons, List.take_succ_cons, idsOf]
      exact hv.elim (fun h => List.mem_append_left _ (crt_ids ha.1 hb.1 h1 v h)) (fun h => List.mem_append_right _ (ih ha.2 hb.2 h2 v h))

theorem nodup_append_of {l r : List Nat} (hl : l.Nodup) (hr : r.Nodup) (h : ∀ i ∈ l, i ∉ r) : (l ++ r).Nodup :=
  List.nodup_append.2 ⟨hl, hr, fun a ha b hb e => h a ha (e ▸ hb)⟩

mutual
/-- every id is created or given at most once -/
theorem diff_crt : ∀ (b a : Element) (ops : List Op), a.Unkeyed → b.Unkeyed → b.ids.Nodup → diff a b = some ops → (ops.filterMap crt).Nodup
  | ⟨bi, bn, ba, bl, bk, bt, bkey⟩, a, ops, ha, hb, hn, h => by
    obtain ⟨pairs, hz, rfl⟩ := diff_parts ha hb h
    have hn' := Element.nodup_children hn
    simp only at hn' hz ⊢
    have hdel : ((a.children.drop bk.length).map fun c => (⟨c.id, .deleteEl⟩ : Op)).filterMap crt = [] := filterMap_none (fun op ho => by
      obtain ⟨c, _, rfl⟩ := List.mem_map.1 ho; rfl)
    have hid : (a.diffId ⟨bi, bn, ba, bl, bk, bt, bkey⟩).filterMap crt = if a.id = bi then [] else [bi] := by
      unfold Element.diffId
      simp only
      split
      · rfl
      · rfl
    rw [List.filterMap_append, List.filterMap_append, List.filterMap_append, List.filterMap_append, filterMap_none (fun op ho => (own_soft ho).2.1), hdel,
      createAll_crt, hid, List.nil_append, List.nil_append]
    have hz2 := crtZip_ids (Unkeyed.children ha) (Unkeyed.children hb) hz
    have hn2 := hn'.1
    rw [idsOf_take_drop bk a.children.length, List.nodup_append] at hn2
    have hin : ∀ i ∈ pairs.filterMap crt ++ idsOf (bk.drop a.children.length), i ∈ idsOf bk := by
      intro i hi
      rw [idsOf_take_drop bk a.children.length]
      exact (List.mem_append.1 hi).elim (fun h => List.mem_append_left _ (hz2 i h)) (List.mem_append_right _)
    refine nodup_append_of (nodup_append_of (diffZip_crt bk a.children pairs (Unkeyed.children ha) (Unkeyed.children hb) hn'.1 hz) hn2.2.1
      (fun i hi hi' => hn2.2.2 i (hz2 i hi) i hi' rfl)) (by split <;> simp) ?_
    intro i hi hi'
    split at hi'
    · cases hi'
    · rcases List.mem_singleton.1 hi' with rfl
      exact hn'.2 (hin _ hi)
theorem diffZip_crt : ∀ (bs as : List Element) (ops : List Op), UnkeyedAll as → UnkeyedAll bs → (idsOf bs).Nodup → diffZip as bs = some ops →
    (ops.filterMap crt).Nodup
  | [], as, ops, _, _, _, h => by rw [diffZip] at h; cases h; exact List.nodup_nil
  | b :: bs, [], ops, _, _, _, h => by rw [diffZip] at h; cases h; exact List.nodup_nil
  | b :: bs, a :: as, ops, ha, hb, hn, h => by
    rw [UnkeyedAll] at ha hb
    rw [idsOf, List.nodup_append] at hn
    obtain ⟨d, ds, h1, h2, rfl⟩ := diffZip_cons h
    rw [List.filterMap_append]
    refine nodup_append_of (diff_crt b a d ha.1 hb.1 hn.1 h1) (diffZip_crt bs as ds ha.2 hb.2 hn.2.1 h2) ?_
    intro i hi hi'
    have := crtZip_ids ha.2 hb.2 h2 i hi'
    exact hn.2.2 i (crt_ids ha.1 hb.1 h1 i hi) i (by rw [idsOf_take_drop bs as.length]; exact List.mem_append_left _ this) rfl
end

mutual
theorem diff_struct (mk mk' : Nat → β) : ∀ (b a : Element) (ops : List Op), a.Unkeyed → b.Unkeyed → diff a b = some ops →
    ops.filterMap (structOp mk') = dif (mtr mk a) (mtr mk' b)
  | ⟨bi, bn, ba, bl, bk, bt, bkey⟩, a, ops, ha, hb, h => by
    obtain ⟨pairs, hz, rfl⟩ := diff_parts ha hb h
    simp only at hz ⊢
    have hl : (mtrAll mk' bk).length = bk.length := by rw [mtrAll_eq, List.length_map]
    have hl' : (mtrAll mk a.children).length = a.children.length := by rw [mtrAll_eq, List.length_map]
    have hdel : ((a.children.drop bk.length).map fun c => (⟨c.id, .deleteEl⟩ : Op)).filterMap (structOp mk') =
        ((mtr mk a).kids.drop (mtrAll mk' bk).length).map fun c => SOp.delete c.id := by
      rw [mtr_kids, hl, mtrAll_eq, ← List.map_drop, List.map_map]
      generalize a.children.drop bk.length = cs
      induction cs with
      | nil => rfl
      | cons c cs ih =>
        rw [List.map_cons, List.filterMap_cons, ih, List.map_cons]
        show SOp.delete c.id :: _ = SOp.delete ((mtr mk c).id) :: _
        rw [mtr_id]
    have hid : (a.diffId ⟨bi, bn, ba, bl, bk, bt, bkey⟩).filterMap (structOp mk') = if (mtr mk a).id = bi then [] else [.setId (mtr mk a).id bi] := by
      unfold Element.diffId
      simp only
      rw [mtr_id]
      split
      · rfl
      · rfl
    have hcr : makeAll a.id (mtrAll mk' (bk.drop a.children.length)) = makeAll (mtr mk a).id ((mtrAll mk' bk).drop (mtr mk a).kids.length) := by
      rw [mtr_id, mtr_kids, hl', mtrAll_eq, mtrAll_eq, List.map_drop]
    rw [List.filterMap_append, List.filterMap_append, List.filterMap_append, List.filterMap_append, filterMap_none (fun op ho => (own_soft ho).2.2 mk'), hdel,
      createAll_struct, hid, List.nil_append, diffZip_struct mk mk' bk a.children pairs (Unkeyed.children ha) (Unkeyed.children hb) hz, hcr, mtr, dif, mtr_kids]
theorem diffZip_struct (mk mk' : Nat → β) : ∀ (bs as : List Element) (ops : List Op), UnkeyedAll as → UnkeyedAll bs → diffZip as bs = some ops →
    ops.filterMap (structOp mk') = difZip (mtrAll mk as) (mtrAll mk' bs)
  | [], as, ops, _, _, h => by rw [diffZip] at h; cases h; rw [mtrAll, difZip]; rfl
  | b :: bs, [], ops, _, _, h => by rw [diffZip] at h; cases h; rw [mtrAll, mtrAll, difZip]; rfl
  | b :: bs, a :: as, ops, ha, hb, h => by
    rw [UnkeyedAll] at ha hb
    obtain ⟨d, ds, h1, h2, rfl⟩ := diffZip_cons h
    rw [List.filterMap_append, diff_struct mk mk' b a d ha.1 hb.1 h1, diffZip_struct mk mk' bs as ds ha.2 hb.2 h2, mtrAll, mtrAll, difZip]
end

/-! ## Where operations come from -/

mutual
theorem create_origin : ∀ (c : Element) (p : Nat) (op : Op), op ∈ createFromScratch (some p) c → ∃ K ∈ c.nodes, op.id = K.id ∧
    ((∃ p', op.instruction = .createTag K.name (some p')) ∨ (∃ k v, op.instruction = .setAttribute k v) ∨ (∃ v, op.instruction = .setText v) ∨
      (∃ l ∈ K.listeners, op.instruction = .attachListener l.listenerName l.jsEvent))
  | ⟨id, name, attributes, listeners, children, text, key⟩, p, op, ho => by
    rw [create_eq_fill] at ho
    rcases List.mem_cons.1 ho with rfl | ho
    · exact ⟨_, self_nodes _, rfl, Or.inl ⟨p, rfl⟩⟩
    · rcases fill_cases ho with ⟨h1, h2⟩ | h
      · exact ⟨_, self_nodes _, h1, Or.inr h2⟩
      · obtain ⟨K, h1, h2⟩ := createAll_origin children id op h
        exact ⟨K, by rw [Element.nodes]; exact List.mem_cons_of_mem _ h1, h2⟩
theorem createAll_origin : ∀ (cs : List Element) (p : Nat) (op : Op), op ∈ createAll (some p) cs → ∃ K ∈ nodesAll cs, op.id = K.id ∧
    ((∃ p', op.instruction = .createTag K.name (some p')) ∨ (∃ k v, op.instruction = .setAttribute k v) ∨ (∃ v, op.instruction = .setText v) ∨
      (∃ l ∈ K.listeners, op.instruction = .attachListener l.listenerName l.jsEvent))
  | [], p, op, ho => by rw [createAll] at ho; cases ho
  | c :: cs, p, op, ho => by
    rw [createAll] at ho
    rw [nodesAll]
    rcases List.mem_append.1 ho with h | h
    · obtain ⟨K, h1, h2⟩ := create_origin c p op h; exact ⟨K, List.mem_append_left _ h1, h2⟩
    · obtain ⟨K, h1, h2⟩ := createAll_origin cs p op h; exact ⟨K, List.mem_append_right _ h1, h2⟩
end

theorem mem_nodesAll {cs : List Element} {K : Element} (h : K ∈ nodesAll cs) : ∃ c ∈ cs, K ∈ c.nodes := by
  induction cs with
  | nil => cases h
  | cons c cs ih =>
    rw [nodesAll] at h
    rcases List.mem_append.1 h with h | h
    · exact ⟨c, List.mem_cons_self .., h⟩
    · obtain ⟨d, h1, h2⟩ := ih h; exact ⟨d, List.mem_cons_of_mem _ h1, h2⟩

mutual
theorem create_mem : ∀ (c : Element) (p : Nat) (K : Element), K ∈ c.nodes → ∃ p', (⟨K.id, .createTag K.name (some p')⟩ : Op) ∈ createFromScratch (some p) c
  | ⟨id, name, attributes, listeners, children, text, key⟩, p, K, h => by
    rw [Element.nodes] at h
    obtain ⟨fs, h1, _⟩ := fill_split ⟨id, name, attributes, listeners, children, text, key⟩
    rw [create_eq_fill, h1]
    rcases List.mem_cons.1 h with rfl | h
    · exact ⟨p, List.mem_cons_self ..⟩
    · obtain ⟨p', h2⟩ := createAll_mem children id K h
      exact ⟨p', List.mem_cons_of_mem _ (List.mem_append_right _ h2)⟩
theorem createAll_mem : ∀ (cs : List Element) (p : Nat) (K : Element), K ∈ nodesAll cs → ∃ p', (⟨K.id, .createTag K.name (some p')⟩ : Op) ∈ createAll (some p) cs
  | [], p, K, h => by rw [nodesAll] at h; cases h
  | c :: cs, p, K, h => by
    rw [nodesAll] at h
    rw [createAll]
    rcases List.mem_append.1 h with h | h
    · obtain ⟨p', h2⟩ := create_mem c p K h; exact ⟨p', List.mem_append_left _ h2⟩
    · obtain ⟨p', h2⟩ := createAll_mem cs p K h; exact ⟨p', List.mem_append_right _ h2⟩
end

/-- The operations that go to the new id. -/
def ToNew (op : Op) : Prop := (∃ n, op.instruction = .setTagName n) ∨ ∃ n o, op.instruction = .attachListener n o

mutual
theorem diff_origin : ∀ (b a : Element) (ops : List Op), a.Unkeyed → b.Unkeyed → diff a b = some ops → ∀ op ∈ ops, ToNew op →
    (∃ x y, Compared a b x y ∧ op ∈ ownOps x y) ∨ ∃ K, Created a b K ∧ op.id = K.id ∧ K.listeners ≠ [] ∧ ∃ n o, op.instruction = .attachListener n o
  | ⟨bi, bn, ba, bl, bk, bt, bkey⟩, a, ops, ha, hb, h, op, ho, ht => by
    obtain ⟨pairs, hz, rfl⟩ := diff_parts ha hb h
    simp only [List.mem_append] at ho
    rcases ho with (ho | (ho | ho) | ho) | ho
    · exact Or.inl ⟨_, _, .root, ho⟩
    · obtain ⟨c, hc, rfl⟩ := List.mem_map.1 ho
      rcases ht with ⟨n, h⟩ | ⟨n, o, h⟩ <;> cases h
    · obtain ⟨k, a', b', h1, h2, h3⟩ := diffZip_origin bk a.children pairs (Unkeyed.children ha) (Unkeyed.children hb) hz op ho ht
      have hc : Compared a ⟨bi, bn, ba, bl, bk, bt, bkey⟩ a' b' := .child k .root h1 h2
      rcases h3 with ⟨x, y, h4, h5⟩ | ⟨K, h4, h5⟩
      · exact Or.inl ⟨x, y, Compared.trans hc h4, h5⟩
      · exact Or.inr ⟨K, Created.of hc h4, h5⟩
    · obtain ⟨K, h1, h2, h3⟩ := createAll_origin _ _ op ho
      obtain ⟨c, h4, h5⟩ := mem_nodesAll h1
      refine Or.inr ⟨K, ⟨_, _, c, .root, h4, h5⟩, h2, ?_⟩
      rcases h3 with ⟨p, h⟩ | ⟨k, v, h⟩ | ⟨v, h⟩ | ⟨l, hl, h⟩
      · rcases ht with ⟨n, h'⟩ | ⟨n, o, h'⟩ <;> (rw [h] at h'; cases h')
      · rcases ht with ⟨n, h'⟩ | ⟨n, o, h'⟩ <;> (rw [h] at h'; cases h')
      · rcases ht with ⟨n, h'⟩ | ⟨n, o, h'⟩ <;> (rw [h] at h'; cases h')
      · exact ⟨List.ne_nil_of_mem hl, _, _, h⟩
    · rcases diffId_cases ho with rfl
      rcases ht with ⟨n, h⟩ | ⟨n, o, h⟩ <;> cases h
theorem diffZip_origin : ∀ (bs as : List Element) (ops : List Op), UnkeyedAll as → UnkeyedAll bs → diffZip as bs = some ops → ∀ op ∈ ops, ToNew op →
    ∃ (k : Nat) (a b : Element), as[k]? = some a ∧ bs[k]? = some b ∧ ((∃ x y, Compared a b x y ∧ op ∈ ownOps x y) ∨
      ∃ K, Created a b K ∧ op.id = K.id ∧ K.listeners ≠ [] ∧ ∃ n o, op.instruction = .attachListener n o)
  | [], as, ops, _, _, h, op, ho, _ => by rw [diffZip] at h; cases h; cases ho
  | b :: bs, [], ops, _, _, h, op, ho, _ => by rw [diffZip] at h; cases h; cases ho
  | b :: bs, a :: as, ops, ha, hb, h, op, ho, ht => by
    rw [UnkeyedAll] at ha hb
    obtain ⟨d, ds, h1, h2, rfl⟩ := diffZip_cons h
    rcases List.mem_append.1 ho with ho | ho
    · exact ⟨0, a, b, rfl, rfl, diff_origin b a d ha.1 hb.1 h1 op ho ht⟩
    · obtain ⟨k, a', b', h3, h4, h5⟩ := diffZip_origin bs as ds ha.2 hb.2 h2 op ho ht
      exact ⟨k + 1, a', b', h3, h4, h5⟩
end

/-! ## Where the operations about a pair are -/

theorem diffZip_split : ∀ (k : Nat) (us vs : List Element) (ops : List Op) (u v : Element), diffZip us vs = some ops → us[k]? = some u → vs[k]? = some v →
    ∃ Z1 D Z2, ops = Z1 ++ D ++ Z2 ∧ diff u v = some D ∧ diffZip (us.take k) (vs.take k) = some Z1 ∧ diffZip (us.drop (k + 1)) (vs.drop (k + 1)) = some Z2
  | k, [], vs, ops, u, v, _, h, _ => by simp at h
  | k, a :: us, [], ops, u, v, _, _, h => by simp at h
  | 0, a :: us, b :: vs, ops, u, v, h, h1, h2 => by
    obtain ⟨d, ds, h3, h4, rfl⟩ := diffZip_cons h
    simp only [List.getElem?_cons_zero, Option.some.injEq] at h1 h2
    subst h1; subst h2
    exact ⟨[], d, ds, rfl, h3, by simp [diffZip], by simpa using h4⟩
  | k + 1, a :: us, b :: vs, ops, u, v, h, h1, h2 => by
    obtain ⟨d, ds, h3, h4, rfl⟩ := diffZip_cons h
    simp only [List.getElem?_cons_succ] at h1 h2
    obtain ⟨Z1, D, Z2, h5, h6, h7, h8⟩ := diffZip_split k us vs ds u v h4 h1 h2
    refine ⟨d ++ Z1, D, Z2, by rw [h5]; simp, h6, ?_, by simpa using h8⟩
    rw [List.take_succ_cons, List.take_succ_cons, diffZip]
    simp only [h3, h7]

theorem split_child {u v u' v' : Element} (hu : u.Unkeyed) (hv : v.Unkeyed) (iu : u.ids.Pairwise (· < ·)) (iv : v.ids.Pairwise (· < ·)) {D : List Op}
    (h : diff u v = some D) {k : Nat} (hk : u.children[k]? = some u') (hk' : v.children[k]? = some v') :
    ∃ D1 D' D2, D = D1 ++ D' ++ D2 ∧ diff u' v' = some D' ∧
      (∀ op ∈ D1, (∀ w, tgt op = some w → w < v'.id) ∧ ∀ w, op.instruction = .setId w → op.id ∉ u'.ids) ∧
      (∀ op ∈ D2, (∀ w, tgt op = some w → w ∉ v'.ids) ∧ (op.id ∉ u'.ids ∨ op.id ∉ v'.ids)) := by
  obtain ⟨pairs, hz, rfl⟩ := diff_parts hu hv h
  obtain ⟨Z1, D', Z2, rfl, h2, h3, h4⟩ := diffZip_split k _ _ _ _ _ hz hk hk'
  have pu := pairwise_parts iu
  have pv := pairwise_parts iv
  have eu := congrArg idsOf (split_ids hk)
  have ev := congrArg idsOf (split_ids hk')
  rw [idsOf_append, idsOf] at eu ev
  have qu := pu.2
  have qv := pv.2
  rw [eu, List.pairwise_append, List.pairwise_append] at qu
  rw [ev, List.pairwise_append, List.pairwise_append] at qv
  have mu : ∀ i ∈ u'.ids, i ∈ idsOf u.children := child_ids (List.mem_of_getElem? hk)
  have mv : ∀ i ∈ v'.ids, i ∈ idsOf v.children := child_ids (List.mem_of_getElem? hk')
  have ku := Unkeyed.children hu
  have kv := Unkeyed.children hv
  refine ⟨ownOps u v ++ (u.children.drop v.children.length).map (fun c => ⟨c.id, .deleteEl⟩) ++ Z1, D',
    Z2 ++ createAll (some u.id) (v.children.drop u.children.length) ++ u.diffId v, by simp [List.append_assoc], h2, ?_, ?_⟩
  · intro op ho
    simp only [List.mem_append] at ho
    rcases ho with (ho | ho) | ho
    · have hlt : v.id < v'.id := pv.1 _ (mv _ v'.id_mem_ids)
      rcases own_cases ho with ⟨rfl, _⟩ | ⟨h5, h6⟩ | ⟨_, l, _, rfl⟩
      · exact ⟨fun w hw => by cases hw; exact hlt, fun w hw => nomatch hw⟩
      · refine ⟨fun w hw => ?_, fun w hw => ?_⟩
        · unfold tgt at hw
          rcases h6 with ⟨k, h⟩ | ⟨k, w, h⟩ | ⟨w, h⟩ | h | h <;> (rw [h] at hw; cases hw)
        · rcases h6 with ⟨k, h⟩ | ⟨k, w, h⟩ | ⟨w, h⟩ | h | h <;> (rw [h] at hw; cases hw)
      · exact ⟨fun w hw => by cases hw; exact hlt, fun w hw => nomatch hw⟩
    · obtain ⟨c, hc, rfl⟩ := List.mem_map.1 ho
      exact ⟨(fun w hw => nomatch hw), (fun w hw => nomatch hw)⟩
    · obtain ⟨q1, q2, q3, q4⟩ := diffZip_facts _ _ Z1 (unkeyedAll_take ku k).1 (unkeyedAll_take kv k).1 h3 op ho
      refine ⟨fun w hw => qv.2.2 w (q3 w hw) v'.id (List.mem_append_left _ v'.id_mem_ids), fun w hw hm => ?_⟩
      exact Nat.lt_irrefl _ (qu.2.2 op.id (q4 w hw) op.id (List.mem_append_left _ hm))
  · intro op ho
    simp only [List.mem_append] at ho
    rcases ho with (ho | ho) | ho
    · obtain ⟨q1, q2, q3, q4⟩ := diffZip_facts _ _ Z2 (unkeyedAll_take ku (k + 1)).2 (unkeyedAll_take kv (k + 1)).2 h4 op ho
      refine ⟨fun w hw hm => Nat.lt_irrefl _ (qv.2.1.2.2 w hm w (q3 w hw)), ?_⟩
      rcases q2 with q2 | q2
      · exact Or.inl fun hm => Nat.lt_irrefl _ (qu.2.1.2.2 _ hm _ q2)
      · exact Or.inr fun hm => Nat.lt_irrefl _ (qv.2.1.2.2 _ hm _ q2)
    · obtain ⟨q1, q2, q3⟩ := createAll_facts _ _ op ho
      have hnot : op.id ∉ v'.ids := by
        intro hm
        have hl : k < u.children.length := (List.getElem?_eq_some_iff.1 hk).1
        have hv2 := pv.2
        rw [idsOf_take_drop _ u.children.length, List.pairwise_append] at hv2
        refine Nat.lt_irrefl _ (hv2.2.2 op.id ?_ op.id q2)
        refine mem_idsOf_of_mem (c := v') ?_ hm
        refine List.mem_of_getElem? (i := k) ?_
        rw [List.getElem?_take, if_pos hl, hk']
      refine ⟨fun w hw => ?_, Or.inr hnot⟩
      unfold tgt at hw
      split at hw
      · cases hw; exact hnot
      · cases hw; exact hnot
      · cases hw; exact hnot
      · rename_i hh; exact absurd hh (q3 _)
      · cases hw
    · rcases diffId_cases ho with rfl
      refine ⟨fun w hw hm => ?_, Or.inl fun hm => ?_⟩
      · cases hw
        exact Nat.lt_irrefl _ (pv.1 _ (mv _ hm))
      · exact Nat.lt_irrefl _ (pu.1 _ (mu _ hm))

/-- The operations of a compared pair are together; what comes before concerns smaller new ids, what comes after other elements. -/
theorem diff_split {a b x y : Element} (hc : Compared a b x y) (ha : a.Unkeyed) (hb : b.Unkeyed) (ia : a.ids.Pairwise (· < ·))
    (ib : b.ids.Pairwise (· < ·)) {ops : List Op} (h : diff a b = some ops) :
    ∃ A D B, ops = A ++ D ++ B ∧ diff x y = some D ∧
      (∀ op ∈ A, (∀ w, tgt op = some w → w < y.id) ∧ ∀ w, op.instruction = .setId w → op.id ∉ x.ids) ∧
      (∀ op ∈ B, (∀ w, tgt op = some w → w ∉ y.ids) ∧ (op.id ∉ x.ids ∨ op.id ∉ y.ids)) := by
  induction hc with
  | root => exact ⟨[], ops, [], by simp, h, by simp, by simp⟩
  | child k hc h1 h2 ih =>
    rename_i x y x' y'
    obtain ⟨A, D, B, rfl, q1, q2, q3⟩ := ih
    obtain ⟨kx, ky⟩ := Compared.unkeyed hc ha hb
    obtain ⟨ix, iy⟩ := Compared.ids hc ia ib
    obtain ⟨D1, D', D2, rfl, r1, r2, r3⟩ := split_child kx ky ix iy q1 h1 h2
    have sx : ∀ i ∈ x'.ids, i ∈ x.ids := fun i hi => by rw [x.ids_eq]; exact List.mem_cons_of_mem _ (child_ids (List.mem_of_getElem? h1) i hi)
    have sy : ∀ i ∈ y'.ids, i ∈ y.ids := fun i hi => by rw [y.ids_eq]; exact List.mem_cons_of_mem _ (child_ids (List.mem_of_getElem? h2) i hi)
    have hlt : y.id < y'.id := (pairwise_parts iy).1 _ (child_ids (List.mem_of_getElem? h2) _ y'.id_mem_ids)
    refine ⟨A ++ D1, D', D2 ++ B, by simp [List.append_assoc], r1, ?_, ?_⟩
    · intro op ho
      rcases List.mem_append.1 ho with ho | ho
      · exact ⟨fun w hw => Nat.lt_trans ((q2 op ho).1 w hw) hlt, fun w hw hm => (q2 op ho).2 w hw (sx _ hm)⟩
      · exact r2 op ho
    · intro op ho
      rcases List.mem_append.1 ho with ho | ho
      · exact r3 op ho
      · exact ⟨fun w hw hm => (q3 op ho).1 w hw (sy _ hm), (q3 op ho).2.imp (fun h hm => h (sx _ hm)) (fun h hm => h (sy _ hm))⟩

/-- The operations of one pair, the renumbering last. -/
theorem diff_last {x y : Element} (hx : x.Unkeyed) (hy : y.Unkeyed) (ix : x.ids.Pairwise (· < ·)) (hne : x.id ≠ y.id) {D : List Op} (h : diff x y = some D) :
    ∃ D', D = D' ++ [⟨x.id, .setId y.id⟩] ∧ ∀ op ∈ D', ∀ w, op.instruction = .setId w → op.id ≠ x.id := by
  obtain ⟨pairs, hz, rfl⟩ := diff_parts hx hy h
  refine ⟨_, by unfold Element.diffId; rw [if_neg hne], ?_⟩
  intro op ho w hw
  simp only [List.mem_append] at ho
  rcases ho with ho | (ho | ho) | ho
  · have := (own_soft ho).2.2 (fun _ => ())
    unfold structOp at this
    rw [hw] at this
    cases this
  · obtain ⟨c, _, rfl⟩ := List.mem_map.1 ho
    cases hw
  · have := (diffZip_facts _ _ pairs (Unkeyed.children hx) (Unkeyed.children hy) hz op ho).2.2.2 w hw
    have := (pairwise_parts ix).1 _ this
    omega
  · exact absurd hw ((createAll_facts _ _ op ho).2.2 w)

theorem created_mem {x y K : Element} (hx : x.Unkeyed) (hy : y.Unkeyed) (ix : x.ids.Pairwise (· < ·)) (iy : y.ids.Pairwise (· < ·)) {D : List Op}
    (h : diff x y = some D) (hK : Created x y K) : ∃ p, (⟨K.id, .createTag K.name (some p)⟩ : Op) ∈ D := by
  obtain ⟨u, v, c, h1, h2, h3⟩ := hK
  obtain ⟨A, E, B, rfl, h4, _, _⟩ := diff_split h1 hx hy ix iy h
  obtain ⟨ku, kv⟩ := Compared.unkeyed h1 hx hy
  obtain ⟨pairs, hz, rfl⟩ := diff_parts ku kv h4
  have : K ∈ nodesAll (v.children.drop u.children.length) := by
    generalize v.children.drop u.children.length = cs at h2
    induction cs with
    | nil => cases h2
    | cons d cs ih =>
      rw [nodesAll]
      rcases List.mem_cons.1 h2 with rfl | h
      · exact List.mem_append_left _ h3
      · exact List.mem_append_right _ (ih h)
  obtain ⟨p, hp⟩ := createAll_mem _ u.id K this
  exact ⟨p, by simp [hp]⟩

end Puck.Shape
