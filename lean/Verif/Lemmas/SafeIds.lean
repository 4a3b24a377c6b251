import Verif.Lemmas.DiffTree
/-!
# When positional updates are unambiguous
-/
namespace Puck

mutual
theorem obeys_none : ∀ e : Element, e.Obeys Rules.none
  | ⟨_, _, _, _, children, _, _⟩ => by
    rw [Element.Obeys]
    exact ⟨trivial, fun _ _ => trivial, fun _ _ => trivial, obeysAll_none children⟩
theorem obeysAll_none : ∀ es : List Element, ObeysAll Rules.none es
  | [] => by rw [ObeysAll]; trivial
  | e :: es => by rw [ObeysAll]; exact ⟨obeys_none e, obeysAll_none es⟩
end

theorem pairwise_parts {a : Element} (h : a.ids.Pairwise (· < ·)) :
    (∀ i ∈ idsOf a.children, a.id < i) ∧ (idsOf a.children).Pairwise (· < ·) := by
  rw [a.ids_eq, List.pairwise_cons] at h
  exact h

theorem nodup_of_increasing {l : List Nat} (h : l.Pairwise (· < ·)) : l.Nodup :=
  h.imp fun h => Nat.ne_of_lt h

theorem Aligned.parts {a b : Element} (h : Aligned a b) : a.id = b.id ∧ AlignedZip a.children b.children := by
  cases b; rw [Aligned] at h; exact h

variable {R : Rules}

theorem Gentle.parts {a b : Element} (h : Gentle a b) :
    (a.name = b.name ∨ (a.children = [] ∧ (a.listeners = [] ∨ a.listeners ≠ b.listeners) ∧ (a.text = none ∨ a.text = some ""))) ∧
    (a.text = b.text ∨ (a.children = [] ∧ b.text ≠ none) ∨ (a.text = some "" ∧ b.text = none)) ∧
    (a.listeners = b.listeners ∨ SilentAll a.children) ∧ GentleZip a.children b.children := by
  cases b; rw [Gentle] at h; exact h

mutual
/-- Same ids at the same positions, in document order. -/
theorem aligned_safe : ∀ (b a : Element) (before : List Nat), Aligned a b → a.ids.Pairwise (· < ·) → b.ids.Pairwise (· < ·) →
    (∀ i ∈ before, i < a.id) → (R.strict → Gentle a b) → Safe R before a b
  | ⟨bid, bname, battrs, blis, bch, btext, bkey⟩, a, before, h, ha, hb, hbef, hg => by
    have hg' := fun s => (hg s).parts
    simp only at hg'
    obtain ⟨h1, h2⟩ := h.parts
    simp only at h1 h2
    have ha' := pairwise_parts ha
    have hb' := pairwise_parts hb
    simp only at hb'
    rw [Safe]
    refine ⟨⟨fun hm => Nat.lt_irrefl _ (hbef _ hm), ?_, fun s => (hg' s).2.1, ?_,
      ?_, ?_⟩, ?_⟩
    · by_cases hn : a.name = bname
      · exact Or.inl hn
      · exact Or.inr ⟨h1, fun s => (hg' s).1.resolve_left hn⟩
    · by_cases hn : a.listeners = blis
      · exact Or.inl hn
      · exact Or.inr ⟨Or.inl h1, fun s => (hg' s).2.2.1.resolve_left hn⟩
    · intro c hc hm
      have hlt := ha'.1 c.id (mem_idsOf_of_mem (List.mem_of_mem_drop hc) c.id_mem_ids)
      rcases List.mem_cons.1 hm with h | h
      · omega
      · have := hbef _ h; omega
    · intro K hK hm
      exfalso
      have hlt := hb'.1 K.id (by rw [idsOf_take_drop bch a.children.length]; exact List.mem_append.2 (Or.inr (nodesAll_id hK)))
      rcases List.mem_cons.1 hm with h | h
      · omega
      · have := hbef _ h; omega
    · refine alignedZip_safe bch a.children _ h2 ha'.2 hb'.2 ?_ (fun s => (hg' s).2.2.2)
      intro i hi j hj
      have := hb'.1 j hj
      rcases List.mem_cons.1 hi with h | h
      · omega
      · have := hbef _ h; omega
theorem alignedZip_safe : ∀ (bs as : List Element) (before : List Nat), AlignedZip as bs → (idsOf as).Pairwise (· < ·) →
    (idsOf bs).Pairwise (· < ·) → (∀ i ∈ before, ∀ j ∈ idsOf bs, i < j) →
    (R.strict → GentleZip as bs) → SafeZip R before as bs
  | [], as, before, _, _, _, _, _ => by rw [SafeZip]; trivial
  | b :: bs, [], before, _, _, _, _, _ => by rw [SafeZip]; trivial
  | b :: bs, a :: as, before, h, ha, hb, hbef, hg => by
    have hg' : R.strict → Gentle a b ∧ GentleZip as bs := fun s => by have := hg s; rw [GentleZip] at this; exact this
    rw [AlignedZip] at h
    rw [idsOf, List.pairwise_append] at ha hb
    rw [SafeZip]
    refine ⟨aligned_safe b a before h.1 ha.1 hb.1 ?_ (fun s => (hg' s).1), alignedZip_safe bs as _ h.2 ha.2.1 hb.2.1 ?_ (fun s => (hg' s).2)⟩
    · intro i hi
      rw [h.1.parts.1]
      exact hbef i hi _ (by rw [idsOf]; exact List.mem_append.2 (Or.inl b.id_mem_ids))
    · intro i hi j hj
      rcases List.mem_append.1 hi with h | h
      · exact hbef i h j (by rw [idsOf]; exact List.mem_append.2 (Or.inr hj))
      · exact hb.2.2 i h j hj
end

theorem Shrinks.parts {a b : Element} (h : Shrinks a b) : b.id ≤ a.id ∧ (a.name = b.name ∨ a.id = b.id) ∧
    (a.listeners = b.listeners ∨ a.id = b.id ∨ b.listeners = []) ∧ ShrinksZip a.children b.children := by
  cases b; rw [Shrinks] at h; exact h

theorem shrinksZip_length : ∀ (bs as : List Element), ShrinksZip as bs → bs.length ≤ as.length
  | [], as, _ => by simp
  | b :: bs, [], h => by rw [ShrinksZip] at h; exact h.elim
  | b :: bs, a :: as, h => by
    rw [ShrinksZip] at h
    have := shrinksZip_length bs as h.2
    simp only [List.length_cons]; omega

mutual
theorem shrinks_ids : ∀ (b a : Element), Shrinks a b → ∀ i ∈ b.ids, ∃ j ∈ a.ids, i ≤ j
  | ⟨bid, bname, battrs, blis, bch, btext, bkey⟩, a, h, i, hi => by
    have hp := h.parts
    simp only at hp
    rw [Element.ids] at hi
    rcases List.mem_cons.1 hi with rfl | hi
    · exact ⟨a.id, a.id_mem_ids, hp.1⟩
    · obtain ⟨j, h1, h2⟩ := shrinksZip_ids bch a.children hp.2.2.2 i hi
      exact ⟨j, by rw [a.ids_eq]; exact List.mem_cons_of_mem _ h1, h2⟩
theorem shrinksZip_ids : ∀ (bs as : List Element), ShrinksZip as bs → ∀ i ∈ idsOf bs, ∃ j ∈ idsOf as, i ≤ j
  | [], as, _, i, hi => by rw [idsOf] at hi; cases hi
  | b :: bs, [], h, i, hi => by rw [ShrinksZip] at h; exact h.elim
  | b :: bs, a :: as, h, i, hi => by
    rw [ShrinksZip] at h
    rw [idsOf] at hi ⊢
    rcases List.mem_append.1 hi with hi | hi
    · obtain ⟨j, h1, h2⟩ := shrinks_ids b a h.1 i hi
      exact ⟨j, List.mem_append.2 (Or.inl h1), h2⟩
    · obtain ⟨j, h1, h2⟩ := shrinksZip_ids bs as h.2 i hi
      exact ⟨j, List.mem_append.2 (Or.inr h1), h2⟩
end

mutual
theorem shrinks_safe : ∀ (b a : Element) (before : List Nat), Shrinks a b → a.ids.Pairwise (· < ·) →
    (∀ i ∈ before, i < a.id) → Safe Rules.none before a b
  | ⟨bid, bname, battrs, blis, bch, btext, bkey⟩, a, before, h, ha, hbef => by
    obtain ⟨h1, h2, h3, h4⟩ := h.parts
    simp only at h1 h2 h3 h4
    have ha' := pairwise_parts ha
    have hlen := shrinksZip_length bch a.children h4
    rw [Safe]
    refine ⟨⟨fun hm => Nat.lt_irrefl _ (hbef _ hm), ?_, fun s => s.elim, ?_, ?_, ?_⟩, ?_⟩
    · rcases h2 with h | h
      · exact Or.inl h
      · exact Or.inr ⟨h, fun s => s.elim⟩
    · rcases h3 with h | h
      · exact Or.inl h
      · exact Or.inr ⟨h, fun s => s.elim⟩
    · intro c hc hm
      have hlt := ha'.1 c.id (mem_idsOf_of_mem (List.mem_of_mem_drop hc) c.id_mem_ids)
      rcases List.mem_cons.1 hm with h | h
      · omega
      · have := hbef _ h; omega
    · intro K hi
      rw [List.drop_eq_nil_of_le hlen, nodesAll] at hi
      cases hi
    · refine shrinksZip_safe bch a.children _ h4 ha'.2 ?_
      intro i hi j hj
      have := ha'.1 j hj
      rcases List.mem_cons.1 hi with h | h
      · omega
      · have := hbef _ h; omega
theorem shrinksZip_safe : ∀ (bs as : List Element) (before : List Nat), ShrinksZip as bs → (idsOf as).Pairwise (· < ·) →
    (∀ i ∈ before, ∀ j ∈ idsOf as, i < j) → SafeZip Rules.none before as bs
  | [], as, before, _, _, _ => by rw [SafeZip]; trivial
  | b :: bs, [], before, _, _, _ => by rw [SafeZip]; trivial
  | b :: bs, a :: as, before, h, ha, hbef => by
    rw [ShrinksZip] at h
    rw [idsOf, List.pairwise_append] at ha
    rw [SafeZip]
    refine ⟨shrinks_safe b a before h.1 ha.1 ?_, shrinksZip_safe bs as _ h.2 ha.2.1 ?_⟩
    · intro i hi
      exact hbef i hi _ (by rw [idsOf]; exact List.mem_append.2 (Or.inl a.id_mem_ids))
    · intro i hi j hj
      rcases List.mem_append.1 hi with h' | h'
      · exact hbef i h' j (by rw [idsOf]; exact List.mem_append.2 (Or.inr hj))
      · obtain ⟨k, h1, h2⟩ := shrinks_ids b a h.1 i h'
        have := ha.2.2 k h1 j hj
        omega
end

/-! ## Dense ids are determined by the shape -/

theorem range'_split {a b : List Nat} {g n : Nat} (h : a ++ b = List.range' g n) :
    a = List.range' g a.length ∧ b = List.range' (g + a.length) b.length := by
  have hl : a.length + b.length = n := by simpa using congrArg List.length h
  rw [← hl, ← List.range'_append_1] at h
  exact List.append_inj h (by simp)

theorem SameShape.parts {a b : Element} (h : SameShape a b) : SameShapeAll a.children b.children := by
  cases b; rw [SameShape] at h; exact h

mutual
theorem aligned_of_dense : ∀ (b a : Element) (g : Nat), SameShape a b → a.ids = List.range' g a.ids.length →
    b.ids = List.range' g b.ids.length → Aligned a b ∧ a.ids.length = b.ids.length
  | ⟨bid, bname, battrs, blis, bch, btext, bkey⟩, a, g, h, ha, hb => by
    have h' := h.parts
    simp only at h'
    rw [Element.ids] at hb ⊢
    rw [a.ids_eq] at ha ⊢
    rw [List.length_cons, List.range'_succ, List.cons.injEq] at ha hb
    obtain ⟨h1, h2⟩ := alignedZip_of_dense bch a.children (g + 1) h' ha.2 hb.2
    rw [Aligned]
    exact ⟨⟨ha.1.trans hb.1.symm, h1⟩, by simp [h2]⟩
theorem alignedZip_of_dense : ∀ (bs as : List Element) (g : Nat), SameShapeAll as bs → idsOf as = List.range' g (idsOf as).length →
    idsOf bs = List.range' g (idsOf bs).length → AlignedZip as bs ∧ (idsOf as).length = (idsOf bs).length
  | [], as, g, h, _, _ => by
    rw [SameShapeAll] at h
    subst h
    rw [AlignedZip]; exact ⟨trivial, rfl⟩
  | b :: bs, [], g, h, _, _ => by rw [SameShapeAll] at h; exact h.elim
  | b :: bs, a :: as, g, h, ha, hb => by
    rw [SameShapeAll] at h
    rw [idsOf] at ha hb
    have ha' := range'_split ha
    have hb' := range'_split hb
    obtain ⟨h1, h2⟩ := aligned_of_dense b a g h.1 ha'.1 hb'.1
    obtain ⟨h3, h4⟩ := alignedZip_of_dense bs as (g + a.ids.length) h.2 ha'.2 (by rw [h2]; exact hb'.2)
    rw [AlignedZip, idsOf, idsOf]
    exact ⟨⟨h1, h3⟩, by simp [h2, h4]⟩
end

end Puck
