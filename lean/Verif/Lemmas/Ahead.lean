import Verif.Lemmas.Head
/-!
# How far a `BufReader` has read ahead of the head it was asked for
-/
namespace Puck
open Http

/-- `r` has still to give `T`, with all of it but what is in its buffer in the blocks before `rest`; the last of those blocks is longer than
`lost` and fits the buffer (or nothing is lost). -/
structure Ahead (cap : Nat) (rest : Raw) (lost T : Bytes) (r : Buf) : Prop where
  ex : ∃ a : Raw, r.raw = a ++ rest ∧ a.Clean ∧ a.WF ∧ T = r.buf ++ Raw.bytes a ∧
    (a = [] ∨ ∃ a0 blk, a = a0 ++ [.data blk] ∧ lost.length < blk.length ∧ (blk.length ≤ cap ∨ lost = []))

theorem Ahead.fill {cap : Nat} (hc : 0 < cap) {rest : Raw} {lost T : Bytes} {r : Buf} (h : Ahead cap rest lost T r) (hT : T ≠ []) :
    ∃ r1 : Buf, r.fillBuf cap = (some r1.buf, r1) ∧ r1.buf ≠ [] ∧ Ahead cap rest lost T r1 := by
  obtain ⟨a, h1, h2, h3, h4, h5⟩ := h
  by_cases hb : r.buf = []
  · cases a with
    | nil => rw [hb] at h4; exact absurd h4 hT
    | cons e a1 =>
      cases e with
      | fail => exact absurd List.mem_cons_self h2
      | data blk =>
        have hblk : blk ≠ [] := h3 blk List.mem_cons_self
        by_cases hl : blk.length ≤ cap
        · refine ⟨⟨blk, a1 ++ rest⟩, ?_, hblk, ⟨a1, rfl, h2.tail, h3.tail, by rw [h4, hb]; rfl, ?_⟩⟩
          · simp [Buf.fillBuf, hb, h1, Raw.read, hl]
          · rcases h5 with h5 | ⟨a0, bl, h5, h6, h7⟩
            · simp at h5
            · cases a0 with
              | nil => simp at h5; exact Or.inl h5.2
              | cons e0 a0 =>
                simp only [List.cons_append, List.cons.injEq] at h5
                exact Or.inr ⟨a0, bl, h5.2, h6, h7⟩
        · have hd : blk.drop cap ≠ [] := drop_ne_nil (by omega)
          refine ⟨⟨blk.take cap, .data (blk.drop cap) :: a1 ++ rest⟩, ?_, take_ne_nil hblk hc,
            ⟨.data (blk.drop cap) :: a1, rfl, h2.tail.cons, h3.tail.cons hd, ?_, Or.inr ?_⟩⟩
          · simp [Buf.fillBuf, hb, h1, Raw.read, hl]
          · rw [h4, hb]
            simp only [Raw.bytes, List.nil_append]
            rw [← List.append_assoc, List.take_append_drop]
          · rcases h5 with h5 | ⟨a0, bl, h5, h6, h7⟩
            · simp at h5
            · cases a0 with
              | nil =>
                simp only [List.nil_append, List.cons.injEq, Ev.data.injEq] at h5
                obtain ⟨rfl, rfl⟩ := h5
                have hlo : lost = [] := h7.resolve_left hl
                subst hlo
                exact ⟨[], blk.drop cap, rfl, List.length_pos_iff.2 hd, Or.inr rfl⟩
              | cons e0 a0 =>
                simp only [List.cons_append, List.cons.injEq] at h5
                exact ⟨.data (blk.drop cap) :: a0, bl, by rw [h5.2]; rfl, h6, h7⟩
  · exact ⟨r, by simp [Buf.fillBuf, hb], hb, ⟨a, h1, h2, h3, h4, h5⟩⟩

theorem Ahead.take {cap : Nat} {rest : Raw} {lost T : Bytes} {r : Buf} (h : Ahead cap rest lost T r) {x y : Bytes} (hb : r.buf = x ++ y) :
    ∃ T', T = x ++ T' ∧ Ahead cap rest lost T' ⟨y, r.raw⟩ := by
  obtain ⟨a, h1, h2, h3, h4, h5⟩ := h
  exact ⟨y ++ Raw.bytes a, by rw [h4, hb, List.append_assoc], ⟨a, h1, h2, h3, rfl, h5⟩⟩

theorem Ahead.untilStep {cap : Nat} (hc : 0 < cap) {rest : Raw} {lost T : Bytes} {r : Buf} (h : Ahead cap rest lost T r) (hT : T ≠ [])
    (d : UInt8) : ∃ x f r' T', r.untilStep cap d = (some (x, f), r') ∧ x ≠ [] ∧ T = x ++ T' ∧ Ahead cap rest lost T' r' ∧
      (f = true → ∃ y, x = y ++ [d] ∧ d ∉ y) ∧ (f = false → d ∉ x) := by
  obtain ⟨r1, h1, h2, h3⟩ := h.fill hc hT
  unfold Buf.untilStep
  rw [h1]
  simp only
  cases hi : r1.buf.findIdx? (· == d) with
  | none =>
    obtain ⟨T', h4, h5⟩ := h3.take (x := r1.buf) (y := []) (by simp)
    refine ⟨_, _, _, T', rfl, h2, h4, h5, by simp, fun _ hd => ?_⟩
    rw [List.findIdx?_eq_none_iff] at hi
    have := hi d hd
    simp at this
  | some i =>
    obtain ⟨T', h4, h5⟩ := h3.take (x := r1.buf.take (i + 1)) (y := r1.buf.drop (i + 1)) (List.take_append_drop _ _).symm
    rw [List.findIdx?_eq_some_iff_getElem] at hi
    obtain ⟨hlt, hp, hq⟩ := hi
    refine ⟨_, _, _, T', rfl, take_ne_nil h2 (by omega), h4, h5, fun _ => ⟨r1.buf.take i, ?_, ?_⟩, by simp⟩
    · rw [List.take_add_one, List.getElem?_eq_getElem hlt]
      simp at hp
      simp [hp]
    · intro hd
      rw [List.mem_take_iff_getElem] at hd
      obtain ⟨j, hj, hjd⟩ := hd
      have := hq j (by omega)
      simp [hjd] at this

theorem Ahead.readUntil {cap : Nat} (hc : 0 < cap) {rest : Raw} {lost : Bytes} {d : UInt8} {acc : Bytes} {r : Buf} {T : Bytes}
    (h : Ahead cap rest lost T r) (hd : d ∈ T) :
    ∃ y r' T', r.readUntil cap d acc = (some (acc ++ (y ++ [d])), r') ∧ d ∉ y ∧ T = (y ++ [d]) ++ T' ∧ Ahead cap rest lost T' r' := by
  have hT : T ≠ [] := by rintro rfl; simp at hd
  fun_induction Buf.readUntil cap d acc r generalizing T with
  | case1 acc r r1 hs =>
    obtain ⟨x, f, r', T', h1, _⟩ := h.untilStep hc hT d
    rw [hs] at h1; simp at h1
  | case2 acc r f r1 hs =>
    obtain ⟨x, f, r', T', h1, h2, _⟩ := h.untilStep hc hT d
    rw [hs] at h1; simp at h1
    exact absurd h1.1.1.symm (by simpa using h2)
  | case3 acc r x r1 hx hs =>
    obtain ⟨x, f, r', T', h1, h2, h3, h4, h5, _⟩ := h.untilStep hc hT d
    rw [hs] at h1
    simp only [Prod.mk.injEq, Option.some.injEq] at h1
    obtain ⟨⟨rfl, rfl⟩, rfl⟩ := h1
    obtain ⟨y, rfl, hy⟩ := h5 rfl
    exact ⟨y, r1, T', rfl, hy, h3, h4⟩
  | case4 acc r x f r1 hs hx hf ih =>
    obtain ⟨x, f, r', T', h1, h2, h3, h4, _, h6⟩ := h.untilStep hc hT d
    rw [hs] at h1
    simp only [Prod.mk.injEq, Option.some.injEq] at h1
    obtain ⟨⟨rfl, rfl⟩, rfl⟩ := h1
    have hnx := h6 (by simpa using hf)
    have hd' : d ∈ T' := by
      rw [h3, List.mem_append] at hd
      exact hd.resolve_left hnx
    obtain ⟨y, r2, T2, k1, k2, k3, k4⟩ := ih h4 hd' (by rintro rfl; simp at hd')
    refine ⟨x ++ y, r2, T2, by rw [k1]; simp, ?_, by rw [h3, k3]; simp, k4⟩
    rw [List.mem_append]
    rintro (h | h)
    · exact hnx h
    · exact k2 h

/-- The head of a request is read up to its blank line and no block after the one that contains its end is taken. -/
theorem Ahead.head {cap : Nat} (hc : 0 < cap) {rest : Raw} {lost head : Bytes} {acc : Bytes} {r : Buf} {T : Bytes}
    (h : Ahead cap rest lost T r) (hT : acc ++ T = head ++ lost) (hlt : acc.length < head.length) (hbl : blank <:+ head)
    {r' : Buf} (hl : headLoop cap acc r = (some (some head), r')) : Ahead cap rest lost lost r' := by
  have hz : ∀ acc T : Bytes, acc ++ T = head ++ lost → acc.length < head.length →
      ∃ z, head = acc ++ z ∧ T = z ++ lost ∧ ∃ w, z = w ++ [10] := by
    intro acc T hT hlt
    have hp : acc <+: head := List.prefix_of_prefix_length_le ⟨T, rfl⟩ ⟨lost, hT.symm⟩ (by omega)
    obtain ⟨z, hz⟩ := hp
    refine ⟨z, hz.symm, ?_, ?_⟩
    · rw [← hz, List.append_assoc] at hT
      exact List.append_cancel_left hT
    · have hne : z ≠ [] := by rintro rfl; rw [List.append_nil] at hz; rw [hz] at hlt; omega
      obtain ⟨p, hp⟩ := hbl
      have h10 : (acc ++ z).getLast? = some 10 := by rw [hz, ← hp]; simp [blank]
      rw [List.getLast?_append] at h10
      cases hg : z.getLast? with
      | none => exact absurd (List.getLast?_eq_none_iff.1 hg) hne
      | some v =>
        rw [hg] at h10
        simp at h10
        subst h10
        obtain ⟨w, hw⟩ := List.getLast?_eq_some_iff.1 hg
        exact ⟨w, hw⟩
  fun_induction headLoop cap acc r generalizing T with
  | case1 acc r r1 hs =>
    simp at hl
  | case2 acc r r1 hs =>
    simp at hl
  | case3 acc r b r1 hs hb he =>
    obtain ⟨z, z1, z2, w, z3⟩ := hz acc T hT hlt
    obtain ⟨y, r2, T', k1, k2, k3, k4⟩ := h.readUntil (acc := []) hc (d := 10) (by rw [z2, z3]; simp)
    rw [hs] at k1
    simp only [Prod.mk.injEq, Option.some.injEq, List.nil_append] at k1 hl
    obtain ⟨rfl, rfl⟩ := k1
    obtain ⟨h5, rfl⟩ := hl
    have : T' = lost := by
      rw [k3, ← h5, ← List.append_assoc acc] at hT
      exact List.append_cancel_left hT
    rw [this] at k4
    exact k4
  | case4 acc r b r1 hs hb he ih =>
    obtain ⟨z, z1, z2, w, z3⟩ := hz acc T hT hlt
    obtain ⟨y, r2, T', k1, k2, k3, k4⟩ := h.readUntil (acc := []) hc (d := 10) (by rw [z2, z3]; simp)
    rw [hs] at k1
    simp only [Prod.mk.injEq, Option.some.injEq, List.nil_append] at k1
    obtain ⟨rfl, rfl⟩ := k1
    refine ih k4 (by rw [← hT, k3]; simp) ?_ hl
    have hxz : y ++ [10] <+: z := by
      refine List.prefix_of_prefix_length_le ⟨T', k3.symm⟩ ⟨lost, z2.symm⟩ ?_
      apply Nat.le_of_not_lt
      intro hlt2
      have hwy : w ++ [10] <+: y := by
        refine List.prefix_of_prefix_length_le (l₃ := T) ⟨lost, by rw [z2, z3]⟩ ⟨[10] ++ T', by rw [k3]; simp⟩ ?_
        rw [z3] at hlt2
        simp only [List.length_append, List.length_singleton] at hlt2 ⊢
        omega
      obtain ⟨v, hv⟩ := hwy
      exact k2 (by rw [← hv]; simp)
    obtain ⟨v, hv⟩ := hxz
    rw [z1, ← hv]
    by_cases hvn : v = []
    · subst hvn
      rw [List.append_nil] at hv
      exact absurd ((endsBlank_iff _).2 (by rw [hv, ← z1]; exact hbl)) he
    · have := List.length_pos_iff.2 hvn
      simp only [List.length_append, List.length_singleton]
      omega

/-- In the end exactly `lost` is in the buffer. -/
theorem Ahead.done {cap : Nat} {rest : Raw} {lost : Bytes} {r : Buf} (h : Ahead cap rest lost lost r) : r.raw = rest ∧ r.buf = lost := by
  obtain ⟨a, h1, h2, h3, h4, h5⟩ := h
  rcases h5 with rfl | ⟨a0, blk, rfl, h6, _⟩
  · exact ⟨h1, by simpa [Raw.bytes] using h4.symm⟩
  · exfalso
    have := congrArg List.length h4
    simp [Raw.bytes] at this
    omega

end Puck
