import Verif.Lemmas.Io
import Verif.Spec.Stream
/-!
# Windows: what a reader will deliver, and where the network split it
-/
namespace Puck

/-- The reader will deliver exactly the bytes `tl`, error free, before reaching `rest`. -/
def Win (r : Buf) (tl : Bytes) (rest : Raw) : Prop :=
  ∃ es, r.raw = es ++ rest ∧ es.WF ∧ es.Clean ∧ r.buf ++ Raw.bytes es = tl

/-- Read boundaries relative to the reader's position. -/
def Buf.Bnd (r : Buf) (j : Nat) : Prop :=
  0 < j ∧ ∃ a c, r.raw = a ++ c ∧ r.buf.length + (Raw.bytes a).length = j

theorem Buf.bnd_new (raw : Raw) (j : Nat) : Buf.Bnd ⟨[], raw⟩ j ↔ raw.Boundary j := by
  simp [Buf.Bnd, Raw.Boundary]

/-- `r'` is `r` advanced by `m` bytes, as far as boundaries below `cap` are concerned. -/
def Shift (cap : Nat) (r r' : Buf) (m : Nat) : Prop :=
  ∀ j, m + j < cap → (r'.Bnd j ↔ (0 < j ∧ r.Bnd (m + j)))

theorem Shift.refl (cap : Nat) (r : Buf) : Shift cap r r 0 := by
  intro j _
  constructor
  · intro h; exact ⟨h.1, by simpa using h⟩
  · intro h; simpa using h.2

theorem Shift.trans {cap : Nat} {r r' r'' : Buf} {m m' : Nat} (h : Shift cap r r' m)
    (h' : Shift cap r' r'' m') : Shift cap r r'' (m + m') := by
  intro j hj
  rw [h' j (by omega)]
  constructor
  · rintro ⟨h1, h2⟩
    rw [h (m' + j) (by omega)] at h2
    exact ⟨h1, by simpa [Nat.add_assoc] using h2.2⟩
  · rintro ⟨h1, h2⟩
    refine ⟨h1, ?_⟩
    rw [h (m' + j) (by omega)]
    exact ⟨by omega, by simpa [Nat.add_assoc] using h2⟩

theorem drop_take_drop {α} {b : List α} {n cap : Nat} (h : n ≤ cap) :
    (b.take cap).drop n ++ b.drop cap = b.drop n := by
  have h1 : b.drop n = (b.take cap ++ b.drop cap).drop n := by rw [List.take_append_drop]
  rw [h1, List.drop_append]
  by_cases hl : n ≤ (b.take cap).length
  · rw [Nat.sub_eq_zero_of_le hl]; simp
  · rw [List.length_take] at hl
    have : b.drop cap = [] := List.drop_eq_nil_of_le (by omega)
    simp [this]

theorem Win.nonempty_raw {r : Buf} {tl : Bytes} {rest : Raw} (h : Win r tl rest) (hb : r.buf = [])
    (ht : tl ≠ []) : ∃ b es, r.raw = .data b :: (es ++ rest) ∧ b ≠ [] ∧ es.WF ∧ es.Clean ∧
      b ++ Raw.bytes es = tl := by
  obtain ⟨es, h1, h2, h3, h4⟩ := h
  cases es with
  | nil => rw [hb] at h4; exact absurd h4.symm ht
  | cons e es =>
    cases e with
    | fail => exact absurd List.mem_cons_self h3
    | data b =>
      exact ⟨b, es, h1, h2 b List.mem_cons_self, h2.tail, h3.tail, by simpa [hb, Raw.bytes] using h4⟩

/-- One buffered `read` of `n < cap` bytes: it returns `m ≤ n` bytes, fewer than `n` exactly when a
boundary (or the end of the window) is reached. -/
theorem Buf.read_win {cap n : Nat} {r : Buf} {tl : Bytes} {rest : Raw} (hn : 0 < n) (hnc : n < cap)
    (h : Win r tl rest) (ht : tl ≠ []) :
    ∃ b r', Buf.read cap n r = (some b, r') ∧ b ≠ [] ∧ b.length ≤ n ∧
      Win r' (tl.drop b.length) rest ∧ b = tl.take b.length ∧ Shift cap r r' b.length ∧
      (b.length < n → r.Bnd b.length) ∧ (∀ j, j < b.length → ¬ r.Bnd j) := by
  obtain ⟨buf, raw⟩ := r
  cases buf with
  | cons x xs =>
    obtain ⟨es, h1, h2, h3, h4⟩ := h
    simp only at h1 h4
    refine ⟨(x :: xs).take n, ⟨(x :: xs).drop n, raw⟩, ?_, take_ne_nil (by simp) hn, ?_, ?_, ?_, ?_, ?_, ?_⟩
    · simp [Buf.read, Buf.fillBuf]
    · rw [List.length_take]; omega
    · refine ⟨es, h1, h2, h3, ?_⟩
      show List.drop n (x :: xs) ++ _ = _
      rw [← h4, List.length_take, List.drop_append]
      by_cases hle : n ≤ (x :: xs).length
      · rw [Nat.min_eq_left hle, Nat.sub_eq_zero_of_le hle]; simp
      · rw [Nat.min_eq_right (by omega), List.drop_eq_nil_of_le (by omega : (x :: xs).length ≤ n)]; simp
    · rw [← h4, List.length_take, List.take_append]
      by_cases hle : n ≤ (x :: xs).length
      · rw [Nat.min_eq_left hle, Nat.sub_eq_zero_of_le hle]; simp
      · rw [Nat.min_eq_right (by omega), List.take_of_length_le (by omega : (x :: xs).length ≤ n)]; simp
    · intro j _
      simp only [Buf.Bnd, List.length_take, List.length_drop]
      constructor
      · rintro ⟨hj, a, c, e1, e2⟩
        exact ⟨hj, by omega, a, c, e1, by omega⟩
      · rintro ⟨hj, _, a, c, e1, e2⟩
        exact ⟨hj, a, c, e1, by omega⟩
    · intro hlt
      rw [List.length_take] at hlt ⊢
      exact ⟨by simp; omega, [], raw, rfl, by simp [Raw.bytes] at *; omega⟩
    · rintro j hj ⟨hj0, a, c, e1, e2⟩
      rw [List.length_take] at hj
      simp only at e2
      omega
  | nil =>
    obtain ⟨b, es, h1, hb, h2, h3, h4⟩ := h.nonempty_raw rfl ht
    simp only at h1
    subst h1
    have hbl := List.length_pos_iff.2 hb
    have hnot : ¬ cap ≤ n := by omega
    by_cases hl : b.length ≤ cap
    · refine ⟨b.take n, ⟨b.drop n, es ++ rest⟩, ?_, take_ne_nil hb hn, ?_, ?_, ?_, ?_, ?_, ?_⟩
      · simp [Buf.read, hnot, Buf.fillBuf, Raw.read, hl]
      · rw [List.length_take]; omega
      · refine ⟨es, rfl, h2, h3, ?_⟩
        show List.drop n b ++ _ = _
        rw [← h4, List.length_take, List.drop_append]
        by_cases hle : n ≤ b.length
        · rw [Nat.min_eq_left hle, Nat.sub_eq_zero_of_le hle]; simp
        · rw [Nat.min_eq_right (by omega), List.drop_eq_nil_of_le (by omega : b.length ≤ n)]; simp
      · rw [← h4, List.length_take, List.take_append]
        by_cases hle : n ≤ b.length
        · rw [Nat.min_eq_left hle, Nat.sub_eq_zero_of_le hle]; simp
        · rw [Nat.min_eq_right (by omega), List.take_of_length_le (by omega : b.length ≤ n)]; simp
      · intro j _
        simp only [Buf.Bnd, List.length_take, List.length_drop, List.length_nil]
        constructor
        · rintro ⟨hj, a, c, e1, e2⟩
          exact ⟨hj, by omega, .data b :: a, c, by simp [e1], by simp [Raw.bytes]; omega⟩
        · rintro ⟨hj, _, a, c, e1, e2⟩
          cases a with
          | nil => simp [Raw.bytes] at e2; omega
          | cons e a =>
            simp only [List.cons_append, List.cons.injEq] at e1
            obtain ⟨rfl, e1⟩ := e1
            exact ⟨hj, a, c, e1, by simp [Raw.bytes] at e2; omega⟩
      · intro hlt
        rw [List.length_take] at hlt ⊢
        exact ⟨by omega, [.data b], es ++ rest, rfl, by simp [Raw.bytes]; omega⟩
      · rintro j hj ⟨hj0, a, c, e1, e2⟩
        rw [List.length_take] at hj
        cases a with
        | nil => simp [Raw.bytes] at e2; omega
        | cons e a =>
          simp only [List.cons_append, List.cons.injEq] at e1
          obtain ⟨rfl, e1⟩ := e1
          simp [Raw.bytes] at e2; omega
    · have hlen : ((b.take cap).take n).length = n := by simp; omega
      refine ⟨(b.take cap).take n, ⟨(b.take cap).drop n, .data (b.drop cap) :: (es ++ rest)⟩,
        ?_, take_ne_nil (take_ne_nil hb (by omega)) hn, ?_, ?_, ?_, ?_, ?_, ?_⟩
      · simp [Buf.read, hnot, Buf.fillBuf, Raw.read, hl]
      · omega
      · refine ⟨.data (b.drop cap) :: es, rfl, Raw.WF.cons (drop_ne_nil (by omega)) h2, h3.cons, ?_⟩
        simp only [Raw.bytes, hlen]
        rw [← h4, List.drop_append, Nat.sub_eq_zero_of_le (by omega : n ≤ b.length), List.drop_zero,
          ← List.append_assoc]
        congr 1
        rw [drop_take_drop (by omega)]
      · rw [hlen, ← h4, List.take_take, Nat.min_eq_left (by omega), List.take_append,
          Nat.sub_eq_zero_of_le (by omega : n ≤ b.length)]; simp
      · intro j hj
        rw [hlen] at hj ⊢
        simp only [Buf.Bnd, List.length_drop, List.length_take, List.length_nil]
        constructor
        · rintro ⟨hj, a, c, e1, e2⟩
          cases a with
          | nil => simp [Raw.bytes] at e2; omega
          | cons e a =>
            simp only [List.cons_append, List.cons.injEq] at e1
            obtain ⟨rfl, e1⟩ := e1
            refine ⟨hj, by omega, .data b :: a, c, by simp [e1], ?_⟩
            simp [Raw.bytes] at e2 ⊢; omega
        · rintro ⟨hj, _, a, c, e1, e2⟩
          cases a with
          | nil => simp [Raw.bytes] at e2; omega
          | cons e a =>
            simp only [List.cons_append, List.cons.injEq] at e1
            obtain ⟨rfl, e1⟩ := e1
            refine ⟨hj, .data (b.drop cap) :: a, c, by simp [e1], ?_⟩
            simp [Raw.bytes] at e2 ⊢; omega
      · intro hlt; omega
      · rintro j hj ⟨hj0, a, c, e1, e2⟩
        rw [hlen] at hj
        cases a with
        | nil => simp [Raw.bytes] at e2; omega
        | cons e a =>
          simp only [List.cons_append, List.cons.injEq] at e1
          obtain ⟨rfl, e1⟩ := e1
          simp [Raw.bytes] at e2; omega

end Puck
