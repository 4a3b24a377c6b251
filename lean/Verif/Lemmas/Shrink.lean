import Verif.Model.Frame
/-!
# A successful parse consumes part of the stream (termination of `Message::next`)
-/
namespace Puck

/-- Size of a stream: pending bytes plus pending events. -/
def Raw.size : Raw → Nat
  | [] => 0
  | .fail :: r => Raw.size r + 1
  | .data b :: r => b.length + 1 + Raw.size r

theorem Raw.read_size (cap : Nat) (r : Raw) : (Raw.read cap r).2.size ≤ r.size := by
  cases r with
  | nil => simp [Raw.read, Raw.size]
  | cons e r =>
    cases e with
    | fail => simp [Raw.read, Raw.size]
    | data b =>
      rw [Raw.read]
      by_cases h : b.length ≤ cap
      · simp [h, Raw.size]
      · simp [h, Raw.size]

theorem Raw.read_size_lt {cap : Nat} (hcap : 0 < cap) {r r' : Raw} {b : Bytes}
    (h : Raw.read cap r = (some b, r')) (hb : b ≠ []) : r'.size < r.size := by
  cases r with
  | nil => simp [Raw.read] at h; exact absurd h.1 hb
  | cons e r =>
    cases e with
    | fail => simp [Raw.read] at h
    | data c =>
      rw [Raw.read] at h
      split at h
      · simp at h; obtain ⟨rfl, rfl⟩ := h; simp [Raw.size]
      · simp at h; obtain ⟨rfl, rfl⟩ := h; simp [Raw.size]; omega

theorem Buf.read_size (cap n : Nat) (r : Buf) : (Buf.read cap n r).2.raw.size ≤ r.raw.size := by
  unfold Buf.read Buf.fillBuf
  have h1 := Raw.read_size n r.raw
  have h2 := Raw.read_size cap r.raw
  split
  · split <;> rename_i heq <;> rw [heq] at h1 <;> exact h1
  · by_cases hb : r.buf = []
    · simp only [hb, if_true]
      cases hr : Raw.read cap r.raw with
      | mk o raw =>
        rw [hr] at h2
        cases o <;> exact h2
    · simp [hb]

theorem Buf.readExactGo_size (cap : Nat) : ∀ (f n : Nat) (acc : Bytes) (r : Buf),
    (Buf.readExactGo cap f n acc r).2.raw.size ≤ r.raw.size := by
  intro f
  induction f with
  | zero => intro n acc r; cases n <;> simp [Buf.readExactGo]
  | succ f ih =>
    intro n acc r
    cases n with
    | zero => simp [Buf.readExactGo]
    | succ n =>
      have := Buf.read_size cap (n + 1) r
      rw [Buf.readExactGo]
      split
      · rename_i heq; rw [heq] at this; exact this
      · rename_i heq; rw [heq] at this
        split
        · exact this
        · exact Nat.le_trans (ih _ _ _) this

theorem Buf.takeToEndGo_size (cap : Nat) : ∀ (f n : Nat) (acc : Bytes) (r : Buf),
    (Buf.takeToEndGo cap f n acc r).2.raw.size ≤ r.raw.size := by
  intro f
  induction f with
  | zero => intro n acc r; cases n <;> simp [Buf.takeToEndGo]
  | succ f ih =>
    intro n acc r
    cases n with
    | zero => simp [Buf.takeToEndGo]
    | succ n =>
      have := Buf.read_size cap (n + 1) r
      rw [Buf.takeToEndGo]
      split
      · rename_i heq; rw [heq] at this; exact this
      · rename_i heq; rw [heq] at this
        split
        · exact this
        · exact Nat.le_trans (ih _ _ _) this

theorem readPayloadLength_size (second : UInt8) (r : Buf) :
    (readPayloadLength second r).2.raw.size ≤ r.raw.size := by
  unfold readPayloadLength Buf.readExact
  have h2 := Buf.readExactGo_size defaultCap 2 2 [] r
  have h8 := Buf.readExactGo_size defaultCap 8 8 [] r
  split
  · split <;> rename_i heq <;> rw [heq] at h2 <;> exact h2
  · split
    · split <;> rename_i heq <;> rw [heq] at h8 <;> exact h8
    · exact Nat.le_refl _

theorem readPayload_size (W : Nat) (fin : Bool) (L : Nat) (r : Buf) :
    (readPayload W fin L r).2.raw.size ≤ r.raw.size := by
  unfold readPayload
  have h1 := Buf.read_size defaultCap 4 r
  split
  · rename_i heq; rw [heq] at h1; exact h1
  · rename_i key r' heq
    rw [heq] at h1
    have h2 := Buf.takeToEndGo_size defaultCap L L [] r'
    simp only at h1 ⊢
    split
    · exact h1
    split
    · exact h1
    split
    · exact h1
    unfold Buf.takeToEnd
    split <;> rename_i heq2 <;> rw [heq2] at h2
    · exact Nat.le_trans h2 h1
    · repeat' split
      all_goals exact Nat.le_trans h2 h1

/-- `Frame::parse` returning a frame leaves a strictly smaller stream. -/
theorem parse_shrinks {W : Nat} {raw raw' : Raw} {f : Frame}
    (h : Frame.parse W raw = (.ok f, raw')) : raw'.size < raw.size := by
  unfold Frame.parse at h
  split at h
  · simp at h
  · rename_i first second r heq
    have h0 : r.raw.size < raw.size := by
      unfold Buf.read Buf.fillBuf at heq
      have hc : ¬ defaultCap ≤ 2 := by decide
      simp only [hc, and_false, if_false, if_true] at heq
      cases hr : Raw.read defaultCap raw with
      | mk o raw1 =>
        rw [hr] at heq
        cases o with
        | none => simp at heq
        | some b =>
          simp only [Prod.mk.injEq, Option.some.injEq] at heq
          obtain ⟨e1, e2⟩ := heq
          have hb : b ≠ [] := by rintro rfl; simp at e1
          have := Raw.read_size_lt (by decide) hr hb
          rw [← e2]; exact this
    have h1 := readPayloadLength_size second r
    simp only at h
    split at h
    · simp at h
    split at h
    · simp at h
    · rename_i L r2 heq2
      rw [heq2] at h1
      have h2 := readPayload_size W (first &&& 0x80 != 0) L r2
      split at h
      · simp at h
      split at h
      · split at h
        · rename_i heq3; rw [heq3] at h2
          simp at h; rw [← h.2]
          exact Nat.lt_of_le_of_lt (Nat.le_trans h2 h1) h0
        · simp at h
        · simp at h
      · simp at h; rw [← h.2]; exact Nat.lt_of_le_of_lt h1 h0
  · simp at h

end Puck
