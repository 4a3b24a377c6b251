import Verif.Props.WebSocket
/-!
# Accounting for bytes: what a read gives is what the stream no longer has
-/
namespace Puck

/-- The bytes that are still to come. -/
def Buf.toCome (r : Buf) : Nat := r.buf.length + (Raw.bytes r.raw).length

theorem Raw.read_spent (cap : Nat) (r : Raw) : (Raw.bytes (r.read cap).2).length + ((r.read cap).1.getD []).length ≤ (Raw.bytes r).length := by
  cases r with
  | nil => simp [Raw.read, Raw.bytes]
  | cons e r =>
    cases e with
    | fail => simp [Raw.read, Raw.bytes]
    | data b =>
      simp only [Raw.read]
      split
      · simp [Raw.bytes]; omega
      · simp [Raw.bytes]; omega

theorem Buf.read_spent (cap n : Nat) (r : Buf) : (r.read cap n).2.toCome + ((r.read cap n).1.getD []).length ≤ r.toCome := by
  unfold Buf.read
  split
  · rename_i h
    have hr := Raw.read_spent n r.raw
    split
    · rename_i raw e; rw [e] at hr; simp [Buf.toCome] at hr ⊢; omega
    · rename_i b raw e; rw [e] at hr; simp [Buf.toCome] at hr ⊢; omega
  · unfold Buf.fillBuf
    by_cases h : r.buf = []
    · have hr := Raw.read_spent cap r.raw
      rw [if_pos h]
      cases e : Raw.read cap r.raw with
      | mk o raw =>
        rw [e] at hr
        cases o with
        | none => simp [Buf.toCome] at hr ⊢; omega
        | some b => simp [Buf.toCome] at hr ⊢; omega
    · rw [if_neg h]
      simp [Buf.toCome]; omega

theorem Buf.readExactGo_spent (cap : Nat) : ∀ (f n : Nat) (acc : Bytes) (r : Buf) (b : Bytes) (r' : Buf),
    Buf.readExactGo cap f n acc r = (some b, r') → r'.toCome + b.length ≤ r.toCome + acc.length := by
  intro f
  induction f with
  | zero => intro n acc r b r' h; cases n <;> simp [Buf.readExactGo] at h; obtain ⟨rfl, rfl⟩ := h; exact Nat.le_refl _
  | succ f ih =>
    intro n acc r b r' h
    cases n with
    | zero => simp [Buf.readExactGo] at h; obtain ⟨rfl, rfl⟩ := h; exact Nat.le_refl _
    | succ n =>
      have hr := Buf.read_spent cap (n + 1) r
      rw [Buf.readExactGo] at h
      cases e : r.read cap (n + 1) with
      | mk o r1 =>
        rw [e] at h hr
        cases o with
        | none => cases h
        | some c =>
          simp only at h hr
          split at h
          · cases h
          · have := ih _ _ _ _ _ h
            simp at this hr; omega

theorem Buf.read_length (cap n : Nat) (r : Buf) (b : Bytes) (r' : Buf) (h : r.read cap n = (some b, r')) : b.length ≤ n := by
  unfold Buf.read at h
  split at h
  · split at h
    · cases h
    · rename_i c raw e
      cases h
      cases hr : r.raw with
      | nil => rw [hr] at e; simp [Raw.read] at e; rw [e.1]; exact Nat.zero_le _
      | cons ev rs =>
        rw [hr] at e
        cases ev with
        | fail => simp [Raw.read] at e
        | data d =>
          simp only [Raw.read] at e
          split at e
          · cases e; assumption
          · cases e; simp; omega
  · split at h
    · cases h
    · cases h; rw [List.length_take]; omega

theorem Buf.readExactGo_length (cap : Nat) : ∀ (f n : Nat) (acc : Bytes) (r : Buf) (b : Bytes) (r' : Buf),
    Buf.readExactGo cap f n acc r = (some b, r') → b.length = acc.length + n := by
  intro f
  induction f with
  | zero => intro n acc r b r' h; cases n <;> simp [Buf.readExactGo] at h; obtain ⟨rfl, rfl⟩ := h; rfl
  | succ f ih =>
    intro n acc r b r' h
    cases n with
    | zero => simp [Buf.readExactGo] at h; obtain ⟨rfl, rfl⟩ := h; rfl
    | succ n =>
      rw [Buf.readExactGo] at h
      cases e : r.read cap (n + 1) with
      | mk o r1 =>
        rw [e] at h
        cases o with
        | none => cases h
        | some c =>
          have hl := Buf.read_length cap (n + 1) r c r1 e
          simp only at h
          split at h
          · cases h
          · have := ih _ _ _ _ _ h
            simp at this; omega

theorem Buf.takeToEndGo_spent (cap : Nat) : ∀ (f n : Nat) (acc : Bytes) (r : Buf) (b : Bytes) (r' : Buf),
    Buf.takeToEndGo cap f n acc r = (some b, r') → r'.toCome + b.length ≤ r.toCome + acc.length ∧ b.length ≤ acc.length + n := by
  intro f
  induction f with
  | zero => intro n acc r b r' h; cases n <;> simp [Buf.takeToEndGo] at h <;> obtain ⟨rfl, rfl⟩ := h <;> omega
  | succ f ih =>
    intro n acc r b r' h
    cases n with
    | zero => simp [Buf.takeToEndGo] at h; obtain ⟨rfl, rfl⟩ := h; omega
    | succ n =>
      have hr := Buf.read_spent cap (n + 1) r
      rw [Buf.takeToEndGo] at h
      cases e : r.read cap (n + 1) with
      | mk o r1 =>
        have hl := Buf.read_length cap (n + 1) r
        rw [e] at h hr
        cases o with
        | none => cases h
        | some c =>
          have hl := hl c r1 e
          simp only at h hr
          split at h
          · cases h; simp at hr; omega
          · have := ih _ _ _ _ _ h
            simp at this hr; omega

/-- What the payload length costs: the bytes of the length, and the most it can announce. -/
theorem readPayloadLength_spent {second : UInt8} {r r' : Buf} {L : Nat} (h : readPayloadLength second r = (some L, r')) :
    (L ≤ 125 ∧ r'.toCome ≤ r.toCome) ∨ (L ≤ 65535 ∧ r'.toCome + 2 ≤ r.toCome) ∨ r'.toCome + 8 ≤ r.toCome := by
  unfold readPayloadLength at h
  split at h
  · cases e : r.readExact defaultCap 2 with
    | mk o r1 =>
      rw [e] at h
      cases o with
      | none => cases h
      | some b =>
        cases h
        have h1 := Buf.readExactGo_spent _ _ _ _ _ _ _ e
        have h2 := Buf.readExactGo_length _ _ _ _ _ _ _ e
        have h3 := valueBE_lt b
        rw [← beNat_eq, h2] at h3
        simp at h1 h2 h3; omega
  · split at h
    · cases e : r.readExact defaultCap 8 with
      | mk o r1 =>
        rw [e] at h
        cases o with
        | none => cases h
        | some b =>
          cases h
          have h1 := Buf.readExactGo_spent _ _ _ _ _ _ _ e
          have h2 := Buf.readExactGo_length _ _ _ _ _ _ _ e
          simp at h1 h2; omega
    · cases h
      rename_i h1 h2
      refine Or.inl ⟨?_, Nat.le_refl _⟩
      revert h1 h2; revert second; apply u8_forall; decide +kernel

theorem Buf.read_mono (cap n : Nat) (r : Buf) : (r.read cap n).2.toCome ≤ r.toCome := by have := Buf.read_spent cap n r; omega

theorem Buf.readExactGo_mono (cap : Nat) : ∀ (f n : Nat) (acc : Bytes) (r : Buf), (Buf.readExactGo cap f n acc r).2.toCome ≤ r.toCome := by
  intro f
  induction f with
  | zero => intro n acc r; cases n <;> simp [Buf.readExactGo]
  | succ f ih =>
    intro n acc r
    cases n with
    | zero => simp [Buf.readExactGo]
    | succ n =>
      have hr := Buf.read_mono cap (n + 1) r
      rw [Buf.readExactGo]
      cases e : r.read cap (n + 1) with
      | mk o r1 =>
        rw [e] at hr
        cases o with
        | none => exact hr
        | some c =>
          simp only
          split
          · exact hr
          · exact Nat.le_trans (ih _ _ _) hr

theorem Buf.takeToEndGo_mono (cap : Nat) : ∀ (f n : Nat) (acc : Bytes) (r : Buf), (Buf.takeToEndGo cap f n acc r).2.toCome ≤ r.toCome := by
  intro f
  induction f with
  | zero => intro n acc r; cases n <;> simp [Buf.takeToEndGo]
  | succ f ih =>
    intro n acc r
    cases n with
    | zero => simp [Buf.takeToEndGo]
    | succ n =>
      have hr := Buf.read_mono cap (n + 1) r
      rw [Buf.takeToEndGo]
      cases e : r.read cap (n + 1) with
      | mk o r1 =>
        rw [e] at hr
        cases o with
        | none => exact hr
        | some c =>
          simp only
          split
          · exact hr
          · exact Nat.le_trans (ih _ _ _) hr

theorem readPayloadLength_mono (second : UInt8) (r : Buf) : (readPayloadLength second r).2.toCome ≤ r.toCome := by
  have h2 := Buf.readExactGo_mono defaultCap 2 2 [] r
  have h8 := Buf.readExactGo_mono defaultCap 8 8 [] r
  unfold readPayloadLength Buf.readExact
  split
  · cases e : Buf.readExactGo defaultCap 2 2 [] r with
    | mk o r1 => rw [e] at h2; cases o <;> exact h2
  · split
    · cases e : Buf.readExactGo defaultCap 8 8 [] r with
      | mk o r1 => rw [e] at h8; cases o <;> exact h8
    · exact Nat.le_refl _

theorem readPayload_mono (W : Nat) (fin : Bool) (L : Nat) (r : Buf) : (readPayload W fin L r).2.toCome ≤ r.toCome := by
  have h1 := Buf.read_mono defaultCap 4 r
  unfold readPayload
  cases e : r.read defaultCap 4 with
  | mk o r1 =>
    rw [e] at h1
    cases o with
    | none => exact h1
    | some key =>
      have h2 := Buf.takeToEndGo_mono defaultCap L L [] r1
      simp only
      split
      · exact h1
      · split
        · exact h1
        · split
          · exact h1
          · unfold Buf.takeToEnd
            cases e2 : Buf.takeToEndGo defaultCap L L [] r1 with
            | mk o2 r2 =>
              rw [e2] at h2
              have h3 := Nat.le_trans h2 h1
              cases o2 with
              | none => exact h3
              | some b =>
                simp only
                split
                · split <;> exact h3
                · exact h3

/-- The mask key and the payload cost four bytes more than what is decoded, which is no longer than announced. -/
theorem readPayload_spent {W : Nat} {fin : Bool} {L : Nat} {r r' : Buf} {d : Bytes} (h : readPayload W fin L r = (.ok d, r')) :
    r'.toCome + 4 + d.length ≤ r.toCome ∧ d.length ≤ L := by
  have h1 := Buf.read_spent defaultCap 4 r
  unfold readPayload at h
  cases e : r.read defaultCap 4 with
  | mk o r1 =>
    rw [e] at h1 h
    cases o with
    | none => cases h
    | some key =>
      simp only at h h1
      split at h
      · cases h
      · rename_i hk
        split at h
        · cases h
        · split at h
          · cases h
          · cases e2 : Buf.takeToEnd defaultCap L r1 with
            | mk o2 r2 =>
              rw [e2] at h
              cases o2 with
              | none => cases h
              | some b =>
                simp only at h
                have h2 := Buf.takeToEndGo_spent _ _ _ _ _ _ _ e2
                split at h
                · split at h <;> cases h
                · cases h
                  simp at h1 h2 hk ⊢
                  omega

/-- The least number of bytes a frame with a payload of so many bytes can have cost its sender. -/
def leastCost (n : Nat) : Nat := if n = 0 then 2 else if n ≤ 125 then n + 6 else if n ≤ 65535 then n + 8 else n + 14

theorem parse_mono (W : Nat) (raw : Raw) : (Raw.bytes (Frame.parse W raw).2).length ≤ (Raw.bytes raw).length := by
  have h1 := Buf.read_mono defaultCap 2 ⟨[], raw⟩
  have hb : (⟨[], raw⟩ : Buf).toCome = (Raw.bytes raw).length := by simp [Buf.toCome]
  rw [hb] at h1
  have hr : ∀ r : Buf, r.toCome ≤ (Raw.bytes raw).length → (Raw.bytes r.raw).length ≤ (Raw.bytes raw).length := fun r h => by unfold Buf.toCome at h; omega
  unfold Frame.parse
  split
  · rename_i r e; rw [e] at h1; exact hr _ h1
  · rename_i first second r e
    rw [e] at h1
    split
    · exact hr _ h1
    · have h2 := readPayloadLength_mono second r
      simp only
      split
      · rename_i r2 e2; rw [e2] at h2; exact hr _ (Nat.le_trans h2 h1)
      · rename_i L r2 e2
        rw [e2] at h2
        have h2 := Nat.le_trans h2 h1
        split
        · exact hr _ h2
        · split
          · have h3 := readPayload_mono W (first &&& 128 != 0) L r2
            split
            · rename_i d r3 e3; rw [e3] at h3; exact hr _ (Nat.le_trans h3 h2)
            · rename_i d r3 e3; rw [e3] at h3; exact hr _ (Nat.le_trans h3 h2)
            · rename_i r3 e3; rw [e3] at h3; exact hr _ (Nat.le_trans h3 h2)
          · exact hr _ h2
  · rename_i r _ e; rw [e] at h1; exact hr _ h1

theorem parse_spent {W : Nat} {raw raw' : Raw} {f : Frame} (h : Frame.parse W raw = (.ok f, raw')) :
    (Raw.bytes raw').length + leastCost f.decoded.length ≤ (Raw.bytes raw).length := by
  have h1 := Buf.read_spent defaultCap 2 ⟨[], raw⟩
  have hb : (⟨[], raw⟩ : Buf).toCome = (Raw.bytes raw).length := by simp [Buf.toCome]
  rw [hb] at h1
  unfold Frame.parse at h
  split at h
  · cases h
  · rename_i first second r e
    rw [e] at h1
    split at h
    · cases h
    · simp only at h
      split at h
      · cases h
      · rename_i L r2 e2
        have h2 := readPayloadLength_spent e2
        split at h
        · cases h
        · split at h
          · split at h
            · rename_i d r3 e3
              cases h
              have h3 := readPayload_spent e3
              simp only [Buf.toCome, leastCost] at h1 h2 h3 ⊢
              simp at h1
              split <;> (try split) <;> (try split) <;> omega
            · cases h
            · cases h
          · cases h
            simp only [Buf.toCome, leastCost] at h1 h2 ⊢
            simp at h1 ⊢
            omega
  · cases h

end Puck
