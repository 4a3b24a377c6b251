import Verif.Lemmas.Codec
/-!
# `Frame::parse` on a complete frame followed by anything
-/
namespace Puck
open Rfc6455

/-- A read of `n < cap` bytes without a boundary inside returns all `n` bytes. -/
theorem Buf.read_full {cap n : Nat} {r : Buf} {tl : Bytes} {rest : Raw} (hn : 0 < n) (hnc : n < cap)
    (h : Win r tl rest) (hl : n ≤ tl.length) (hB : ∀ j, 0 < j → j < n → ¬ r.Bnd j) :
    ∃ r', Buf.read cap n r = (some (tl.take n), r') ∧ Win r' (tl.drop n) rest ∧ Shift cap r r' n := by
  have ht : tl ≠ [] := by rintro rfl; simp at hl; omega
  obtain ⟨b, r', h1, h2, h3, h4, h5, h6, h7, _⟩ := Buf.read_win hn hnc h ht
  have hbl := List.length_pos_iff.2 h2
  have hb : b.length = n := by
    apply Nat.le_antisymm h3
    apply Nat.le_of_not_lt
    intro hlt
    exact hB _ hbl hlt (h7 hlt)
  rw [hb] at h4 h5 h6
  exact ⟨r', by rw [h1, h5], h4, h6⟩

theorem parse_ok_win {W : Nat} {raw rest : Raw} {a b c d : Bool} {n : Nat} {m : Bool}
    {form : Form} {L : Nat} {x : Bytes} (hn : n < 16) (hc : form.Carries L)
    (hw : Win ⟨[], raw⟩ (headBytes a b c d n m form L ++ x) rest) (hB : ¬ raw.Boundary 1) :
    (L = 0 → ∃ r, Frame.parse W raw = (.ok ⟨a, b, c, d, opOf n, []⟩, r.raw) ∧ Win r x rest) ∧
    (0 < L → m = true → raw.Unsplit (headBytes a b c d n m form L).length → L ≤ isizeMax W →
      4 + L ≤ x.length →
      ∃ r, Frame.parse W raw =
        (.ok ⟨a, b, c, d, opOf n, unmask (x.take 4) ((x.drop 4).take L)⟩, r.raw) ∧
        Win r (x.drop (4 + L)) rest) := by
  obtain ⟨b1, ext, h1, h2, h3⟩ := lenOf_headBytes (a := a) (b := b) (c := c) (d := d) (n := n) (m := m) hc
  have hh : (headBytes a b c d n m form L).length = 2 + ext.length := by rw [h1]; simp; omega
  rw [hh]
  rw [h1] at hw
  have hBn : ∀ j, Buf.Bnd ⟨[], raw⟩ j ↔ raw.Boundary j := Buf.bnd_new raw
  obtain ⟨r1, g1, g2, g3⟩ := Buf.read_full (cap := defaultCap) (n := 2) (by decide) (by decide) hw
    (by simp) (by intro j h1 h2; obtain rfl : j = 1 := by omega
                  rw [hBn]; exact hB)
  simp only [List.cons_append, List.take_succ_cons, List.take_zero, List.drop_succ_cons,
    List.drop_zero] at g1 g2
  obtain ⟨r2, f1, f2, f3⟩ := readPayloadLength_win g2 (h2 x)
  rw [List.drop_left] at f2
  have hsh := g3.trans f3
  have hk := lenOf_k (h2 x)
  have hcap : defaultCap = 8192 := rfl
  obtain ⟨e1, e2, e3, e4, e5⟩ := firstByte_bits a b c d hn
  unfold Frame.parse
  simp only [g1, opCodeOfNibble_eq, f1, bit7, bit6, bit5, bit4, e1, e2, e3, e4, e5, masked_eq b1]
  constructor
  · intro hL
    refine ⟨r2, by simp [hL], f2⟩
  · intro hL hm hu hp hl
    have hnm : ¬ b1.toNat < 128 := by rw [h3]; simp [hm]
    obtain ⟨_, u1, u2, u3⟩ := hu
    obtain ⟨r3, k1, k2, k3⟩ := Buf.read_full (cap := defaultCap) (n := 4) (by decide) (by decide) f2
      (by omega) (by
        intro j hj1 hj2 hb
        rw [hsh j (by omega), hBn] at hb
        rcases (by omega : j = 1 ∨ j = 2 ∨ j = 3) with rfl | rfl | rfl
        · exact u1 hb.2
        · exact u2 hb.2
        · exact u3 hb.2)
    obtain ⟨r4, l1, l2⟩ := Buf.takeToEnd_win (cap := defaultCap) (n := L) (by decide) k2
      (by rw [List.length_drop]; omega)
    have hmod : L % 2 ^ W = L := Nat.mod_eq_of_lt (Nat.lt_of_le_of_lt hp (isizeMax_lt W))
    refine ⟨r4, ?_, by simpa [List.drop_drop] using l2⟩
    have hkl : (x.take 4).length = 4 := by rw [List.length_take]; omega
    have hel : ((x.drop 4).take L).length = L := by simp; omega
    have hL0 : L ≠ 0 := by omega
    have hpl : ¬ L > isizeMax W := by omega
    have hmin : ∀ y, ¬ isizeMax W < min L y := fun y => by omega
    simp only [readPayload, k1, hkl, hmod, l1, hel, hpl, hmin, hL, hnm, gt_iff_lt, decide_true,
      decide_false, Bool.not_false, Bool.not_true, Bool.and_false, ne_eq, not_true_eq_false, if_true,
      if_false, Bool.false_eq_true]

/-- A complete, unsplit client frame with a payload is parsed, whatever follows. -/
theorem parse_client_win {W : Nat} {raw rest : Raw} {f : ClientFrame} {x : Bytes} (hv : f.Valid)
    (hne : f.payload ≠ []) (hw : Win ⟨[], raw⟩ (f.encode ++ x) rest)
    (hu : raw.Unsplit f.head.length) (hm : f.payload.length ≤ isizeMax W) :
    ∃ r, Frame.parse W raw = (.ok (frameOf f), r.raw) ∧ Win r x rest := by
  have hw' : Win ⟨[], raw⟩ (f.head ++ (f.key.bytes ++ (mask f.key f.payload ++ x))) rest := by
    simpa [ClientFrame.encode] using hw
  obtain ⟨r, h1, h2⟩ := (parse_ok_win (W := W) hv.1 hv.2 hw' hu.1).2 (List.length_pos_iff.2 hne) rfl hu hm
    (by simp)
  refine ⟨r, ?_, ?_⟩
  · rw [h1]
    have e1 : (f.key.bytes ++ (mask f.key f.payload ++ x)).take 4 = f.key.bytes := by
      exact List.take_left' rfl
    have e2 : ((f.key.bytes ++ (mask f.key f.payload ++ x)).drop 4).take f.payload.length =
        mask f.key f.payload := by
      rw [List.drop_left' (i := 4) (Key.length_bytes f.key)]; exact List.take_left' (by simp)
    rw [e1, e2, unmask_eq, mask_mask]
    rfl
  · have e : (f.key.bytes ++ (mask f.key f.payload ++ x)).drop (4 + f.payload.length) = x := by
      rw [← List.drop_drop, List.drop_left' (i := 4) (Key.length_bytes f.key)]
      exact List.drop_left' (by simp)
    rwa [e] at h2

/-! ### An exhausted raw stream stays exhausted -/

theorem Buf.read_raw_nil (cap n : Nat) (r : Buf) (h : r.raw = []) : (Buf.read cap n r).2.raw = [] := by
  obtain ⟨buf, raw⟩ := r
  simp only at h
  subst h
  unfold Buf.read Buf.fillBuf
  cases buf <;> by_cases hc : cap ≤ n <;> simp [hc, Raw.read]

theorem Buf.readExactGo_raw_nil (cap : Nat) : ∀ (f n : Nat) (acc : Bytes) (r : Buf), r.raw = [] →
    (Buf.readExactGo cap f n acc r).2.raw = [] := by
  intro f
  induction f with
  | zero => intro n acc r h; cases n <;> simpa [Buf.readExactGo] using h
  | succ f ih =>
    intro n acc r h
    cases n with
    | zero => simpa [Buf.readExactGo] using h
    | succ n =>
      have := Buf.read_raw_nil cap (n + 1) r h
      rw [Buf.readExactGo]
      split
      · rename_i heq; rw [heq] at this; exact this
      · rename_i heq; rw [heq] at this
        split
        · exact this
        · exact ih _ _ _ this

theorem Buf.takeToEndGo_raw_nil (cap : Nat) : ∀ (f n : Nat) (acc : Bytes) (r : Buf), r.raw = [] →
    (Buf.takeToEndGo cap f n acc r).2.raw = [] := by
  intro f
  induction f with
  | zero => intro n acc r h; cases n <;> simpa [Buf.takeToEndGo] using h
  | succ f ih =>
    intro n acc r h
    cases n with
    | zero => simpa [Buf.takeToEndGo] using h
    | succ n =>
      have := Buf.read_raw_nil cap (n + 1) r h
      rw [Buf.takeToEndGo]
      split
      · rename_i heq; rw [heq] at this; exact this
      · rename_i heq; rw [heq] at this
        split
        · exact this
        · exact ih _ _ _ this

theorem readPayloadLength_raw_nil (second : UInt8) (r : Buf) (h : r.raw = []) :
    (readPayloadLength second r).2.raw = [] := by
  unfold readPayloadLength Buf.readExact
  have h2 := Buf.readExactGo_raw_nil defaultCap 2 2 [] r h
  have h8 := Buf.readExactGo_raw_nil defaultCap 8 8 [] r h
  split
  · split <;> rename_i heq <;> rw [heq] at h2 <;> exact h2
  · split
    · split <;> rename_i heq <;> rw [heq] at h8 <;> exact h8
    · exact h

theorem readPayload_raw_nil (W : Nat) (fin : Bool) (L : Nat) (r : Buf) (h : r.raw = []) :
    (readPayload W fin L r).2.raw = [] := by
  unfold readPayload
  have h1 := Buf.read_raw_nil defaultCap 4 r h
  split
  · rename_i heq; rw [heq] at h1; exact h1
  · rename_i key r' heq
    rw [heq] at h1
    have h2 := Buf.takeToEndGo_raw_nil defaultCap L L [] r' h1
    simp only
    split
    · exact h1
    split
    · exact h1
    split
    · exact h1
    unfold Buf.takeToEnd
    split <;> rename_i heq2 <;> rw [heq2] at h2
    · exact h2
    · repeat' split
      all_goals exact h2

/-- One block of at most 8 KiB: the parser takes it whole. -/
theorem parse_raw_nil (W : Nat) (b : Bytes) (hl : b.length ≤ 8192) :
    (Frame.parse W [.data b]).2 = [] := by
  have h0 : ((Buf.mk [] [.data b]).read defaultCap 2).2.raw = [] := by
    have : b.length ≤ defaultCap := hl
    have hc : ¬ defaultCap ≤ 2 := by decide
    simp [Buf.read, Buf.fillBuf, Raw.read, this, hc]
  unfold Frame.parse
  split
  · rename_i heq; rw [heq] at h0; exact h0
  · rename_i first second r heq
    rw [heq] at h0
    have h1 := readPayloadLength_raw_nil second r h0
    simp only
    split
    · exact h0
    split
    · rename_i heq2; rw [heq2] at h1; exact h1
    · rename_i L r2 heq2
      rw [heq2] at h1
      have h2 := readPayload_raw_nil W (first &&& 0x80 != 0) L r2 h1
      split
      · exact h1
      split
      · split <;> rename_i heq3 <;> rw [heq3] at h2 <;> exact h2
      · exact h1
  · rename_i heq; rw [heq] at h0; exact h0

end Puck
