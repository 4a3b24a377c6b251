import Verif.Lemmas.Frame
/-!
# Byte-level codec facts: big endian, masking, header bytes
-/
namespace Puck
open Rfc6455

theorem toBe_eq (n v : Nat) : toBe n v = bigEndian n v := by
  unfold bigEndian
  induction n with
  | zero => rfl
  | succ n ih =>
    rw [toBe, ih, List.range_succ_eq_map, List.map_cons, List.map_map]
    congr 1
    · simp only [Nat.add_sub_cancel, Nat.sub_zero]
      apply UInt8.toNat.inj
      simp
    · apply List.map_congr_left
      intro i hi
      simp only [Function.comp, Nat.succ_eq_add_one]
      congr 3
      congr 1
      omega

@[simp] theorem length_toBe (n v : Nat) : (toBe n v).length = n := by
  induction n with
  | zero => rfl
  | succ n ih => simp [toBe, ih]

@[simp] theorem length_bigEndian (n v : Nat) : (bigEndian n v).length = n := by
  simp [bigEndian]

theorem valueBE_toBe (n v : Nat) : valueBE (toBe n v) = v % 256 ^ n := by
  induction n with
  | zero => simp [toBe, valueBE, Nat.mod_one]
  | succ n ih =>
    simp only [toBe, valueBE, ih, length_toBe, UInt8.toNat_ofNat', Nat.reducePow]
    rw [Nat.pow_succ, Nat.mod_mul, Nat.mul_comm, Nat.add_comm]

theorem valueBE_bigEndian {n v : Nat} (h : v < 256 ^ n) : valueBE (bigEndian n v) = v := by
  rw [← toBe_eq, valueBE_toBe, Nat.mod_eq_of_lt h]

theorem valueBE_lt (b : Bytes) : valueBE b < 256 ^ b.length := by
  induction b with
  | nil => simp [valueBE]
  | cons x xs ih =>
    simp only [valueBE, List.length_cons, Nat.pow_succ]
    have hx : x.toNat < 256 := x.toNat_lt
    have h2 : x.toNat * 256 ^ xs.length + 256 ^ xs.length ≤ 256 * 256 ^ xs.length := by
      rw [← Nat.succ_mul]; exact Nat.mul_le_mul_right _ hx
    rw [Nat.mul_comm (256 ^ xs.length) 256]
    omega

theorem toBe_valueBE (b : Bytes) : toBe b.length (valueBE b) = b := by
  induction b with
  | nil => rfl
  | cons x xs ih =>
    have hlt := valueBE_lt xs
    have hpos : 0 < 256 ^ xs.length := Nat.pow_pos (by omega)
    simp only [List.length_cons, toBe, valueBE]
    congr 1
    · rw [Nat.mul_comm, Nat.mul_add_div hpos, Nat.div_eq_of_lt hlt]
      simp
    · rw [← ih.symm.symm]
      have : ∀ n m v, n ≤ m → toBe n (x.toNat * 256 ^ m + v) = toBe n v := by
        intro n
        induction n with
        | zero => intros; rfl
        | succ n ihn =>
          intro m v hm
          simp only [toBe]
          rw [ihn m v (by omega)]
          congr 1
          apply UInt8.toNat.inj
          simp only [UInt8.toNat_ofNat']
          have e : 256 ^ m = 256 ^ n * (256 * 256 ^ (m - (n + 1))) := by
            rw [← Nat.pow_succ', ← Nat.pow_add]; congr 1; omega
          rw [e, ← Nat.mul_assoc, Nat.mul_comm x.toNat, Nat.mul_assoc,
            Nat.mul_add_div (Nat.pow_pos (by omega))]
          rw [← Nat.mul_assoc x.toNat, Nat.mul_comm x.toNat 256, Nat.mul_assoc]
          omega
      rw [this _ _ _ (Nat.le_refl _), ih, ih]

theorem bigEndian_valueBE (b : Bytes) : bigEndian b.length (valueBE b) = b := by
  rw [← toBe_eq, toBe_valueBE]

/-! ### masking -/

theorem getD_key (k : Key) : ∀ i, i < 4 → (k.bytes).getD i 0 =
    (if i = 0 then k.1 else if i = 1 then k.2.1 else if i = 2 then k.2.2.1 else k.2.2.2) := by
  intro i hi
  rcases (by omega : i = 0 ∨ i = 1 ∨ i = 2 ∨ i = 3) with rfl | rfl | rfl | rfl <;> rfl

/-- Rotate a key by `i`. -/
def rot (k : Key) (i : Nat) : Key :=
  let g := fun j => (k.bytes).getD ((i + j) % 4) 0
  (g 0, g 1, g 2, g 3)

theorem mask_rot (k : Key) (b : Bytes) (i : Nat) :
    mask (rot k i) b = b.mapIdx fun j x => x ^^^ (k.bytes).getD ((i + j) % 4) 0 := by
  induction b generalizing i with
  | nil => simp [mask]
  | cons x xs ih =>
    rw [List.mapIdx_cons]
    show (x ^^^ _) :: mask _ xs = _
    congr 1
    have : (rot k (i + 1)) = ((rot k i).2.1, (rot k i).2.2.1, (rot k i).2.2.2, (rot k i).1) := by
      simp only [rot]
      have h1 : (i + 1 + 0) % 4 = (i + 1) % 4 := by omega
      have h2 : (i + 1 + 1) % 4 = (i + 2) % 4 := by omega
      have h3 : (i + 1 + 2) % 4 = (i + 3) % 4 := by omega
      have h4 : (i + 1 + 3) % 4 = (i + 0) % 4 := by omega
      rw [h1, h2, h3, h4]
    have h2 := ih (i + 1)
    rw [this] at h2
    refine h2.trans ?_
    congr 1
    funext j y
    have : i + 1 + j = i + (j + 1) := by omega
    rw [this]

theorem rot_zero (k : Key) : rot k 0 = k := by
  obtain ⟨a, b, c, d⟩ := k; rfl

theorem unmask_eq (k : Key) (b : Bytes) : unmask k.bytes b = mask k b := by
  have := mask_rot k b 0
  rw [rot_zero] at this
  rw [this]; simp [unmask]

theorem mask_mask (k : Key) (b : Bytes) : mask k (mask k b) = b := by
  induction b generalizing k with
  | nil => rfl
  | cons x xs ih =>
    obtain ⟨a, b, c, d⟩ := k
    simp only [mask]
    rw [ih]
    congr 1
    rw [UInt8.xor_assoc]; simp

@[simp] theorem length_mask (k : Key) (b : Bytes) : (mask k b).length = b.length := by
  induction b generalizing k with
  | nil => rfl
  | cons x xs ih => obtain ⟨a, b, c, d⟩ := k; simp [mask, ih]

@[simp] theorem length_unmask (k b : Bytes) : (unmask k b).length = b.length := by simp [unmask]

@[simp] theorem Key.length_bytes (k : Key) : k.bytes.length = 4 := rfl

theorem key_of_take {t : Bytes} (h : 4 ≤ t.length) : ∃ k : Key, t.take 4 = k.bytes := by
  match t, h with
  | a :: b :: c :: d :: _, _ => exact ⟨(a, b, c, d), rfl⟩

/-! ### header bytes -/

theorem firstByte_lt {a b c d : Bool} {n : Nat} (h : n < 16) : firstByte a b c d n < 256 := by
  cases a <;> cases b <;> cases c <;> cases d <;> simp [firstByte] <;> omega

theorem firstByte_bits (a b c d : Bool) {n : Nat} (h : n < 16) :
    let v := (UInt8.ofNat (firstByte a b c d n)).toNat
    (v / 128 % 2 == 1) = a ∧ (v / 64 % 2 == 1) = b ∧ (v / 32 % 2 == 1) = c ∧
      (v / 16 % 2 == 1) = d ∧ v % 16 = n := by
  have key : ∀ a b c d : Bool, ∀ n : Fin 16,
      let v := (UInt8.ofNat (firstByte a b c d n)).toNat
      (v / 128 % 2 == 1) = a ∧ (v / 64 % 2 == 1) = b ∧ (v / 32 % 2 == 1) = c ∧
      (v / 16 % 2 == 1) = d ∧ v % 16 = n.val := by decide +kernel
  exact key a b c d ⟨n, h⟩

theorem firstByte_of_byte (b : UInt8) :
    UInt8.ofNat (firstByte (b.toNat / 128 % 2 == 1) (b.toNat / 64 % 2 == 1) (b.toNat / 32 % 2 == 1)
      (b.toNat / 16 % 2 == 1) (b.toNat % 16)) = b := by
  revert b; apply u8_forall; decide +kernel

theorem ofNat_toNat_lt {n : Nat} (h : n < 256) : (UInt8.ofNat n).toNat = n := by
  simp; omega

/-- A header, as bytes, announces its length. -/
theorem lenOf_headBytes {a b c d : Bool} {n : Nat} {m : Bool} {form : Form} {L : Nat}
    (hc : form.Carries L) : ∃ b1 ext,
      headBytes a b c d n m form L = UInt8.ofNat (firstByte a b c d n) :: b1 :: ext ∧
      (∀ x, lenOf b1 (ext ++ x) = some (L, ext.length)) ∧ (b1.toNat < 128 ↔ m = false) := by
  cases form with
  | short =>
    have hc' : L < 126 := hc
    refine ⟨UInt8.ofNat (m.toNat * 128 + L), [], rfl, ?_, ?_⟩
    · intro x
      have hv : (UInt8.ofNat (m.toNat * 128 + L)).toNat = m.toNat * 128 + L :=
        ofNat_toNat_lt (by cases m <;> simp <;> omega)
      have hm : (m.toNat * 128 + L) % 128 = L := by omega
      unfold lenOf
      rw [hv, hm, if_neg (by omega), if_neg (by omega)]; rfl
    · rw [ofNat_toNat_lt (by cases m <;> simp <;> omega)]
      cases m <;> simp <;> omega
  | medium =>
    have hc' : L < 65536 := hc
    refine ⟨UInt8.ofNat (m.toNat * 128 + 126), bigEndian 2 L, rfl, ?_, ?_⟩
    · intro x
      have hv : (UInt8.ofNat (m.toNat * 128 + 126)).toNat = m.toNat * 128 + 126 :=
        ofNat_toNat_lt (by cases m <;> simp)
      unfold lenOf
      rw [hv, if_pos (by omega), if_pos (by simp)]
      rw [List.take_append, List.take_of_length_le (by simp)]
      simp only [length_bigEndian, Nat.sub_self, List.take_zero, List.append_nil]
      rw [valueBE_bigEndian (by simpa using hc')]
    · rw [ofNat_toNat_lt (by cases m <;> simp)]
      cases m <;> simp
  | long =>
    have hc' : L < 2 ^ 64 := hc
    refine ⟨UInt8.ofNat (m.toNat * 128 + 127), bigEndian 8 L, rfl, ?_, ?_⟩
    · intro x
      have hv : (UInt8.ofNat (m.toNat * 128 + 127)).toNat = m.toNat * 128 + 127 :=
        ofNat_toNat_lt (by cases m <;> simp)
      unfold lenOf
      rw [hv, if_neg (by omega), if_pos (by omega), if_pos (by simp)]
      rw [List.take_append, List.take_of_length_le (by simp)]
      simp only [length_bigEndian, Nat.sub_self, List.take_zero, List.append_nil]
      rw [valueBE_bigEndian (by simpa using hc')]
    · rw [ofNat_toNat_lt (by cases m <;> simp)]
      cases m <;> simp

/-- Conversely, bytes that announce a length are a header. -/
theorem headBytes_of_lenOf {b0 b1 : UInt8} {tl : Bytes} {L k : Nat} (h : lenOf b1 tl = some (L, k)) :
    k ≤ tl.length ∧ ∃ form : Form, form.Carries L ∧
      headBytes (b0.toNat / 128 % 2 == 1) (b0.toNat / 64 % 2 == 1) (b0.toNat / 32 % 2 == 1)
        (b0.toNat / 16 % 2 == 1) (b0.toNat % 16) (!decide (b1.toNat < 128)) form L =
        b0 :: b1 :: tl.take k := by
  have hb : b1.toNat < 256 := b1.toNat_lt
  have hback : ∀ v, b1.toNat = v → UInt8.ofNat v = b1 := by
    intro v hv; rw [← hv]; simp
  have htop : (!decide (b1.toNat < 128)).toNat * 128 = b1.toNat / 128 * 128 := by
    by_cases h128 : b1.toNat < 128
    · have : b1.toNat / 128 = 0 := by omega
      simp [h128, this]
    · have : b1.toNat / 128 = 1 := by omega
      simp [h128, this]
  unfold lenOf at h
  split at h
  · rename_i h1
    split at h
    · rename_i h2
      cases h
      have hl : (tl.take 2).length = 2 := by rw [List.length_take]; omega
      refine ⟨h2, .medium, ?_, ?_⟩
      · have := valueBE_lt (tl.take 2); rw [hl] at this; exact this
      · simp only [headBytes, firstByte_of_byte, htop]
        rw [hback _ (by omega)]
        have := bigEndian_valueBE (tl.take 2)
        rw [hl] at this; rw [this]
    · cases h
  · split at h
    · rename_i h1
      split at h
      · rename_i h2
        cases h
        have hl : (tl.take 8).length = 8 := by rw [List.length_take]; omega
        refine ⟨h2, .long, ?_, ?_⟩
        · have := valueBE_lt (tl.take 8); rw [hl] at this; exact this
        · simp only [headBytes, firstByte_of_byte, htop]
          rw [hback _ (by omega)]
          have := bigEndian_valueBE (tl.take 8)
          rw [hl] at this; rw [this]
      · cases h
    · cases h
      refine ⟨by omega, .short, ?_, ?_⟩
      · show _ < 126; omega
      · simp only [headBytes, firstByte_of_byte, htop]
        rw [hback _ (by omega)]; simp

/-- Length of a header. -/
theorem length_headBytes {a b c d : Bool} {n : Nat} {m : Bool} {form : Form} {L : Nat} :
    (headBytes a b c d n m form L).length =
      match form with | .short => 2 | .medium => 4 | .long => 10 := by
  cases form <;> simp [headBytes]

end Puck

namespace Puck
open Rfc6455

open Classical in
/-- `parse` on a stream whose available bytes start with a header. -/
theorem parse_head {W : Nat} {raw : Raw} {a b c d : Bool} {n : Nat} {m : Bool} {form : Form} {L : Nat}
    {x : Bytes} (hwf : raw.WF) (hn : n < 16) (hc : form.Carries L)
    (hav : raw.avail = headBytes a b c d n m form L ++ x) :
    let h := (headBytes a b c d n m form L).length
    (Frame.parse W raw).1 =
      if raw.Boundary 1 then .err .insufficientData
      else if L = 0 then .ok ⟨a, b, c, d, opOf n, []⟩
      else if m = false then .err .maskNotSet
      else match payloadRef W a L x raw.Clean
          (raw.Boundary (h + 1) ∨ raw.Boundary (h + 2) ∨ raw.Boundary (h + 3)) with
        | .ok p => .ok ⟨a, b, c, d, opOf n, p⟩
        | .err e => .err e
        | .panic => .panic := by
  intro h
  obtain ⟨b1, ext, h1, h2, h3⟩ := lenOf_headBytes (a := a) (b := b) (c := c) (d := d) (n := n) (m := m) hc
  have hh : h = 2 + ext.length := by show (headBytes ..).length = _; rw [h1]; simp; omega
  rw [parse_eval W raw hwf, hav, h1]
  obtain ⟨e1, e2, e3, e4, e5⟩ := firstByte_bits a b c d hn
  simp only [List.cons_append, parseRef, h2, e1, e2, e3, e4, e5, h3, hh, List.drop_left]
  by_cases hb : raw.Boundary 1
  · simp [hb]
  by_cases hL : L = 0
  · simp [hb, hL]
  by_cases hm : m = false
  · simp [hb, hL, hm]
  simp only [hb, hL, hm, if_false]
  cases payloadRef W a L x raw.Clean (raw.Boundary (2 + ext.length + 1) ∨
    raw.Boundary (2 + ext.length + 2) ∨ raw.Boundary (2 + ext.length + 3)) <;> rfl

theorem parse_win_head {W : Nat} {raw rest : Raw} {av : Bytes} {a b c d : Bool} {n : Nat} {m : Bool}
    {form : Form} {L : Nat} {x : Bytes} (hw : Win ⟨[], raw⟩ av rest)
    (hrest : rest = [] ∨ ∃ rs, rest = .fail :: rs) (hc : form.Carries L)
    (hav : av = headBytes a b c d n m form L ++ x) (hB : ¬ raw.Boundary 1) :
    let h := (headBytes a b c d n m form L).length
    ∃ r, (Frame.parse W raw).2 = r.raw ∧ (L = 0 → Win r x rest) ∧
      (0 < L → m = true → raw.Unsplit h → L ≤ isizeMax W → 4 + L ≤ x.length →
        Win r (x.drop (4 + L)) rest) := by
  intro h
  obtain ⟨b1, ext, h1, h2, h3⟩ := lenOf_headBytes (a := a) (b := b) (c := c) (d := d) (n := n) (m := m) hc
  have hh : h = 2 + ext.length := by show (headBytes ..).length = _; rw [h1]; simp; omega
  obtain ⟨r, g1, g2⟩ := parse_win (W := W) hw hrest
  refine ⟨r, by rw [g1], ?_⟩
  rw [h1, List.cons_append, List.cons_append] at hav
  obtain ⟨k1, k2⟩ := g2 _ _ _ _ _ hav hB (h2 x)
  rw [List.drop_left] at k1 k2
  refine ⟨k1, ?_⟩
  intro hL hm hu hp hl
  have e : List.drop (ext.length + 4 + L) (ext ++ x) = x.drop (4 + L) := by
    rw [Nat.add_assoc, List.drop_length_add_append]
  rw [← e]
  apply k2 hL _ _ hp hl
  · apply Nat.le_of_not_lt
    intro hlt
    have := h3.1 hlt
    simp [hm] at this
  · obtain ⟨_, u1, u2, u3⟩ := hu
    rw [hh] at u1 u2 u3
    rintro (v | v | v)
    · exact u1 v
    · exact u2 v
    · exact u3 v

end Puck
