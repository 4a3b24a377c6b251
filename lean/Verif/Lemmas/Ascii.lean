import Verif.Lemmas.Io
import Verif.Lemmas.Decimal
/-! # ASCII strings and decimal numerals as bytes -/
namespace Puck

theorem strBytes_ofList (l : List Char) : strBytes (String.ofList l) = l.flatMap String.utf8EncodeChar := by
  unfold strBytes
  simp [String.toByteArray_ofList, List.utf8Encode]

theorem strBytes_eq_flatMap (s : String) : strBytes s = s.toList.flatMap String.utf8EncodeChar := by
  rw [← strBytes_ofList, String.ofList_toList]

theorem utf8EncodeChar_ascii {c : Char} (h : c.toNat < 128) : String.utf8EncodeChar c = [UInt8.ofNat c.toNat] := by
  have h1 : c.utf8Size = 1 := by
    rw [Char.utf8Size_eq_one_iff]
    have : c.val.toNat < 128 := h
    exact UInt32.le_iff_toNat_le.2 (by simpa using Nat.le_of_lt_succ this)
  rw [String.utf8EncodeChar_eq_singleton h1]
  rfl

theorem strBytes_ascii {l : List Char} (h : ∀ c ∈ l, c.toNat < 128) :
    strBytes (String.ofList l) = l.map fun c => UInt8.ofNat c.toNat := by
  rw [strBytes_ofList]
  induction l with
  | nil => rfl
  | cons c l ih =>
    rw [List.flatMap_cons, utf8EncodeChar_ascii (h c (by simp)), ih fun d hd => h d (by simp [hd])]
    rfl

theorem digitChar_byte {d : Nat} (h : d < 10) :
    (Nat.digitChar d).toNat < 128 ∧ UInt8.ofNat (Nat.digitChar d).toNat = UInt8.ofNat (48 + d) ∧
    48 ≤ UInt8.ofNat (48 + d) ∧ UInt8.ofNat (48 + d) ≤ 57 ∧ (UInt8.ofNat (48 + d)).toNat - 48 = d := by
  have : ∀ d, d < 10 → (Nat.digitChar d).toNat < 128 ∧ UInt8.ofNat (Nat.digitChar d).toNat = UInt8.ofNat (48 + d) ∧
    48 ≤ UInt8.ofNat (48 + d) ∧ UInt8.ofNat (48 + d) ≤ 57 ∧ (UInt8.ofNat (48 + d)).toNat - 48 = d := by decide
  exact this d h

/-- The bytes of a number's decimal text. -/
theorem strBytes_repr (n : Nat) :
    strBytes (toString n) = if n < 10 then [UInt8.ofNat (48 + n)]
      else strBytes (toString (n / 10)) ++ [UInt8.ofNat (48 + n % 10)] := by
  have one : ∀ d, d < 10 → strBytes (String.singleton (Nat.digitChar d)) = [UInt8.ofNat (48 + d)] := by
    intro d hd
    rw [String.singleton_eq_ofList, strBytes_ascii (by simpa using (digitChar_byte hd).1)]
    simp [(digitChar_byte hd).2.1]
  have hr : ∀ n : Nat, toString n = n.repr := fun _ => rfl
  by_cases h : n < 10
  · rw [if_pos h, hr, Nat.repr_of_lt h, one n h]
  · rw [if_neg h, hr, hr, Nat.repr_of_ge (by omega), strBytes_append, one _ (by omega)]

theorem code3_toString {n : Nat} (h1 : 100 ≤ n) (h2 : n < 1000) :
    strBytes (toString n) = [UInt8.ofNat (48 + n / 100), UInt8.ofNat (48 + n / 10 % 10), UInt8.ofNat (48 + n % 10)] := by
  rw [strBytes_repr, if_neg (by omega), strBytes_repr, if_neg (by omega), strBytes_repr, if_pos (by omega)]
  have : n / 10 / 10 = n / 100 := by omega
  simp [this]

theorem value_append (a b : Bytes) : Decimal.value (a ++ b) = Decimal.value a * 10 ^ b.length + Decimal.value b := by
  have h1 := foldl_value (a ++ b) 0
  have h2 := foldl_value a 0
  have h3 := foldl_value b (Decimal.value a)
  simp only [Nat.zero_mul, Nat.zero_add] at h1 h2
  rw [List.foldl_append, h2, h3] at h1
  exact h1.symm

theorem digits_toString (n : Nat) :
    Decimal.Digits (strBytes (toString n)) ∧ Decimal.value (strBytes (toString n)) = n := by
  induction n using Nat.strongRecOn with
  | ind n ih =>
    rw [strBytes_repr]
    by_cases h : n < 10
    · rw [if_pos h]
      obtain ⟨_, _, h3, h4, h5⟩ := digitChar_byte h
      refine ⟨⟨by simp, ?_⟩, ?_⟩
      · intro c hc
        simp only [List.mem_cons, List.not_mem_nil, or_false] at hc
        rw [hc]; exact ⟨h3, h4⟩
      · simp only [Decimal.value, List.length_nil, h5]
        omega
    · rw [if_neg h]
      obtain ⟨_, _, h3, h4, h5⟩ := digitChar_byte (Nat.mod_lt n (show 0 < 10 by omega))
      obtain ⟨i1, i2⟩ := ih (n / 10) (by omega)
      refine ⟨⟨by simp, ?_⟩, ?_⟩
      · intro c hc
        simp only [List.mem_append, List.mem_cons, List.not_mem_nil, or_false] at hc
        rcases hc with hc | rfl
        · exact i1.2 c hc
        · exact ⟨h3, h4⟩
      · rw [value_append, i2]
        simp only [Decimal.value, List.length_cons, List.length_nil, h5]
        omega

end Puck
