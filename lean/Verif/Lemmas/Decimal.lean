import Verif.Model.Text
import Verif.Spec.Decimal
/-! # Lemmas about decimal parsing -/
namespace Puck
open Decimal

theorem foldl_value (b : Bytes) (a : Nat) :
    b.foldl (fun a c => a * 10 + (c.toNat - 48)) a = a * 10 ^ b.length + value b := by
  induction b generalizing a with
  | nil => simp [value]
  | cons d t ih =>
    simp only [List.foldl_cons, ih, value, List.length_cons, Nat.pow_succ]
    rw [Nat.add_mul, Nat.mul_assoc, Nat.mul_comm 10]
    omega

theorem parseDigits_iff {b : Bytes} {n : Nat} : parseDigits b = some n ↔ Digits b ∧ n = value b := by
  unfold parseDigits Digits
  by_cases h0 : b = []
  · simp [h0]
  · rw [if_neg h0]
    by_cases h1 : b.all (fun c => 48 ≤ c && c ≤ 57) = true
    · rw [if_pos h1, foldl_value]
      simp only [List.all_eq_true, Bool.and_eq_true, decide_eq_true_eq] at h1
      simp [h0, eq_comm]
      intro _; exact h1
    · rw [if_neg h1]
      simp only [reduceCtorEq, false_iff]
      rintro ⟨⟨_, h⟩, _⟩
      exact h1 (by simpa using h)

theorem Digits.head {c : UInt8} {t : Bytes} (h : Digits (c :: t)) : c ≠ 43 ∧ c ≠ 45 := by
  have := h.2 c (by simp)
  constructor <;> rintro rfl <;> revert this <;> decide

theorem parseUsize_iff {W : Nat} {s : String} {n : Nat} :
    parseUsize W s = some n ↔ DenotesNat (strBytes s) n ∧ n < 2 ^ W := by
  unfold parseUsize
  generalize strBytes s = b
  have key : ∀ ds, (match parseDigits ds with
      | some v => if v < 2 ^ W then some v else none
      | none => none) = some n ↔ Digits ds ∧ n = value ds ∧ n < 2 ^ W := by
    intro ds
    cases h : parseDigits ds with
    | none =>
      simp only [reduceCtorEq, false_iff]
      rintro ⟨h1, h2, _⟩
      have := parseDigits_iff.2 ⟨h1, h2⟩
      rw [h] at this; cases this
    | some v =>
      obtain ⟨h1, rfl⟩ := parseDigits_iff.1 h
      simp only [h1, true_and]
      by_cases hv : value ds < 2 ^ W
      · simp only [if_pos hv, Option.some.injEq]
        constructor
        · rintro rfl; exact ⟨rfl, hv⟩
        · exact fun h => h.1.symm
      · simp only [if_neg hv, reduceCtorEq, false_iff]
        rintro ⟨rfl, h⟩; exact hv h
  refine (key _).trans ?_
  split
  · rename_i t
    constructor
    · rintro ⟨h1, rfl, h2⟩; exact ⟨.plus h1, h2⟩
    · rintro ⟨h1, h2⟩
      cases h1 with
      | plain h => exact absurd rfl (Digits.head h).1
      | plus h => exact ⟨h, rfl, h2⟩
  · rename_i hno
    constructor
    · rintro ⟨h1, rfl, h2⟩; exact ⟨.plain h1, h2⟩
    · rintro ⟨h1, h2⟩
      cases h1 with
      | plain h => exact ⟨h, rfl, h2⟩
      | plus h => exact absurd rfl (hno _)

theorem parseI32_iff {s : String} {n : Int} :
    parseI32 s = some n ↔ Denotes (strBytes s) n ∧ -2 ^ 31 ≤ n ∧ n < 2 ^ 31 := by
  unfold parseI32
  generalize strBytes s = b
  have key : ∀ ds, (match parseDigits ds with
      | some v => if v < 2 ^ 31 then some (v : Int) else none
      | none => none) = some n ↔ Digits ds ∧ n = value ds ∧ n < 2 ^ 31 := by
    intro ds
    cases h : parseDigits ds with
    | none =>
      simp only [reduceCtorEq, false_iff]
      rintro ⟨h1, h2, _⟩
      have := parseDigits_iff.2 ⟨h1, rfl⟩
      rw [h] at this; cases this
    | some v =>
      obtain ⟨h1, rfl⟩ := parseDigits_iff.1 h
      simp only [h1, true_and]
      by_cases hv : value ds < 2 ^ 31
      · simp only [if_pos hv, Option.some.injEq]
        constructor
        · rintro rfl; exact ⟨rfl, by omega⟩
        · exact fun h => h.1.symm
      · simp only [if_neg hv, reduceCtorEq, false_iff]
        rintro ⟨rfl, h⟩; exact hv (by omega)
  have keyNeg : ∀ ds, (match parseDigits ds with
      | some v => if v ≤ 2 ^ 31 then some (-(v : Int)) else none
      | none => none) = some n ↔ Digits ds ∧ n = -(value ds : Int) ∧ -2 ^ 31 ≤ n := by
    intro ds
    cases h : parseDigits ds with
    | none =>
      simp only [reduceCtorEq, false_iff]
      rintro ⟨h1, h2, _⟩
      have := parseDigits_iff.2 ⟨h1, rfl⟩
      rw [h] at this; cases this
    | some v =>
      obtain ⟨h1, rfl⟩ := parseDigits_iff.1 h
      simp only [h1, true_and]
      by_cases hv : value ds ≤ 2 ^ 31
      · simp only [if_pos hv, Option.some.injEq]
        constructor
        · rintro rfl; exact ⟨rfl, by omega⟩
        · exact fun h => h.1.symm
      · simp only [if_neg hv, reduceCtorEq, false_iff]
        rintro ⟨rfl, h⟩; exact hv (by omega)
  split
  · refine (key _).trans ?_
    constructor
    · rintro ⟨h1, rfl, h2⟩; exact ⟨.plus h1, by omega, h2⟩
    · rintro ⟨h1, _, h2⟩
      cases h1 with
      | plain h => exact absurd rfl (Digits.head h).1
      | plus h => exact ⟨h, rfl, h2⟩
  · refine (keyNeg _).trans ?_
    constructor
    · rintro ⟨h1, rfl, h2⟩; exact ⟨.minus h1, h2, by omega⟩
    · rintro ⟨h1, h2, _⟩
      cases h1 with
      | plain h => exact absurd rfl (Digits.head h).2
      | minus h => exact ⟨h, rfl, h2⟩
  · rename_i hno1 hno2
    refine (key _).trans ?_
    constructor
    · rintro ⟨h1, rfl, h2⟩; exact ⟨.plain h1, by omega, h2⟩
    · rintro ⟨h1, _, h2⟩
      cases h1 with
      | plain h => exact ⟨h, rfl, h2⟩
      | plus h => exact absurd rfl (hno1 _)
      | minus h => exact absurd rfl (hno2 _)

end Puck
