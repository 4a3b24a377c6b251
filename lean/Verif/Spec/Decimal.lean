import Verif.Model.Io
/-!
# Specification: decimal integers in text

Independent of the model of puck's code.
-/
namespace Decimal
open Puck (Bytes)

/-- Positional value of a digit string, most significant digit first. -/
def value : Bytes → Nat
  | [] => 0
  | d :: t => (d.toNat - 48) * 10 ^ t.length + value t

/-- One or more ASCII digits. -/
def Digits (b : Bytes) : Prop := b ≠ [] ∧ ∀ c ∈ b, 48 ≤ c ∧ c ≤ 57

/-- `s` is an optional single sign (`+` or `-`) followed by digits, denoting `n`. -/
inductive Denotes : Bytes → Int → Prop
  | plain {ds} : Digits ds → Denotes ds (value ds)
  | plus {ds} : Digits ds → Denotes (43 :: ds) (value ds)
  | minus {ds} : Digits ds → Denotes (45 :: ds) (-(value ds : Int))

/-- Without a minus sign. -/
inductive DenotesNat : Bytes → Nat → Prop
  | plain {ds} : Digits ds → DenotesNat ds (value ds)
  | plus {ds} : Digits ds → DenotesNat (43 :: ds) (value ds)

end Decimal
