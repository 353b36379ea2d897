import Verif.Model.Float
/- What the per-second transformation is to compute, in exact arithmetic. -/
namespace Verif.Spec.Tf
open Verif.F

/-- Times are `int64` and their difference fits. -/
def TimesOk (prev curr : Int) : Prop := -2 ^ 63 ≤ curr - prev ∧ curr - prev < 2 ^ 63

/-- The value goes down: read as extended real numbers. -/
def Decreases : F64 → F64 → Prop
  | .fin s a, .fin t b => signed t b < signed s a
  | .fin _ _, .inf t => t = true
  | .inf s, .fin _ _ => s = false
  | .inf s, .inf t => s = false ∧ t = true
  | _, _ => False

/-- Nothing can be said: time does not go on, a value is missing or the value goes down. -/
def Skips (t t' : Int) (v v' : F64) : Prop := t' ≤ t ∨ v = .nan ∨ v' = .nan ∨ Decreases v v'

/-- `v` is the fraction `num/den`, up to a relative error of 2^-50 and an absolute one of 1 (that is 2^-1074). -/
def Near (v num den : Nat) : Prop :=
  2 ^ 50 * (v * den) ≤ (2 ^ 50 + 1) * num + 2 ^ 50 * den ∧ 2 ^ 50 * num ≤ 2 ^ 50 * (v * den) + num + 2 ^ 50 * den

/-- Numbers that, multiplied with 10^9, are in the range of `float64`. -/
def Fits (z : Nat) : Prop := z * 1000000000 ≤ (2 ^ 53 - 3) * 2 ^ 2045

end Verif.Spec.Tf
