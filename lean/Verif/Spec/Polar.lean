import Verif.Spec.IntegerConv
import Verif.Model.Polar
import Mathlib.Analysis.SpecialFunctions.Trigonometric.Arctan

/-! # Specification vocabulary for polar coordinates -/

namespace Souris

/-- The real number denoted by a finite `f64`. -/
noncomputable def f64Real (x : UInt64) : ℝ := ((f64Value x : ℚ) : ℝ)

/-- Positive infinity. -/
def f64Inf : UInt64 := 0x7FF0000000000000

/-- Not a number. -/
def F64Nan (x : UInt64) : Prop := x.toNat / 2 ^ 52 % 2 ^ 11 = 2047 ∧ x.toNat % 2 ^ 52 ≠ 0

/-- `(r, θ)` are polar coordinates of the point `(x, y)`, with `θ` in `[-π, π]`. -/
def PolarOf (x y r θ : ℝ) : Prop :=
  0 ≤ r ∧ -Real.pi ≤ θ ∧ θ ≤ Real.pi ∧ x = r * Real.cos θ ∧ y = r * Real.sin θ

/-- What is assumed of the operations that round: accuracy `ε`, absolute or relative as IEEE-754 and the
usual libms (below one unit in the last place) give it, and the special values. -/
structure Libm.Accurate (L : Libm) (ε : ℝ) : Prop where
  /-- a quotient of numbers that are not negative, with underflow, or with overflow to infinity -/
  div : ∀ a b, F64Finite a → F64Finite b → 0 ≤ f64Real a → 0 < f64Real b →
    (F64Finite (L.div a b) ∧ 0 ≤ f64Real (L.div a b) ∧
      |f64Real (L.div a b) - f64Real a / f64Real b| ≤ ε * (1 + f64Real a / f64Real b)) ∨
    (L.div a b = f64Inf ∧ 1 / ε ≤ f64Real a / f64Real b)
  div_zero : ∀ a, F64Finite a → 0 < f64Real a → L.div a 0 = f64Inf
  zero_div_zero : F64Nan (L.div 0 0)
  atan : ∀ x, F64Finite x → 0 ≤ f64Real x →
    F64Finite (L.atan x) ∧ |f64Real (L.atan x) - Real.arctan (f64Real x)| ≤ ε
  atan_inf : F64Finite (L.atan f64Inf) ∧ |f64Real (L.atan f64Inf) - Real.pi / 2| ≤ ε
  atan_nan : ∀ x, F64Nan x → F64Nan (L.atan x)
  add : ∀ a b, F64Finite a → F64Finite b → |f64Real a + f64Real b| ≤ 4 →
    F64Finite (L.add a b) ∧ |f64Real (L.add a b) - (f64Real a + f64Real b)| ≤ ε
  sub : ∀ a b, F64Finite a → F64Finite b → |f64Real a - f64Real b| ≤ 4 →
    F64Finite (L.sub a b) ∧ |f64Real (L.sub a b) - (f64Real a - f64Real b)| ≤ ε
  hypot : ∀ a b, F64Finite a → F64Finite b →
    (F64Finite (L.hypot a b) ∧ |f64Real (L.hypot a b) - √(f64Real a ^ 2 + f64Real b ^ 2)| ≤
      ε * √(f64Real a ^ 2 + f64Real b ^ 2) + 1 / 2 ^ 1074) ∨
    (L.hypot a b = f64Inf ∧ 2 ^ 1023 ≤ √(f64Real a ^ 2 + f64Real b ^ 2))

end Souris
