/-! # Rounding a number of bits to an `f32` -/

namespace Souris

/-- A natural number that is an `f32` without rounding. -/
def IsSingle (m : Nat) : Prop := ∃ s e, s < 2 ^ 24 ∧ m = s * 2 ^ e

/-- How far two numbers are apart. -/
def apart (a b : Nat) : Nat := (a - b) + (b - a)

/-- `m` is the `f32` nearest to `n`; of two that are as near, the one whose significand is even. -/
def NearestSingle (n m : Nat) : Prop :=
  IsSingle m ∧ ∀ m', IsSingle m' → apart n m ≤ apart n m' ∧ (apart n m = apart n m' → m' = m ∨ ∃ s e, s < 2 ^ 24 ∧ 2 ^ 23 ≤ s ∧ s % 2 = 0 ∧ m = s * 2 ^ e)

end Souris
