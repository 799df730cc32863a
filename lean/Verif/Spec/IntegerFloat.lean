import Verif.Spec.IntegerConv

/-! # Specification vocabulary for rounding -/

namespace Souris

/-- Among the finite `f64`s, `b` is nearest to `n`, and even when another one is just as near. -/
def NearestF64 (n : Int) (b : UInt64) : Prop :=
  F64Finite b ∧ ∀ b', F64Finite b' → |f64Value b - n| ≤ |f64Value b' - n| ∧
    (|f64Value b - n| = |f64Value b' - n| → f64Value b' = f64Value b ∨ b.toNat % 2 = 0)

/-- The same for `f32`. -/
def NearestF32 (n : Int) (b : UInt32) : Prop :=
  F32Finite b ∧ ∀ b', F32Finite b' → |f32Value b - n| ≤ |f32Value b' - n| ∧
    (|f32Value b - n| = |f32Value b' - n| → f32Value b' = f32Value b ∨ b.toNat % 2 = 0)

end Souris
