import Verif.Model.Imaginary
import Verif.Model.IntegerFloat

/-!
# The two forms of `Imaginary`: imaginary.rs L109-192

Floats are bit patterns. The rounded operations of `f64` (division, products, sums and the functions of
libm) are a parameter: any functions on bit patterns. What touches only the sign bit is exact.
-/

namespace Souris

/-- The operations of `f64` that round. -/
structure Libm where
  add : UInt64 → UInt64 → UInt64
  sub : UInt64 → UInt64 → UInt64
  mul : UInt64 → UInt64 → UInt64
  div : UInt64 → UInt64 → UInt64
  hypot : UInt64 → UInt64 → UInt64
  atan : UInt64 → UInt64
  sin : UInt64 → UInt64
  cos : UInt64 → UInt64

/-- `f64::is_sign_negative`. -/
def f64Negative (x : UInt64) : Bool := x.toNat / 2 ^ 63 = 1
/-- `f64::abs`. -/
def f64Abs (x : UInt64) : UInt64 := UInt64.ofNat (x.toNat % 2 ^ 63)
/-- `-x`. -/
def f64Neg (x : UInt64) : UInt64 := UInt64.ofNat (if f64Negative x then x.toNat - 2 ^ 63 else x.toNat + 2 ^ 63)

/-- `core::f64::consts::PI`. -/
def f64Pi : UInt64 := 0x400921FB54442D18

namespace Imaginary

/-- imaginary.rs L180-192: `polar_from_cartesian`. -/
def polarFromCartesian (L : Libm) (real imaginary : UInt64) : Imaginary :=
  let modulus := L.hypot real imaginary
  let phi := L.atan (L.div (f64Abs imaginary) (f64Abs real))
  let argument :=
    match f64Negative real, f64Negative imaginary with
    | true, true => L.add (f64Neg f64Pi) phi
    | true, false => L.sub f64Pi phi
    | false, true => f64Neg phi
    | false, false => phi
  .polar modulus argument

/-- imaginary.rs L110-117: `to_polar_form`. -/
def toPolarForm (L : Libm) : Imaginary → Out Empty Imaginary
  | .polar m a => .ok (.polar m a)
  | .cartesian re im => do
    let re ← re.toF64
    let im ← im.toF64
    return polarFromCartesian L re im

/-- imaginary.rs L142-163: `to_cartesian_form`. The error carries the number. -/
def toCartesianForm (L : Libm) : Imaginary → Out (Imaginary × FloatToIntegerError) Imaginary
  | .cartesian re im => .ok (.cartesian re im)
  | .polar m a =>
    match Integer.ofF64 (L.mul m (L.cos a)) with
    | .err e => .err (.polar m a, e)
    | .panic p => .panic p
    | .ok real =>
      match Integer.ofF64 (L.mul m (L.sin a)) with
      | .err e => .err (.polar m a, e)
      | .panic p => .panic p
      | .ok imaginary => .ok (.cartesian real imaginary)

end Imaginary

end Souris
