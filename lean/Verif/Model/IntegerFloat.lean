import Verif.Model.IntegerConv

/-! # `Integer` to floats: integer.rs L345-372 -/

namespace Souris

namespace FloatFormat

variable (F : FloatFormat)

/-- Rust's `as` from an unsigned integer: the bits of the nearest float, ties to even. The significand is
shifted to `mant + 1` bits, and rounding up may carry into the exponent (and for `f32` thereby reach the
bits of infinity, which is what Rust's reference prescribes on overflow). -/
def castNat (n : Nat) : Nat :=
  if n = 0 then 0
  else
    let top := Nat.log2 n
    let e := top + (F.scale - F.mant + 1)
    if top ≤ F.mant then e * 2 ^ F.mant + (n * 2 ^ (F.mant - top) - 2 ^ F.mant)
    else
      let s := top - F.mant
      let q := n / 2 ^ s
      let r := n % 2 ^ s
      let up := decide (2 ^ s < 2 * r) || (decide (2 * r = 2 ^ s) && decide (q % 2 = 1))
      e * 2 ^ F.mant + ((if up then q + 1 else q) - 2 ^ F.mant)

/-- Rust's `as` from a signed integer: the sign bit and the magnitude. -/
def castInt (n : Int) : Nat :=
  if n < 0 then 2 ^ (F.mant + F.expo) + F.castNat n.natAbs else F.castNat n.natAbs

end FloatFormat

namespace Integer

/-- The common part of integer.rs L348-359 and L363-374: the widest native integer, and then `as`. The
`unreachable!` is a panic. -/
def cast (F : FloatFormat) (i : Integer) : Out Empty Nat :=
  match i.signedState with
  | .unsigned =>
    match i.toUnsigned 16 with
    | .ok n => .ok (F.castNat n)
    | _ => .panic .unreachable
  | _ =>
    match i.toSigned 16 with
    | .ok n => .ok (F.castInt n)
    | _ => .panic .unreachable

/-- integer.rs L345-360: `From<Integer> for f64`. -/
def toF64 (i : Integer) : Out Empty UInt64 := do return UInt64.ofNat (← i.cast f64Format)

/-- integer.rs L361-375: `From<Integer> for f32`. -/
def toF32 (i : Integer) : Out Empty UInt32 := do return UInt32.ofNat (← i.cast f32Format)

end Integer

end Souris
