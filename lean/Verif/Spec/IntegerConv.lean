import Verif.Model.IntegerConv
import Verif.Spec.Integer
import Mathlib.Algebra.Order.Field.Rat
import Mathlib.Algebra.Order.Floor.Defs

/-! # Specification vocabulary for text, floats and JSON numbers -/

namespace Souris

/-- The characters of the decimal digits. -/
def decimalDigits : List Char := ['0', '1', '2', '3', '4', '5', '6', '7', '8', '9']

/-- The number written by a string of decimal digits, most significant first. -/
def digitsValue (cs : List Char) : Nat :=
  cs.foldl (fun acc c => acc * 10 + decimalDigits.idxOf c) 0

/-- `s` is a decimal numeral for `n`: an optional sign and at least one digit. -/
inductive Numeral : List Char → Int → Prop
  | plain {cs : List Char} (h : cs ≠ []) (hd : ∀ c ∈ cs, c ∈ decimalDigits) :
      Numeral cs (digitsValue cs)
  | plus {cs : List Char} (h : cs ≠ []) (hd : ∀ c ∈ cs, c ∈ decimalDigits) :
      Numeral ('+' :: cs) (digitsValue cs)
  | minus {cs : List Char} (h : cs ≠ []) (hd : ∀ c ∈ cs, c ∈ decimalDigits) :
      Numeral ('-' :: cs) (-(digitsValue cs : Int))

/-- The real (rational) number denoted by the bits of a finite `f64`: sign, 11 exponent bits, 52
mantissa bits, with gradual underflow. -/
def f64Value (bits : UInt64) : ℚ :=
  let sign : ℚ := if bits.toNat / 2 ^ 63 = 1 then -1 else 1
  let e : Nat := bits.toNat / 2 ^ 52 % 2 ^ 11
  let m : Nat := bits.toNat % 2 ^ 52
  if e = 0 then sign * m * 2 ^ (-1074 : ℤ) else sign * (2 ^ 52 + m) * 2 ^ ((e : ℤ) - 1075)

/-- The same for `f32`. -/
def f32Value (bits : UInt32) : ℚ :=
  let sign : ℚ := if bits.toNat / 2 ^ 31 = 1 then -1 else 1
  let e : Nat := bits.toNat / 2 ^ 23 % 2 ^ 8
  let m : Nat := bits.toNat % 2 ^ 23
  if e = 0 then sign * m * 2 ^ (-149 : ℤ) else sign * (2 ^ 23 + m) * 2 ^ ((e : ℤ) - 150)

/-- Neither NaN nor infinite. -/
def F64Finite (bits : UInt64) : Prop := bits.toNat / 2 ^ 52 % 2 ^ 11 ≠ 2047
def F32Finite (bits : UInt32) : Prop := bits.toNat / 2 ^ 23 % 2 ^ 8 ≠ 255

end Souris
