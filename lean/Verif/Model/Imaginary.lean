import Verif.Model.IntegerConv

/-!
# `Imaginary` (crates/sourisdb/src/types/imaginary.rs)

A float is its bit pattern. The conversions between the two forms (L109-192) are in `Model/Polar.lean`;
`Display` is in `Model/Display.lean`.
-/

namespace Souris

/-- imaginary.rs L21-36. -/
inductive Imaginary
  | cartesian (real imaginary : Integer)
  | polar (modulus argument : UInt64)
deriving DecidableEq, Repr

namespace FloatFormat

/-- IEEE-754 `==`: false on NaN; the two zeros are equal; otherwise equality of bit patterns. -/
def ieeeEq (F : FloatFormat) (a b : Nat) : Bool :=
  if F.isNan a ∨ F.isNan b then false
  else if F.exponent a = 0 ∧ F.mantissa a = 0 ∧ F.exponent b = 0 ∧ F.mantissa b = 0 then true
  else a = b

/-- The number given to the hasher for `classify()`: imaginary.rs L48-54, L58-64, values.rs L267-273
and L288-294. -/
def classNum (F : FloatFormat) (a : Nat) : Nat :=
  if F.isNan a then 0
  else if ¬ F.isFinite a then 1
  else if F.exponent a = 0 ∧ F.mantissa a = 0 then 2
  else if F.exponent a = 0 then 3
  else 4

end FloatFormat

namespace Imaginary

open SignedState in
/-- imaginary.rs L226-236. -/
def magic : SignedState → SignedState → UInt8
  | unsigned, unsigned => 1
  | unsigned, signedPositive => 2
  | signedPositive, unsigned => 3
  | unsigned, signedNegative => 4
  | signedNegative, unsigned => 5
  | signedPositive, signedPositive => 6
  | signedPositive, signedNegative => 7
  | signedNegative, signedPositive => 8
  | signedNegative, signedNegative => 9

/-- imaginary.rs L217-250: `ser`. -/
def ser : Imaginary → UInt8 × List UInt8
  | cartesian re im => (magic re.ser.1 im.ser.1, re.ser.2 ++ im.ser.2)
  | polar modulus argument => (0, leBytes 8 modulus.toNat ++ leBytes 8 argument.toNat)

open SignedState in
/-- imaginary.rs L262-274. -/
def unMagic (m : UInt8) : Out IntegerSerError (SignedState × SignedState) :=
  if m = 1 then .ok (unsigned, unsigned)
  else if m = 2 then .ok (unsigned, signedPositive)
  else if m = 3 then .ok (signedPositive, unsigned)
  else if m = 4 then .ok (unsigned, signedNegative)
  else if m = 5 then .ok (signedNegative, unsigned)
  else if m = 6 then .ok (signedPositive, signedPositive)
  else if m = 7 then .ok (signedPositive, signedNegative)
  else if m = 8 then .ok (signedNegative, signedPositive)
  else if m = 9 then .ok (signedNegative, signedNegative)
  else .err (.invalidSignedStateDiscriminant m)

/-- `f64::from_le_bytes(*bytes.read_exact().ok_or(NotEnoughBytes)?)`, L280-283. -/
def readF64 : Parser IntegerSerError UInt64 := do
  let bs ← Parser.read .notEnoughBytes 8
  return UInt64.ofNat (ofLe bs)

/-- imaginary.rs L258-287: `deser`. The `unreachable!` of L263 is behind `magic_bits > 0`. -/
def deser (m : UInt8) : Parser IntegerSerError Imaginary :=
  if m > 0 then do
    let (reSs, imSs) ← Parser.lift (unMagic m)
    let re ← Integer.deser reSs
    let im ← Integer.deser imSs
    return .cartesian re im
  else do
    let modulus ← readF64
    let argument ← readF64
    return .polar modulus argument

/-- `PartialEq`, derived (L18): fields are compared with their own `==`. -/
def eq : Imaginary → Imaginary → Bool
  | cartesian a b, cartesian a' b' => a.eq a' && b.eq b'
  | polar a b, polar a' b' =>
    f64Format.ieeeEq a.toNat a'.toNat && f64Format.ieeeEq b.toNat b'.toNat
  | _, _ => false

end Imaginary

end Souris
