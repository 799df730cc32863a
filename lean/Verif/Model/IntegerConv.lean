import Verif.Model.Integer

/-!
# Conversions of `Integer`: text, floats, JSON numbers (crates/sourisdb/src/types/integer.rs)

std's decimal formatting and parsing of `u128`/`i128` are transcribed from the documentation of
`core::num`. A string is a `List Char`. A float is its IEEE-754 bit pattern.
-/

namespace Souris

/-! ## Decimal text -/

/-- The decimal digit character of `d < 10`. -/
def digitChar (d : Nat) : Char := Char.ofNat (48 + d)

/-- std: `Display` of an unsigned integer. -/
def natText (n : Nat) : List Char :=
  if n < 10 then [digitChar n] else natText (n / 10) ++ [digitChar (n % 10)]

/-- std: `Display` of a signed integer. -/
def intText (n : Int) : List Char :=
  if n < 0 then '-' :: natText n.natAbs else natText n.natAbs

/-- std: `char::to_digit(10)` on a byte; `None` for anything but `'0'..='9'`. -/
def digitOf (c : Char) : Option Nat :=
  if 48 ≤ c.toNat ∧ c.toNat ≤ 57 then some (c.toNat - 48) else none

/-- std: the digit loop of `from_str_radix`, with checked arithmetic against the largest magnitude. -/
def parseDigits (max : Nat) : Nat → List Char → Option Nat
  | acc, [] => some acc
  | acc, c :: cs =>
    match digitOf c with
    | none => none
    | some d => if acc * 10 + d ≤ max then parseDigits max (acc * 10 + d) cs else none

/-- Digits after the sign: at least one is needed. -/
def parseMagnitude (max : Nat) (cs : List Char) : Option Nat :=
  if cs = [] then none else parseDigits max 0 cs

/-- std: `str::parse::<u128>` (an optional `+`, then digits). -/
def parseU128 : List Char → Option Nat
  | '+' :: cs => parseMagnitude (2 ^ 128 - 1) cs
  | cs => parseMagnitude (2 ^ 128 - 1) cs

/-- std: `str::parse::<i128>` (an optional sign, then digits). -/
def parseI128 : List Char → Option Int
  | '-' :: cs => (parseMagnitude (2 ^ 127) cs).map (fun n => -(n : Int))
  | '+' :: cs => (parseMagnitude (2 ^ 127 - 1) cs).map (fun n => (n : Int))
  | cs => (parseMagnitude (2 ^ 127 - 1) cs).map (fun n => (n : Int))

namespace IntegerSerError

/-- integer.rs L663-681: `Display`, for the two errors that a conversion can return. The other texts
never show up in the modelled functions. -/
def text : IntegerSerError → List Char
  | tooBigToFit => "Attempted to deserialise into size too small to fit".toList
  | signError => "Tried to fit integer into incorrect sign".toList
  | _ => []

end IntegerSerError

namespace Integer

/-- integer.rs L146-161: `Display`. -/
def display (i : Integer) : List Char :=
  match i.signedState with
  | .signedPositive | .signedNegative =>
    match i.toSigned 16 with
    | .ok n => intText n
    | .err e => e.text
    | .panic _ => []
  | .unsigned =>
    match i.toUnsigned 16 with
    | .ok n => natText n
    | .err e => e.text
    | .panic _ => []

/-- integer.rs L612-637: `FromStr`. The first byte is `-` iff the first character is. -/
def fromStr (s : List Char) : Out IntegerSerError Integer :=
  match s with
  | [] => .err .notEnoughBytes
  | c :: cs =>
    if s = ['0'] then .ok ⟨.unsigned, List.replicate integerMaxSize 0, 0⟩
    else if c = '-' then
      match parseI128 (c :: cs) with
      | some n => .ok (ofSigned 16 n)
      | none => .err .integerParseError
    else
      match parseU128 (c :: cs) with
      | some n => .ok (ofUnsigned 16 n)
      | none => .err .integerParseError

end Integer

/-! ## Floats

A finite `f64` is `num / 2^1074` for an integer `num`, a finite `f32` is `num / 2^149`. All operations
used by the conversion (`fract`, `floor`, comparison, `as`) are exact on these numbers. -/

/-- The parameters of an IEEE-754 binary format: mantissa bits (without the hidden one), exponent bits,
and the power `scale` such that every finite value is a multiple of `2^-scale`. -/
structure FloatFormat where
  mant : Nat
  expo : Nat
  scale : Nat
deriving DecidableEq, Repr

def f64Format : FloatFormat := ⟨52, 11, 1074⟩
def f32Format : FloatFormat := ⟨23, 8, 149⟩

namespace FloatFormat

variable (F : FloatFormat)

/-- Sign bit. -/
def neg (bits : Nat) : Bool := (bits / 2 ^ (F.mant + F.expo)) % 2 = 1
/-- Exponent field. -/
def exponent (bits : Nat) : Nat := (bits / 2 ^ F.mant) % 2 ^ F.expo
/-- Mantissa field. -/
def mantissa (bits : Nat) : Nat := bits % 2 ^ F.mant
/-- `is_finite`. -/
def isFinite (bits : Nat) : Bool := F.exponent bits ≠ 2 ^ F.expo - 1
/-- `is_nan`. -/
def isNan (bits : Nat) : Bool := F.exponent bits = 2 ^ F.expo - 1 ∧ F.mantissa bits ≠ 0

/-- Magnitude of a finite float in units of `2^-scale`. -/
def mag (bits : Nat) : Nat :=
  if F.exponent bits = 0 then F.mantissa bits
  else (2 ^ F.mant + F.mantissa bits) * 2 ^ (F.exponent bits - 1)

/-- A finite float in units of `2^-scale`. -/
def num (bits : Nat) : Int := if F.neg bits then -(F.mag bits : Int) else F.mag bits

/-- `fract()`: the value minus its truncation, in units of `2^-scale`. -/
def fract (bits : Nat) : Int := (F.num bits).tmod (2 ^ F.scale)

/-- `floor()` as an integer. -/
def floor (bits : Nat) : Int := F.num bits / (2 ^ F.scale)

/-- The bits of infinity. -/
def inf : Nat := (2 ^ F.expo - 1) * 2 ^ F.mant

/-- The exponent of the spacing of floats near `n / d`, in units of `2^-scale`. -/
def spacing (n d : Nat) : Nat :=
  if n * 2 ^ F.scale / d < 2 ^ (F.mant + 1) then 0 else Nat.log2 (n * 2 ^ F.scale / d) - F.mant

/-- The bits of the float nearest to `n / d`, ties to even; infinity when it is too large. -/
def ofRatio (n d : Nat) : Nat :=
  let s := F.spacing n d
  let q := n * 2 ^ F.scale / (d * 2 ^ s)
  let r := n * 2 ^ F.scale % (d * 2 ^ s)
  let up := decide (d * 2 ^ s < 2 * r) || (decide (2 * r = d * 2 ^ s) && decide (q % 2 = 1))
  min (s * 2 ^ F.mant + (if up then q + 1 else q)) F.inf

end FloatFormat

/-- integer.rs L377-386: `FloatToIntegerConversionError`, with the bits of the `f64` that it carries. -/
inductive FloatToIntegerError
  | decimalsNotSupported (decimals : UInt64)
  | tooLarge
  | notFinite
deriving DecidableEq, Repr

namespace Integer

/-- integer.rs L402-435: `TryFrom<f64>`. `f64::EPSILON` is `2^-52`; `i128::MIN as f64` is `-2^127`;
`u128::MAX as f64` rounds up to `2^128`. Casting `floored` (an integer in range) is exact. -/
def ofF64 (bits : UInt64) : Out FloatToIntegerError Integer :=
  let b := bits.toNat
  if ¬ f64Format.isFinite b then .err .notFinite
  else if f64Format.fract b > 2 ^ (1074 - 52) then
    .err (.decimalsNotSupported (.ofNat (f64Format.ofRatio (f64Format.fract b).toNat (2 ^ 1074))))
  else
    let floored := f64Format.floor b
    if floored < 0 then
      if floored > -(2 ^ 127) then .ok (ofSigned 16 floored) else .err .tooLarge
    else
      if floored < 2 ^ 128 then .ok (ofUnsigned 16 floored.toNat) else .err .tooLarge

/-- integer.rs L437-468: `TryFrom<f32>`, where `f64::from` is exact. `f32::EPSILON` is `2^-23`; `i128::MIN as f32`
is `-2^127`; `u128::MAX as f32` is `+∞` (it is above `f32::MAX` by more than half a unit), and no float is greater
than `+∞`, so the test of L461 is always false. For NaN and infinities `fract` is NaN, and no
comparison with NaN holds; `floor` is the identity on them. -/
def ofF32 (bits : UInt32) : Out FloatToIntegerError Integer :=
  let b := bits.toNat
  if f32Format.isFinite b then
    if f32Format.fract b > 2 ^ (149 - 23) then
      .err (.decimalsNotSupported (.ofNat (f64Format.ofRatio (f32Format.fract b).toNat (2 ^ 149))))
    else
      let floored := f32Format.floor b
      if floored < 0 then
        if floored > -(2 ^ 127) then .ok (ofSigned 16 floored) else .err .tooLarge
      else .err .tooLarge
  else .err .tooLarge

end Integer

/-! ## JSON numbers -/

/-- serde_json's `Number` (without `arbitrary_precision`): non-negative, negative, float. A float is
kept as its bits. -/
inductive SJNumber
  | posInt (n : Nat)
  | negInt (n : Int)
  | float (bits : UInt64)
deriving DecidableEq, Repr

namespace SJNumber

/-- `Number::from(u64)` (and from narrower unsigned types). -/
def ofU64 (n : Nat) : SJNumber := posInt n
/-- `Number::from(i64)`. -/
def ofI64 (n : Int) : SJNumber := if n < 0 then negInt n else posInt n.toNat
/-- `Number::as_u64`. -/
def asU64 : SJNumber → Option Nat
  | posInt n => some n
  | _ => none
/-- `Number::as_i64`. -/
def asI64 : SJNumber → Option Int
  | posInt n => if n < 2 ^ 63 then some n else none
  | negInt n => some n
  | float _ => none

end SJNumber

namespace Integer

/-- integer.rs L119-131: `to_json` (always a number). -/
def toJson (i : Integer) : Option SJNumber :=
  if i.isNegative then
    match i.toSigned 8 with
    | .ok n => some (.ofI64 n)
    | _ => none
  else
    match i.toUnsigned 8 with
    | .ok n => some (.ofU64 n)
    | _ => none

/-- integer.rs L133-143: `from_json`. -/
def fromJson (n : SJNumber) : Option Integer :=
  match n.asU64 with
  | some u => some (ofUnsigned 8 u)
  | none => n.asI64.map (ofSigned 8)

end Integer

end Souris
