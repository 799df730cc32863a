import Verif.Model.Value

/-!
# Timestamps as text

External code: chrono 0.4.38 (Cargo.lock L303-304), modelled from its source as far as `Display` and `FromStr`
of `NaiveDateTime` are concerned. values.rs L313 and L664 print timestamps, values.rs L813 and value_utils.rs
L182-184 read them.
-/

namespace Souris

namespace Chrono

/-! ## Printing -/

/-- `format/formatting.rs`, `write_hundreds`. -/
def two (n : Nat) : List Char := [digitChar (n / 10), digitChar (n % 10)]

/-- std: `{:0w}` of an unsigned number. -/
def pad (w n : Nat) : List Char := List.replicate (w - (natText n).length) '0' ++ natText n

/-- `naive/date/mod.rs`, `Debug for NaiveDate`: years beyond four digits have a sign (`{:+05}`). -/
def yearText (y : Int) : List Char :=
  if 0 ≤ y ∧ y ≤ 9999 then two (y.toNat / 100) ++ two (y.toNat % 100)
  else (if y < 0 then '-' else '+') :: pad 4 y.natAbs

/-- `naive/date/mod.rs`, `Debug for NaiveDate`. -/
def dateText (y : Int) (m d : Nat) : List Char := yearText y ++ '-' :: (two m ++ '-' :: two d)

/-- `naive/time/mod.rs`, `Debug for NaiveTime`: no fraction, or three, six or nine digits. -/
def fractionText (n : Nat) : List Char :=
  if n = 0 then []
  else if n % 1000000 = 0 then '.' :: pad 3 (n / 1000000)
  else if n % 1000 = 0 then '.' :: pad 6 (n / 1000)
  else '.' :: pad 9 n

/-- `naive/time/mod.rs`, `Debug for NaiveTime`: a leap second is printed as second 60. -/
def timeText (h m s n : Nat) : List Char :=
  let sec := if 1000000000 ≤ n then s + 1 else s
  let nano := if 1000000000 ≤ n then n - 1000000000 else n
  two h ++ ':' :: (two m ++ ':' :: (two sec ++ fractionText nano))

/-- `naive/datetime/mod.rs`, `Display for NaiveDateTime`: date and time with a space in between. -/
def print (t : Timestamp) : List Char :=
  dateText t.year t.month t.day ++ ' ' :: timeText t.hour t.minute t.sec t.nano

/-! ## Reading -/

/-- std: `char::is_whitespace`. -/
def isWhite (c : Char) : Bool :=
  let n := c.toNat
  (9 ≤ n ∧ n ≤ 13) ∨ n = 0x20 ∨ n = 0x85 ∨ n = 0xA0 ∨ n = 0x1680 ∨ (0x2000 ≤ n ∧ n ≤ 0x200A) ∨ n = 0x2028 ∨
    n = 0x2029 ∨ n = 0x202F ∨ n = 0x205F ∨ n = 0x3000

/-- std: `str::trim_start`. -/
def trim (s : List Char) : List Char := s.dropWhile isWhite

/-- `format/scan.rs`, `number` with at least one digit and at most `max`: the number and the rest. The result is
an `i64`. -/
def number (max : Nat) (s : List Char) : Option (Nat × List Char) :=
  let ds := (s.take max).takeWhile fun c => (digitOf c).isSome
  if ds = [] then none else (parseDigits (2 ^ 63 - 1) 0 ds).map (·, s.drop ds.length)

/-- `format/parse.rs`, `Item::Literal`. -/
def lit (x : Char) : List Char → Option (List Char)
  | [] => none
  | c :: s => if c = x then some s else none

/-- `format/parse.rs`, `Item::Numeric(Year)`, and `Parsed::set_year`: four digits, any number of them behind a
sign, and the result is an `i32`. -/
def year (s : List Char) : Option (Int × List Char) :=
  let r : Option (Int × List Char) :=
    match s with
    | '-' :: s => (number s.length s).map fun r => (-(r.1 : Int), r.2)
    | '+' :: s => (number s.length s).map fun r => ((r.1 : Int), r.2)
    | s => (number 4 s).map fun r => ((r.1 : Int), r.2)
  match r with
  | some (y, s) => if -(2 ^ 31) ≤ y ∧ y < 2 ^ 31 then some (y, s) else none
  | none => none

/-- `format/parse.rs`, `Fixed::Nanosecond`, and `scan.rs`, `nanosecond`: nine digits count, further ones are
skipped. -/
def fraction (s : List Char) : Option (Nat × List Char) :=
  match s with
  | '.' :: s =>
    (number 9 s).map fun r =>
      (r.1 * 10 ^ (9 - (s.length - r.2.length)), r.2.dropWhile fun c => (digitOf c).isSome)
  | s => some (0, s)

/-- `format/parsed.rs`, `to_naive_time` with `set_hour`, `set_minute`, `set_second` and `set_nanosecond`, and
`to_naive_date`: second 60 is a leap second. -/
def build (y : Int) (mo d h mi s n : Nat) : Option Timestamp :=
  let sec := if s = 60 then 59 else s
  let nano := if s = 60 then 1000000000 + n else n
  if s ≤ 60 ∧ n < 1000000000 ∧ Timestamp.dateOk y mo d ∧ Timestamp.timeOk h mi sec nano then
    some ⟨y, mo, d, h, mi, sec, nano⟩
  else none

/-- `naive/datetime/mod.rs`, `FromStr for NaiveDateTime`: the items are year, month, day, a `T`, hour, minute,
second and fraction. White space is skipped in front of every item but the fraction. -/
def parse (s : List Char) : Option Timestamp := do
  let (y, s) ← year (trim s)
  let s ← lit '-' (trim s)
  let (mo, s) ← number 2 (trim s)
  let s ← lit '-' (trim s)
  let (d, s) ← number 2 (trim s)
  let s ← lit 'T' (trim s)
  let (h, s) ← number 2 (trim s)
  let s ← lit ':' (trim s)
  let (mi, s) ← number 2 (trim s)
  let s ← lit ':' (trim s)
  let (sec, s) ← number 2 (trim s)
  let (n, s) ← fraction s
  if trim s = [] then build y mo d h mi sec n else none

end Chrono

end Souris
