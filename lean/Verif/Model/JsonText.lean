import Verif.Model.FloatArith
import Verif.Model.IntegerSerde
import Verif.Model.Json

/-!
# JSON text

External code: serde_json 1.0.129 with its default features (in particular without `float_roundtrip`,
`arbitrary_precision`, `preserve_order` and `unbounded_depth`; Cargo.toml of the three crates and Cargo.lock
L1950-1959), as far as `to_string`, `to_string_pretty` and `from_str` of a `Value` are concerned, modelled
from its source; and ryu 1.0.18's layout of floats. values.rs L1064 and L1327, store.rs L143, main.rs L282
and value_utils.rs of mouse call it.

Texts are lists of characters; serde_json works on their UTF-8 bytes, of which only ASCII ones matter
outside of strings.
-/

namespace Souris

namespace SerdeJson

/-! ## Floats to text -/

/-- Is the decimal `d * 10^k` read (by correct rounding) as the float with bits `b`? -/
def roundTo (d : Nat) (k : Int) : Nat :=
  if 0 ≤ k then f64Format.ofRatio (d * 10 ^ k.natAbs) 1 else f64Format.ofRatio d (10 ^ k.natAbs)

/-- Whole units of `10^k` in the float with bits `b`, and the rest of the division with its divisor. -/
def units (b : Nat) (k : Int) : Nat × Nat × Nat :=
  if 0 ≤ k then
    let D := 2 ^ 1074 * 10 ^ k.natAbs
    (f64Format.mag b / D, f64Format.mag b % D, D)
  else
    let N := f64Format.mag b * 10 ^ k.natAbs
    (N / 2 ^ 1074, N % 2 ^ 1074, 2 ^ 1074)

/-- The nearer one of the two multiples of `10^k` around the float with bits `b`, else the other one, if it is
read as that float. -/
def tryUnit (b : Nat) (k : Int) : Option Nat :=
  let (q, r, D) := units b k
  let first := if D < 2 * r ∨ (2 * r = D ∧ q % 2 = 1) then q + 1 else q
  let second := if D < 2 * r ∨ (2 * r = D ∧ q % 2 = 1) then q else q + 1
  if roundTo first k = b then some first
  else if roundTo second k = b then some second
  else none

/-- The exponent of the first digit: the largest `t` with `10^t` at most the float with bits `b`, searched
downwards from `fuel - 324`. -/
def firstDigit (b : Nat) : Nat → Int
  | 0 => -324
  | fuel + 1 =>
    let t : Int := (fuel : Int) - 323
    if (units b t).1 = 0 then firstDigit b fuel else t

/-- Search for the number of digits, from the fewest. -/
def searchDigits (b : Nat) (t : Int) : Nat → Nat × Int
  | 0 => (0, 0)
  | fuel + 1 =>
    let k : Int := t - (17 - (fuel + 1 : Nat))
    match tryUnit b k with
    | some d => if d = 10 ∧ fuel = 16 then (1, k + 1) else (d, k)
    | none => searchDigits b t fuel

/-- ryu, `d2d`: the decimal with the fewest digits that is read as the float, as digits and an exponent of
ten; the nearest one if there are several. `b` is the bits of a finite float without its sign, not zero. -/
def shortest (b : Nat) : Nat × Int := searchDigits b (firstDigit b 632) 17

/-- ryu, `pretty/mod.rs`, `format64`, without sign: the layout of `d * 10^k`. -/
def layout (d : Nat) (k : Int) : List Char :=
  let ds := natText d
  let kk : Int := ds.length + k
  if 0 ≤ k ∧ kk ≤ 16 then ds ++ List.replicate k.natAbs '0' ++ ['.', '0']
  else if 0 < kk ∧ kk ≤ 16 then ds.take kk.natAbs ++ '.' :: ds.drop kk.natAbs
  else if -5 < kk ∧ kk ≤ 0 then '0' :: '.' :: (List.replicate kk.natAbs '0' ++ ds)
  else if ds.length = 1 then ds ++ 'e' :: intText (kk - 1)
  else ds.take 1 ++ '.' :: (ds.drop 1 ++ 'e' :: intText (kk - 1))

/-- ryu, `format_finite` of an `f64`. -/
def floatText (bits : UInt64) : List Char :=
  let b := bits.toNat % 2 ^ 63
  let s := if b = 0 then ['0', '.', '0'] else layout (shortest b).1 (shortest b).2
  if 2 ^ 63 ≤ bits.toNat then '-' :: s else s

/-! ## Values to text -/

/-- serde_json `ser.rs`, `HEX_DIGITS`. -/
def hexChar (n : Nat) : Char := if n < 10 then Char.ofNat (48 + n) else Char.ofNat (87 + n)

/-- serde_json `ser.rs`, `ESCAPE` and `write_char_escape`. -/
def escapeChar (c : Char) : List Char :=
  if c = '"' then ['\\', '"']
  else if c = '\\' then ['\\', '\\']
  else if c.toNat = 8 then ['\\', 'b']
  else if c.toNat = 9 then ['\\', 't']
  else if c.toNat = 10 then ['\\', 'n']
  else if c.toNat = 12 then ['\\', 'f']
  else if c.toNat = 13 then ['\\', 'r']
  else if c.toNat < 32 then ['\\', 'u', '0', '0', hexChar (c.toNat / 16), hexChar (c.toNat % 16)]
  else [c]

/-- serde_json `ser.rs`, `format_escaped_str`. -/
def strText (s : List Char) : List Char := '"' :: (s.flatMap escapeChar ++ ['"'])

/-- `Number`'s `Serialize`. -/
def numberText : SJNumber → List Char
  | .posInt n => natText n
  | .negInt n => intText n
  | .float bits => floatText bits

/-- Parts of a list with commas in between. -/
def commas : List (List Char) → List Char
  | [] => []
  | [x] => x
  | x :: xs => x ++ ',' :: commas xs

mutual
/-- serde_json `to_string` of a `Value` (also `Display`): `CompactFormatter`. -/
def print : SJValue → List Char
  | .null => ['n', 'u', 'l', 'l']
  | .bool true => ['t', 'r', 'u', 'e']
  | .bool false => ['f', 'a', 'l', 's', 'e']
  | .number n => numberText n
  | .string s => strText s
  | .array a => '[' :: (commas (printList a) ++ [']'])
  | .object m => '{' :: (commas (printEntries m) ++ ['}'])

def printList : List SJValue → List (List Char)
  | [] => []
  | v :: vs => print v :: printList vs

def printEntries : List (List Char × SJValue) → List (List Char)
  | [] => []
  | (k, v) :: vs => (strText k ++ ':' :: print v) :: printEntries vs
end

/-- serde_json `ser.rs`, `PrettyFormatter`: a new line with two spaces per level. -/
def newLine (level : Nat) : List Char := '\n' :: List.replicate (2 * level) ' '

/-- `begin_array_value`, `begin_object_key`: parts of a list on lines of their own. -/
def lines (level : Nat) : List (List Char) → List Char
  | [] => []
  | [x] => newLine level ++ x
  | x :: xs => newLine level ++ x ++ ',' :: lines level xs

mutual
/-- serde_json `to_string_pretty` of a `Value`, at a level of indentation. -/
def pretty (level : Nat) : SJValue → List Char
  | .null => ['n', 'u', 'l', 'l']
  | .bool true => ['t', 'r', 'u', 'e']
  | .bool false => ['f', 'a', 'l', 's', 'e']
  | .number n => numberText n
  | .string s => strText s
  | .array [] => ['[', ']']
  | .array (v :: vs) => '[' :: (lines (level + 1) (prettyList (level + 1) (v :: vs)) ++ newLine level ++ [']'])
  | .object [] => ['{', '}']
  | .object (e :: es) => '{' :: (lines (level + 1) (prettyEntries (level + 1) (e :: es)) ++ newLine level ++ ['}'])

def prettyList (level : Nat) : List SJValue → List (List Char)
  | [] => []
  | v :: vs => pretty level v :: prettyList level vs

def prettyEntries (level : Nat) : List (List Char × SJValue) → List (List Char)
  | [] => []
  | (k, v) :: vs => (strText k ++ ':' :: ' ' :: pretty level v) :: prettyEntries level vs
end

/-! ## Text to floats -/

/-- serde_json `de.rs`, `POW10`: the float nearest to `10^e`. -/
def pow10 (e : Nat) : Nat := f64Format.ofRatio (10 ^ e) 1

/-- serde_json `de.rs`, the loop of `f64_from_parts` without `float_roundtrip`; `none` is the error
`NumberOutOfRange`. Every iteration but the last brings the exponent closer to zero by 308, so the given
fuel suffices (`scale_fuel`). -/
def scale : Nat → Nat → Int → Option Nat
  | 0, _, _ => none
  | fuel + 1, f, e =>
    if e.natAbs ≤ 308 then
      if 0 ≤ e then
        let g := f64Format.mul f (pow10 e.natAbs)
        if g = f64Format.inf then none else some g
      else some (f64Format.div f (pow10 e.natAbs))
    else if f = 0 then some f
    else if 0 ≤ e then none
    else scale fuel (f64Format.div f (pow10 308)) (e + 308)

/-- A float from its sign and its other bits. -/
def signed (positive : Bool) (b : Nat) : UInt64 := UInt64.ofNat (if positive then b else 2 ^ 63 + b)

/-- serde_json `de.rs`, `f64_from_parts`. The exponent is an `i32` in Rust; it saturates where it cannot
matter, because the result is zero or out of range. -/
def fromParts (positive : Bool) (significand : Nat) (e : Int) : Option UInt64 :=
  (scale (e.natAbs / 308 + 1) (f64Format.castNat significand) e).map (signed positive)

/-! ## Text to numbers

Each function returns the number and the text behind it. -/

/-- Skips digits. -/
def eatDigits (cs : List Char) : List Char := cs.dropWhile (fun c => (digitOf c).isSome)

/-- serde_json `de.rs`, the loop of `parse_exponent`, and `parse_exponent_overflow`. -/
def expLoop (positive : Bool) (significand : Nat) (start : Int) (positiveExp : Bool) :
    Nat → List Char → Option (UInt64 × List Char)
  | e, cs =>
    match cs with
    | [] => (fromParts positive significand (if positiveExp then start + e else start - e)).map (·, [])
    | c :: rest =>
      match digitOf c with
      | none => (fromParts positive significand (if positiveExp then start + e else start - e)).map (·, c :: rest)
      | some d =>
        if 2 ^ 31 - 1 < e * 10 + d then
          if significand ≠ 0 ∧ positiveExp then none else some (signed positive 0, eatDigits rest)
        else expLoop positive significand start positiveExp (e * 10 + d) rest

/-- serde_json `de.rs`, `parse_exponent`, behind the `e`. -/
def expPart (positive : Bool) (significand : Nat) (start : Int) (cs : List Char) : Option (UInt64 × List Char) :=
  let positiveExp := cs.head? ≠ some '-'
  let cs := if cs.head? = some '+' ∨ cs.head? = some '-' then cs.tail else cs
  match cs with
  | [] => none
  | c :: rest =>
    match digitOf c with
    | none => none
    | some d => expLoop positive significand start positiveExp d rest

/-- Either an exponent or the end of the number. -/
def expOrEnd (positive : Bool) (significand : Nat) (e : Int) (cs : List Char) : Option (UInt64 × List Char) :=
  match cs with
  | [] => (fromParts positive significand e).map (·, [])
  | c :: rest =>
    if c = 'e' ∨ c = 'E' then expPart positive significand e rest
    else (fromParts positive significand e).map (·, c :: rest)

/-- serde_json `de.rs`, the loop of `parse_decimal`, and `parse_decimal_overflow` without `float_roundtrip`.
`after` counts the digits behind the point. -/
def decLoop (positive : Bool) (before : Int) : Nat → Nat → List Char → Option (UInt64 × List Char)
  | significand, after, cs =>
    match cs with
    | [] => if after = 0 then none else expOrEnd positive significand (before - after) []
    | c :: rest =>
      match digitOf c with
      | none => if after = 0 then none else expOrEnd positive significand (before - after) (c :: rest)
      | some d =>
        if 2 ^ 64 - 1 < significand * 10 + d then expOrEnd positive significand (before - after) (eatDigits rest)
        else decLoop positive before (significand * 10 + d) (after + 1) rest

/-- serde_json `de.rs`, `parse_long_integer` without `float_roundtrip`; `extra` counts the digits that did not
fit. -/
def longInteger (positive : Bool) (significand : Nat) : Nat → List Char → Option (UInt64 × List Char)
  | extra, cs =>
    match cs with
    | [] => expOrEnd positive significand extra []
    | c :: rest =>
      if (digitOf c).isSome then longInteger positive significand (extra + 1) rest
      else if c = '.' then decLoop positive extra significand 0 rest
      else expOrEnd positive significand extra (c :: rest)

/-- serde_json `de.rs`, the last case of `parse_number`. -/
def integerEnd (positive : Bool) (significand : Nat) : SJNumber :=
  if positive then .posInt significand
  else if significand = 0 ∨ 2 ^ 63 < significand then .float (signed false (f64Format.castNat significand))
  else .negInt (-(significand : Int))

/-- serde_json `de.rs`, `parse_number`. -/
def numberEnd (positive : Bool) (significand : Nat) (cs : List Char) : Option (SJNumber × List Char) :=
  match cs with
  | [] => some (integerEnd positive significand, [])
  | c :: rest =>
    if c = '.' then (decLoop positive 0 significand 0 rest).map fun r => (.float r.1, r.2)
    else if c = 'e' ∨ c = 'E' then (expPart positive significand 0 rest).map fun r => (.float r.1, r.2)
    else some (integerEnd positive significand, c :: rest)

/-- serde_json `de.rs`, the loop of `parse_integer`. -/
def intLoop (positive : Bool) : Nat → List Char → Option (SJNumber × List Char)
  | significand, cs =>
    match cs with
    | [] => numberEnd positive significand []
    | c :: rest =>
      match digitOf c with
      | none => numberEnd positive significand (c :: rest)
      | some d =>
        if 2 ^ 64 - 1 < significand * 10 + d then
          (longInteger positive significand 1 rest).map fun r => (.float r.1, r.2)
        else intLoop positive (significand * 10 + d) rest

/-- serde_json `de.rs`, `parse_integer`, which is `parse_any_number`. -/
def number (positive : Bool) (cs : List Char) : Option (SJNumber × List Char) :=
  match cs with
  | [] => none
  | c :: rest =>
    match digitOf c with
    | none => none
    | some 0 =>
      match rest with
      | [] => numberEnd positive 0 []
      | c' :: rest' => if (digitOf c').isSome then none else numberEnd positive 0 (c' :: rest')
    | some (d + 1) => intLoop positive (d + 1) rest

/-! ## Text to strings -/

/-- serde_json `read.rs`, `HEX`. -/
def hexDigit (c : Char) : Option Nat :=
  if 48 ≤ c.toNat ∧ c.toNat ≤ 57 then some (c.toNat - 48)
  else if 97 ≤ c.toNat ∧ c.toNat ≤ 102 then some (c.toNat - 87)
  else if 65 ≤ c.toNat ∧ c.toNat ≤ 70 then some (c.toNat - 55)
  else none

/-- serde_json `read.rs`, `decode_hex_escape`. -/
def hex4 : List Char → Option (Nat × List Char)
  | a :: b :: c :: d :: rest =>
    match hexDigit a, hexDigit b, hexDigit c, hexDigit d with
    | some a, some b, some c, some d => some (((a * 16 + b) * 16 + c) * 16 + d, rest)
    | _, _, _, _ => none
  | _ => none

/-- serde_json `read.rs`, `parse_unicode_escape` with `validate`. -/
def unicode (cs : List Char) : Option (Char × List Char) :=
  match hex4 cs with
  | none => none
  | some (n, rest) =>
    if 0xDC00 ≤ n ∧ n ≤ 0xDFFF then none
    else if n < 0xD800 ∨ 0xDBFF < n then some (Char.ofNat n, rest)
    else
      match rest with
      | x :: y :: rest =>
        if x = '\\' ∧ y = 'u' then
          match hex4 rest with
          | none => none
          | some (n2, rest) =>
            if n2 < 0xDC00 ∨ 0xDFFF < n2 then none
            else some (Char.ofNat ((n - 0xD800) * 1024 + (n2 - 0xDC00) + 0x10000), rest)
        else none
      | _ => none

/-- serde_json `read.rs`, `parse_escape`, behind the backslash. -/
def escape : List Char → Option (Char × List Char)
  | [] => none
  | c :: rest =>
    if c = '"' then some ('"', rest)
    else if c = '\\' then some ('\\', rest)
    else if c = '/' then some ('/', rest)
    else if c = 'b' then some (Char.ofNat 8, rest)
    else if c = 'f' then some (Char.ofNat 12, rest)
    else if c = 'n' then some (Char.ofNat 10, rest)
    else if c = 'r' then some (Char.ofNat 13, rest)
    else if c = 't' then some (Char.ofNat 9, rest)
    else if c = 'u' then unicode rest
    else none

/-- serde_json `read.rs`, `parse_str`, behind the opening quote. Every round reads at least one character, so
fuel of more than the length suffices. -/
def str : Nat → List Char → Option (List Char × List Char)
  | 0, _ => none
  | _ + 1, [] => none
  | fuel + 1, c :: rest =>
    if c = '"' then some ([], rest)
    else if c = '\\' then
      match escape rest with
      | none => none
      | some (x, rest) => (str fuel rest).map fun r => (x :: r.1, r.2)
    else if c.toNat < 32 then none
    else (str fuel rest).map fun r => (c :: r.1, r.2)

/-! ## Text to values -/

/-- serde_json `de.rs`, `parse_whitespace`. -/
def skip (cs : List Char) : List Char := cs.dropWhile ws

/-- serde_json `de.rs`, `parse_ident`. -/
def ident : List Char → List Char → Option (List Char)
  | [], cs => some cs
  | _ :: _, [] => none
  | x :: xs, c :: cs => if c = x then ident xs cs else none

/-- serde_json `de.rs`, `parse_object_colon`. -/
def colon (cs : List Char) : Option (List Char) :=
  match skip cs with
  | [] => none
  | c :: rest => if c = ':' then some rest else none

mutual
/-- serde_json `de.rs`, `deserialize_any` with the visitor of `Value`. `depth` is `remaining_depth`. Every
call but those that start with a bracket reads a character, so fuel of twice the length suffices
(`value_complete`). -/
def value : Nat → Nat → List Char → Option (SJValue × List Char)
  | 0, _, _ => none
  | fuel + 1, depth, cs =>
    match skip cs with
    | [] => none
    | c :: rest =>
      if c = 'n' then (ident ['u', 'l', 'l'] rest).map (SJValue.null, ·)
      else if c = 't' then (ident ['r', 'u', 'e'] rest).map (SJValue.bool true, ·)
      else if c = 'f' then (ident ['a', 'l', 's', 'e'] rest).map (SJValue.bool false, ·)
      else if c = '-' then (number false rest).map fun r => (.number r.1, r.2)
      else if (digitOf c).isSome then (number true (c :: rest)).map fun r => (.number r.1, r.2)
      else if c = '"' then (str (rest.length + 1) rest).map fun r => (.string r.1, r.2)
      else if c = '[' then
        if depth ≤ 1 then none
        else (elements fuel (depth - 1) true rest).map fun r => (.array r.1, r.2)
      else if c = '{' then
        if depth ≤ 1 then none
        else (entries fuel (depth - 1) true rest).map fun r =>
          (.object (r.1.foldl (fun m e => SJValue.insert e.1 e.2 m) []), r.2)
      else none

/-- serde_json `de.rs`, `SeqAccess::next_element_seed` until it returns `None`, and `end_seq`. -/
def elements : Nat → Nat → Bool → List Char → Option (List SJValue × List Char)
  | 0, _, _, _ => none
  | fuel + 1, depth, first, cs =>
    match skip cs with
    | [] => none
    | c :: rest =>
      if c = ']' then some ([], rest)
      else
        let start := if first then some (c :: rest)
          else if c = ',' then
            match skip rest with
            | [] => none
            | c' :: rest' => if c' = ']' then none else some (c' :: rest')
          else none
        match start with
        | none => none
        | some cs =>
          match value fuel depth cs with
          | none => none
          | some (v, cs) => (elements fuel depth false cs).map fun r => (v :: r.1, r.2)

/-- serde_json `de.rs`, `MapAccess::next_key_seed` and `next_value_seed` until there are no more, and
`end_map`. -/
def entries : Nat → Nat → Bool → List Char → Option (List (List Char × SJValue) × List Char)
  | 0, _, _, _ => none
  | fuel + 1, depth, first, cs =>
    match skip cs with
    | [] => none
    | c :: rest =>
      if c = '}' then some ([], rest)
      else
        let start := if first then some (c :: rest)
          else if c = ',' then some (skip rest)
          else none
        match start with
        | none => none
        | some [] => none
        | some (c :: cs) =>
          if c = '"' then
            match str (cs.length + 1) cs with
            | none => none
            | some (k, cs) =>
              match colon cs with
              | none => none
              | some cs =>
                match value fuel depth cs with
                | none => none
                | some (v, cs) => (entries fuel depth false cs).map fun r => ((k, v) :: r.1, r.2)
          else none
end

/-- serde_json `de.rs`, `from_str::<Value>`: a value and nothing but white space behind it. -/
def parse (s : List Char) : Option SJValue :=
  match value (2 * s.length + 1) 128 s with
  | none => none
  | some (v, rest) => if (skip rest).isEmpty then some v else none

end SerdeJson

end Souris
