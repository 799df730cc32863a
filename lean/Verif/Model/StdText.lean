import Verif.Model.FloatArith
import Verif.Model.Display
import Verif.Model.MouseEntry

/-!
# Floats and IP addresses as text: std's `Display` and `FromStr`

What `Display for Value` (values.rs L302-371) and `Display for Imaginary` (imaginary.rs L72-87) print through
std, and what `mouse` reads through std when a float or an address is typed (value_utils.rs L298-323 and,
for complex numbers, L150-174). Modelled from the source of `core` 1.80: `num/flt2dec`, `fmt/float.rs`, `num/dec2flt`, `net/parser.rs`
and `net/ip_addr.rs`. Those of its paths that only make it faster are left out: grisu and dragon are one
search for the shortest digits, and the algorithms of `dec2flt` are one correctly rounded division.
-/

namespace Souris

namespace StdText

/-- A format and what is known of its decimals: how many digits tell its floats apart, and between which
powers of ten they are. -/
structure Decimals where
  fmt : FloatFormat
  digits : Nat
  lo : Nat
  hi : Nat

/-- `f64`; `flt2dec`, `MAX_SIG_DIGITS`. -/
def dec64 : Decimals := ⟨f64Format, 17, 324, 309⟩

/-- `f32`. -/
def dec32 : Decimals := ⟨f32Format, 9, 45, 39⟩

section

variable (F : FloatFormat)

/-- The bits of the float nearest to `d * 10^k`, ties to even; infinity if it is too large. -/
def roundTo (d : Nat) (k : Int) : Nat :=
  if 0 ≤ k then F.ofRatio (d * 10 ^ k.natAbs) 1 else F.ofRatio d (10 ^ k.natAbs)

/-- Whole units of `10^k` in the float with bits `b`, and the rest of the division with its divisor. -/
def units (b : Nat) (k : Int) : Nat × Nat × Nat :=
  if 0 ≤ k then
    let D := 2 ^ F.scale * 10 ^ k.natAbs
    (F.mag b / D, F.mag b % D, D)
  else
    let N := F.mag b * 10 ^ k.natAbs
    (N / 2 ^ F.scale, N % 2 ^ F.scale, 2 ^ F.scale)

/-- The nearer one of the two multiples of `10^k` around the float with bits `b` (the larger one if both are
as near), else the other one, if it is read as that float. -/
def tryUnit (b : Nat) (k : Int) : Option Nat :=
  let (q, r, D) := units F b k
  let first := if D ≤ 2 * r then q + 1 else q
  let second := if D ≤ 2 * r then q else q + 1
  if roundTo F first k = b then some first
  else if roundTo F second k = b then some second
  else none

end

section

variable (D : Decimals)

/-- The exponent of the first digit: the largest `t` with `10^t` at most the float with bits `b`, searched
downwards from `fuel - lo`. -/
def firstDigit (b : Nat) : Nat → Int
  | 0 => -(D.lo : Int)
  | fuel + 1 =>
    let t : Int := (fuel : Int) + 1 - D.lo
    if (units D.fmt b t).1 = 0 then firstDigit b fuel else t

/-- Search for the number of digits, from the fewest. -/
def searchDigits (b : Nat) (t : Int) : Nat → Nat × Int
  | 0 => (0, 0)
  | fuel + 1 =>
    let k : Int := t - (D.digits - (fuel + 1 : Nat))
    match tryUnit D.fmt b k with
    | some d => if d = 10 ∧ fuel + 1 = D.digits then (1, k + 1) else (d, k)
    | none => searchDigits b t fuel

/-- `flt2dec/strategy`, `format_shortest`: the decimal with the fewest digits that is read as the float, as
digits and an exponent of ten; the nearest one if there are several. `b` is the bits of a finite float
without its sign, not zero. -/
def shortest (b : Nat) : Nat × Int := searchDigits D b (firstDigit D b (D.hi + D.lo - 1)) D.digits

/-- `flt2dec/mod.rs`, `digits_to_dec_str` with `frac_digits` 0: the layout of `d * 10^k`. -/
def layout (d : Nat) (k : Int) : List Char :=
  let ds := natText d
  let exp : Int := ds.length + k
  if exp ≤ 0 then '0' :: '.' :: (List.replicate exp.natAbs '0' ++ ds)
  else if exp < ds.length then ds.take exp.natAbs ++ '.' :: ds.drop exp.natAbs
  else ds ++ List.replicate k.natAbs '0'

/-- `fmt/float.rs`, `float_to_decimal_display` and `flt2dec/mod.rs`, `to_shortest_str`: `Display` of the float
with these bits. -/
def floatText (bits : Nat) : List Char :=
  let b := bits % 2 ^ (D.fmt.mant + D.fmt.expo)
  if D.fmt.inf < b then ['N', 'a', 'N']
  else
    let s := if b = D.fmt.inf then ['i', 'n', 'f'] else if b = 0 then ['0'] else layout (shortest D b).1 (shortest D b).2
    if 2 ^ (D.fmt.mant + D.fmt.expo) ≤ bits then '-' :: s else s

end

/-- `Display for f64`. -/
def f64Text (x : UInt64) : List Char := floatText dec64 x.toNat

/-- `Display for f32`. -/
def f32Text (x : UInt32) : List Char := floatText dec32 x.toNat

/-! ## Floats from text: `num/dec2flt` -/

/-- `is_ascii_digit`. -/
def isDigit (c : Char) : Bool := decide (48 ≤ c.toNat ∧ c.toNat ≤ 57)

/-- `dec2flt/parse.rs`, `parse_scientific`: digits of the exponent; the further ones are dropped once it is
at least `0x10000`. -/
def exponentDigits (acc : Nat) : List Char → Nat
  | [] => acc
  | c :: cs => exponentDigits (if acc < 0x10000 then acc * 10 + (c.toNat - 48) else acc) cs

/-- `dec2flt/parse.rs`, `parse_scientific`, up to the end of the text. -/
def exponent (cs : List Char) : Option Int :=
  let (neg, ds) := match cs with
    | '-' :: cs => (true, cs)
    | '+' :: cs => (false, cs)
    | cs => (false, cs)
  if ds ≠ [] ∧ ds.all isDigit then
    some (if neg then -(exponentDigits 0 ds : Int) else exponentDigits 0 ds)
  else none

/-- Digits in front. -/
def digitsIn (cs : List Char) : List Char × List Char := (cs.takeWhile isDigit, cs.dropWhile isDigit)

/-- The number that digits stand for. -/
def digitsNat (cs : List Char) : Nat := cs.foldl (fun acc c => acc * 10 + (c.toNat - 48)) 0

/-- `dec2flt/parse.rs`, `parse_number`: digits, a point with digits, and an exponent, and nothing behind; digits
before or behind the point. -/
def parseNumber (cs : List Char) : Option (Nat × Int) :=
  let (int, r) := digitsIn cs
  let (frac, r) := match r with
    | '.' :: r => digitsIn r
    | r => ([], r)
  if int = [] ∧ frac = [] then none
  else match r with
    | [] => some (digitsNat (int ++ frac), -(frac.length : Int))
    | c :: r =>
      if c = 'e' ∨ c = 'E' then (exponent r).map fun x => (digitsNat (int ++ frac), x - frac.length)
      else none

/-- `dec2flt/parse.rs`, `parse_inf_nan`: the letters in either case. -/
def parseWord (F : FloatFormat) (cs : List Char) : Option Nat :=
  let low := cs.map fun c => if 65 ≤ c.toNat ∧ c.toNat ≤ 90 then Char.ofNat (c.toNat + 32) else c
  if low = ['i', 'n', 'f'] ∨ low = ['i', 'n', 'f', 'i', 'n', 'i', 't', 'y'] then some F.inf
  else if low = ['n', 'a', 'n'] then some (F.inf + 2 ^ (F.mant - 1))
  else none

/-- `dec2flt/mod.rs`, `dec2flt`, behind the sign. -/
def parseUnsigned (F : FloatFormat) (cs : List Char) : Option Nat :=
  match parseNumber cs with
  | some (d, k) => some (roundTo F d k)
  | none => parseWord F cs

/-- `dec2flt/mod.rs`, `dec2flt`: the bits of the float. -/
def parseFloat (F : FloatFormat) : List Char → Option Nat
  | '-' :: cs => (parseUnsigned F cs).map fun b => 2 ^ (F.mant + F.expo) + b
  | '+' :: cs => parseUnsigned F cs
  | cs => parseUnsigned F cs

/-- `FromStr for f64`. -/
def f64Parse (cs : List Char) : Option UInt64 := (parseFloat f64Format cs).map UInt64.ofNat

/-! ## Addresses -/

/-- `Display for Ipv4Addr`. -/
def ip4Text (a b c d : UInt8) : List Char :=
  natText a.toNat ++ ('.' :: (natText b.toNat ++ ('.' :: (natText c.toNat ++ ('.' :: natText d.toNat)))))

/-- `net/ip_addr.rs`, `fmt_subslice`: the groups with colons in between. -/
def groupsText : List UInt16 → List Char
  | [] => []
  | [g] => hexText g.toNat
  | g :: gs => hexText g.toNat ++ ':' :: groupsText gs

/-- `net/ip_addr.rs`: the loop that finds the longest run of zeros. A run is its start and its length. -/
def zeroRun (i : Nat) (current longest : Nat × Nat) : List UInt16 → Nat × Nat
  | [] => longest
  | g :: gs =>
    if g = 0 then
      let current := (if current.2 = 0 then i else current.1, current.2 + 1)
      zeroRun (i + 1) current (if longest.2 < current.2 then current else longest) gs
    else zeroRun (i + 1) (0, 0) longest gs

/-- `Display for Ipv6Addr` of the address with these eight groups. -/
def ip6Text (s : List UInt16) : List Char :=
  match s with
  | [0, 0, 0, 0, 0, 0xFFFF, g, h] =>
    [':', ':', 'f', 'f', 'f', 'f', ':'] ++ ip4Text (UInt8.ofNat (g.toNat / 256)) (UInt8.ofNat (g.toNat % 256))
      (UInt8.ofNat (h.toNat / 256)) (UInt8.ofNat (h.toNat % 256))
  | s =>
    let z := zeroRun 0 (0, 0) (0, 0) s
    if 1 < z.2 then groupsText (s.take z.1) ++ ':' :: ':' :: groupsText (s.drop (z.1 + z.2))
    else groupsText s

/-- `char::to_digit` for the radices 10 and 16. -/
def toDigit (radix : Nat) (c : Char) : Option Nat :=
  let n := c.toNat
  let d := if 48 ≤ n ∧ n ≤ 57 then n - 48
    else if 97 ≤ n ∧ n ≤ 122 then n - 87
    else if 65 ≤ n ∧ n ≤ 90 then n - 55
    else radix
  if d < radix then some d else none

/-- `net/parser.rs`, the loop of `read_number`: count, number and rest. -/
def numberLoop (radix max : Nat) (count acc : Nat) : List Char → Option (Nat × Nat × List Char)
  | [] => some (count, acc, [])
  | c :: cs =>
    match toDigit radix c with
    | some d => if max < count + 1 then none else numberLoop radix max (count + 1) (acc * radix + d) cs
    | none => some (count, acc, c :: cs)

/-- `net/parser.rs`, `read_number` with a limit on the digits; the result is less than `bound`. -/
def readNumber (radix max bound : Nat) (zeros : Bool) (cs : List Char) : Option (Nat × List Char) :=
  match numberLoop radix max 0 0 cs with
  | none => none
  | some (count, n, rest) =>
    if bound ≤ n then none
    else if count = 0 then none
    else if zeros = false ∧ cs.head? = some '0' ∧ 1 < count then none
    else some (n, rest)

/-- `net/parser.rs`, `read_separator` and `read_given_char`. -/
def readSeparator {α : Type} (sep : Char) (first : Bool) (inner : List Char → Option (α × List Char)) (cs : List Char) :
    Option (α × List Char) :=
  if first then inner cs
  else match cs with
    | c :: cs => if c = sep then inner cs else none
    | [] => none

/-- `net/parser.rs`, an octet of `read_ipv4_addr`. -/
def readOctet : List Char → Option (Nat × List Char) := readNumber 10 3 256 false

/-- `net/parser.rs`, `read_ipv4_addr`. -/
def readIp4 (cs : List Char) : Option ((Nat × Nat × Nat × Nat) × List Char) := do
  let (a, cs) ← readSeparator '.' true readOctet cs
  let (b, cs) ← readSeparator '.' false readOctet cs
  let (c, cs) ← readSeparator '.' false readOctet cs
  let (d, cs) ← readSeparator '.' false readOctet cs
  return ((a, b, c, d), cs)

/-- `FromStr for Ipv4Addr`: at most 15 bytes, and nothing behind the address. -/
def ip4Parse (cs : List Char) : Option (UInt8 × UInt8 × UInt8 × UInt8) :=
  if 15 < cs.length then none
  else match readIp4 cs with
    | some ((a, b, c, d), []) => some (UInt8.ofNat a, UInt8.ofNat b, UInt8.ofNat c, UInt8.ofNat d)
    | _ => none

/-- `net/parser.rs`, `read_groups` with room for `room` more groups: the groups, whether they end with an IPv4
address, and the rest. -/
def readGroups (first : Bool) : Nat → List Char → List Nat × Bool × List Char
  | 0, cs => ([], false, cs)
  | room + 1, cs =>
    match (if 0 < room then readSeparator ':' first readIp4 cs else none) with
    | some ((a, b, c, d), rest) => ([a * 256 + b, c * 256 + d], true, rest)
    | none =>
      match readSeparator ':' first (readNumber 16 4 65536 true) cs with
      | some (g, rest) =>
        let (gs, v4, rest) := readGroups false room rest
        (g :: gs, v4, rest)
      | none => ([], false, cs)

/-- `net/parser.rs`, `read_ipv6_addr`. -/
def readIp6 (cs : List Char) : Option (List Nat × List Char) :=
  let (head, v4, rest) := readGroups true 8 cs
  if head.length = 8 then some (head, rest)
  else if v4 then none
  else match rest with
    | ':' :: ':' :: rest =>
      let (tail, _, rest) := readGroups true (7 - head.length) rest
      some (head ++ (List.replicate (8 - head.length - tail.length) 0 ++ tail), rest)
    | _ => none

/-- `FromStr for Ipv6Addr`: nothing behind the address. The eight groups. -/
def ip6Groups (cs : List Char) : Option (List UInt16) :=
  match readIp6 cs with
  | some (gs, []) => some (gs.map UInt16.ofNat)
  | _ => none

/-- `FromStr for Ipv6Addr`. -/
def ip6Parse (cs : List Char) :
    Option (UInt16 × UInt16 × UInt16 × UInt16 × UInt16 × UInt16 × UInt16 × UInt16) :=
  match ip6Groups cs with
  | some [a, b, c, d, e, f, g, h] => some (a, b, c, d, e, f, g, h)
  | _ => none

end StdText

/-- What std prints. -/
def Shows.withStd (sh : Shows) : Shows := { sh with f32 := StdText.f32Text, f64 := StdText.f64Text, ipv6 := StdText.ip6Text }

/-- What std reads. -/
def Term.withStd (T : Term) : Term := { T with f64 := StdText.f64Parse, ip4 := StdText.ip4Parse, ip6 := StdText.ip6Parse }

end Souris
