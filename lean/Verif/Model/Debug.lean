import Verif.Model.ChronoText
import Verif.Model.Display
import Verif.Model.JsonText
import Verif.Model.StdText

/-!
# `Debug` of values

`{:?}` and `{:#?}` of `Value` (values.rs L59-101, derived), `Integer` (types/integer.rs L165-177), `BinaryData`
(types/binary.rs L140-146), `Imaginary` (types/imaginary.rs L18-36, derived), `SignedState` (types/integer.rs L21-27,
derived) and `Store` (store.rs L33-34, derived); mouse/main.rs L162-165 prints a store this way. External code is
modelled from its source: the builders of core 1.80 (`fmt/builders.rs`) and its floats, `Debug` of chrono's
`NaiveDateTime`, chrono-tz's `Tz` (its name), serde_json's `Value` and hashbrown's map. Which characters std escapes is
a parameter (`Shows.plain`), of which nothing else is used.
-/

namespace Souris

namespace StdText

/-- `flt2dec/mod.rs`, `digits_to_dec_str` with `frac_digits` 1: at least one digit behind the point. -/
def layoutPoint (d : Nat) (k : Int) : List Char :=
  let ds := natText d
  let exp : Int := ds.length + k
  if exp ≤ 0 then '0' :: '.' :: (List.replicate exp.natAbs '0' ++ ds)
  else if exp < ds.length then ds.take exp.natAbs ++ '.' :: ds.drop exp.natAbs
  else ds ++ (List.replicate k.natAbs '0' ++ ['.', '0'])

/-- `flt2dec/mod.rs`, `digits_to_exp_str` with `min_ndigits` 0. -/
def layoutExp (d : Nat) (k : Int) : List Char :=
  let ds := natText d
  let exp : Int := ds.length + k - 1
  ds.take 1 ++ ((if ds.length = 1 then [] else '.' :: ds.drop 1) ++ 'e' :: intText exp)

section

variable (D : Decimals)

/-- `fmt/float.rs`, `float_to_general_debug` without precision: with an exponent from `1e16` on and below `1e-4`. -/
def floatDebug (bits : Nat) : List Char :=
  let b := bits % 2 ^ (D.fmt.mant + D.fmt.expo)
  if D.fmt.inf < b then ['N', 'a', 'N']
  else
    let s :=
      if b = D.fmt.inf then ['i', 'n', 'f']
      else if b = 0 then ['0', '.', '0']
      else if roundTo D.fmt 1 16 ≤ b ∨ b < roundTo D.fmt 1 (-4) then layoutExp (shortest D b).1 (shortest D b).2
      else layoutPoint (shortest D b).1 (shortest D b).2
    if 2 ^ (D.fmt.mant + D.fmt.expo) ≤ bits then '-' :: s else s

end

/-- `Debug for f64`. -/
def f64Debug (x : UInt64) : List Char := floatDebug dec64 x.toNat

/-- `Debug for f32`. -/
def f32Debug (x : UInt32) : List Char := floatDebug dec32 x.toNat

end StdText

/-- `naive/datetime/mod.rs`, `Debug for NaiveDateTime`: date and time with a `T` in between. -/
def Chrono.debug (t : Timestamp) : List Char :=
  dateText t.year t.month t.day ++ 'T' :: timeText t.hour t.minute t.sec t.nano

namespace Dbg

/-- A new line in the indented form, four spaces per level (`PadAdapter`). -/
def newLine (level : Nat) : List Char := '\n' :: List.replicate (4 * level) ' '

/-- Parts with `, ` in between. -/
def tail : List (List Char) → List Char
  | [] => []
  | x :: xs => ',' :: ' ' :: (x ++ tail xs)

/-- Parts with `, ` in between. -/
def joined : List (List Char) → List Char
  | [] => []
  | x :: xs => x ++ tail xs

/-- Parts on lines of their own, each with a comma behind it. -/
def lines (level : Nat) : List (List Char) → List Char
  | [] => []
  | x :: xs => newLine level ++ (x ++ ',' :: lines level xs)

/-- What stands between the brackets of a list or map: in the indented form (`alt`) parts have lines of their own. -/
def inner (alt : Bool) (level : Nat) (items : List (List Char)) : List Char :=
  if alt then (if items = [] then [] else lines (level + 1) items ++ newLine level) else joined items

/-- `debug_tuple` with one field. -/
def tuple (alt : Bool) (level : Nat) (name field : List Char) : List Char :=
  name ++ '(' :: (inner alt level [field] ++ [')'])

/-- `debug_list`. -/
def list (alt : Bool) (level : Nat) (items : List (List Char)) : List Char := '[' :: (inner alt level items ++ [']'])

/-- `debug_map`. -/
def map (alt : Bool) (level : Nat) (items : List (List Char)) : List Char := '{' :: (inner alt level items ++ ['}'])

/-- The text of a field or entry. -/
def entry (name value : List Char) : List Char := name ++ ':' :: ' ' :: value

/-- `debug_struct` with some fields: on one line there are spaces inside the braces. -/
def struct (alt : Bool) (level : Nat) (name : List Char) (fields : List (List Char)) : List Char :=
  name ++ ' ' :: '{' :: ((if alt then [] else [' ']) ++ (inner alt level fields ++ ((if alt then [] else [' ']) ++ ['}'])))

end Dbg

open Dbg

/-- Derived `Debug for SignedState`. -/
def SignedState.debug : SignedState → List Char
  | .unsigned => "Unsigned".toList
  | .signedPositive => "SignedPositive".toList
  | .signedNegative => "SignedNegative".toList

/-- integer.rs L165-177. -/
def Integer.debug (sh : Shows) (alt : Bool) (level : Nat) (i : Integer) : List Char :=
  struct alt level "Integer".toList
    [entry "signed_state".toList i.signedState.debug, entry "bytes_used".toList (natText i.used),
      entry "content".toList (sh.strLiteral i.display), entry "bytes".toList (sh.strLiteral (displayBytes i.content))]

/-- Derived `Debug for Imaginary`. -/
def Imaginary.debug (sh : Shows) (alt : Bool) (level : Nat) : Imaginary → List Char
  | cartesian re im =>
    struct alt level "CartesianForm".toList
      [entry "real".toList (re.debug sh alt (level + 1)), entry "imaginary".toList (im.debug sh alt (level + 1))]
  | polar m a =>
    struct alt level "PolarForm".toList
      [entry "modulus".toList (StdText.f64Debug m), entry "argument".toList (StdText.f64Debug a)]

/-- binary.rs L140-146. -/
def binaryDebug (sh : Shows) (alt : Bool) (level : Nat) (b : List UInt8) : List Char :=
  struct alt level "BinaryData".toList [entry "data".toList (sh.strLiteral (displayBytes b))]

namespace SJValue

/-- serde_json `value/mod.rs`, `Debug for Value`, and `number.rs`, `Debug for Number`: how the kinds begin. -/
def debugName : SJValue → List Char
  | .null => "Null".toList
  | .bool _ => "Bool(".toList
  | .number _ => "Number(".toList
  | .string _ => "String(".toList
  | .array _ => "Array ".toList
  | .object _ => "Object ".toList

mutual
/-- serde_json `value/mod.rs`, `Debug for Value`, and `number.rs`, `Debug for Number`. -/
def debug (sh : Shows) (alt : Bool) (level : Nat) : SJValue → List Char
  | .null => debugName .null
  | .bool b => debugName (.bool b) ++ ((if b then ['t', 'r', 'u', 'e'] else ['f', 'a', 'l', 's', 'e']) ++ [')'])
  | .number n => debugName (.number n) ++ (SerdeJson.numberText n ++ [')'])
  | .string s => debugName (.string s) ++ (sh.strLiteral s ++ [')'])
  | .array a => debugName (.array a) ++ Dbg.list alt level (debugItems sh alt (level + 1) a)
  | .object m => debugName (.object m) ++ Dbg.map alt level (debugEntries sh alt (level + 1) m)

def debugItems (sh : Shows) (alt : Bool) (level : Nat) : List SJValue → List (List Char)
  | [] => []
  | v :: vs => debug sh alt level v :: debugItems sh alt level vs

def debugEntries (sh : Shows) (alt : Bool) (level : Nat) : List (List Char × SJValue) → List (List Char)
  | [] => []
  | (k, v) :: m => entry (sh.strLiteral k) (debug sh alt level v) :: debugEntries sh alt level m
end

end SJValue

namespace Value

/-- values.rs L60-101: the names of the variants. -/
def variantName : ValueTy → List Char
  | .character => "Character".toList
  | .string => "String".toList
  | .binary => "Binary".toList
  | .boolean => "Boolean".toList
  | .integer => "Integer".toList
  | .imaginary => "Imaginary".toList
  | .timestamp => "Timestamp".toList
  | .json => "JSON".toList
  | .null => "Null".toList
  | .singleFloat => "SingleFloat".toList
  | .doubleFloat => "DoubleFloat".toList
  | .array => "Array".toList
  | .map => "Map".toList
  | .timezone => "Timezone".toList
  | .ipv4Addr => "Ipv4Addr".toList
  | .ipv6Addr => "Ipv6Addr".toList

mutual
/-- Derived `Debug for Value` (values.rs L59). -/
def debug (sh : Shows) (alt : Bool) (level : Nat) : Value → List Char
  | character c => tuple alt level (variantName .character) (sh.charLiteral c)
  | string s => tuple alt level (variantName .string) (sh.strLiteral s)
  | binary b => tuple alt level (variantName .binary) (binaryDebug sh alt (level + 1) b)
  | boolean b => tuple alt level (variantName .boolean) (if b then ['t', 'r', 'u', 'e'] else ['f', 'a', 'l', 's', 'e'])
  | integer i => tuple alt level (variantName .integer) (i.debug sh alt (level + 1))
  | imaginary z => tuple alt level (variantName .imaginary) (z.debug sh alt (level + 1))
  | timestamp t => tuple alt level (variantName .timestamp) (Chrono.debug t)
  | json j => tuple alt level (variantName .json) (j.debug sh alt (level + 1))
  | null => tuple alt level (variantName .null) ['(', ')']
  | single x => tuple alt level (variantName .singleFloat) (StdText.f32Debug x)
  | double x => tuple alt level (variantName .doubleFloat) (StdText.f64Debug x)
  | array a => tuple alt level (variantName .array) (Dbg.list alt (level + 1) (debugItems sh alt (level + 2) a))
  | map m => tuple alt level (variantName .map) (Dbg.map alt (level + 1) (debugEntries sh alt (level + 2) m))
  | timezone name => tuple alt level (variantName .timezone) name
  | ipv4 a b c d => tuple alt level (variantName .ipv4Addr) (StdText.ip4Text a b c d)
  | ipv6 a b c d e f g i => tuple alt level (variantName .ipv6Addr) (StdText.ip6Text [a, b, c, d, e, f, g, i])

def debugItems (sh : Shows) (alt : Bool) (level : Nat) : List Value → List (List Char)
  | [] => []
  | v :: vs => debug sh alt level v :: debugItems sh alt level vs

def debugEntries (sh : Shows) (alt : Bool) (level : Nat) : List (List Char × Value) → List (List Char)
  | [] => []
  | (k, v) :: m => entry (sh.strLiteral k) (debug sh alt level v) :: debugEntries sh alt level m
end

end Value

/-- Derived `Debug for Store` (store.rs L33). -/
def Store.debug (sh : Shows) (alt : Bool) (s : List (List Char × Value)) : List Char :=
  tuple alt 0 "Store".toList (Dbg.map alt 1 (Value.debugEntries sh alt 2 s))

end Souris
