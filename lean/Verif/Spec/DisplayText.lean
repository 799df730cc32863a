import Verif.Spec.StdText
import Verif.Spec.ChronoText
import Verif.Spec.Display

/-! # How values are printed -/

namespace Souris

/-- Decimal digits without superfluous zeros, behind a `-` for negative numbers. -/
def WholeText (n : Int) (t : List Char) : Prop :=
  ∃ ds, JsonWhole ds ∧ digitsValue ds = n.natAbs ∧ t = (if n < 0 then '-' :: ds else ds)

/-- Hexadecimal digits without superfluous zeros, all of them small or all of them capital. -/
def HexDigits (others : List Char) (n : Nat) (ds : List Char) : Prop :=
  HexNumber ds n ∧ ds ≠ [] ∧ (∀ c ∈ ds, c ∉ others) ∧ (ds.head? = some '0' → ds = ['0'])

def capitalHex : List Char := ['A', 'B', 'C', 'D', 'E', 'F']
def smallHex : List Char := ['a', 'b', 'c', 'd', 'e', 'f']

/-- A byte: `0x` and capital digits. -/
def ByteText (b : UInt8) (t : List Char) : Prop := ∃ ds, HexDigits smallHex b.toNat ds ∧ t = '0' :: 'x' :: ds

/-- Texts in brackets, with a comma and a space in between. -/
def listText (ts : List (List Char)) : List Char := '[' :: (List.intercalate [',', ' '] ts ++ [']'])

/-- The characters that have an escape of their own. -/
def shortEscapes : List (Char × Char) :=
  [(Char.ofNat 0, '0'), (Char.ofNat 9, 't'), (Char.ofNat 10, 'n'), (Char.ofNat 13, 'r'), ('\\', '\\')]

/-- How the character `c` is written inside of a literal in the quotes `q`. -/
inductive EscapedChar (plain : Char → Bool) (q : Char) : Char → List Char → Prop
  | short {c e : Char} (h : (c, e) ∈ shortEscapes) : EscapedChar plain q c ['\\', e]
  | quote : EscapedChar plain q q ['\\', q]
  | self {c : Char} (h : ∀ e, (c, e) ∉ shortEscapes) (hq : c ≠ q) (hp : plain c) : EscapedChar plain q c [c]
  | code {c : Char} {ds : List Char} (h : ∀ e, (c, e) ∉ shortEscapes) (hq : c ≠ q) (hp : ¬ plain c)
      (hd : HexDigits capitalHex c.toNat ds) : EscapedChar plain q c (['\\', 'u', '{'] ++ ds ++ ['}'])

/-- `t` is the literal of the characters `s`, in the quotes `q`. -/
def LiteralText (plain : Char → Bool) (q : Char) (s : List Char) (t : List Char) : Prop :=
  ∃ ts, List.Forall₂ (EscapedChar plain q) s ts ∧ t = [q] ++ ts.flatten ++ [q]

namespace Value

/-- The integers, timestamps and JSON in the value are such that there is a text for them. -/
inductive Printable : Value → Prop
  | character (c : Char) : Printable (.character c)
  | string (s : List Char) : Printable (.string s)
  | binary (b : List UInt8) : Printable (.binary b)
  | boolean (b : Bool) : Printable (.boolean b)
  | integer {i : Integer} (h : i.InRange) : Printable (.integer i)
  | cartesian {a b : Integer} (ha : a.InRange) (hb : b.InRange) : Printable (.imaginary (.cartesian a b))
  | polar (m a : UInt64) : Printable (.imaginary (.polar m a))
  | timestamp {t : Timestamp} (h : t.Valid) (hl : t.LeapAt59) : Printable (.timestamp t)
  | json {j : SJValue} (h : j.Made fun _ => True) : Printable (.json j)
  | null : Printable .null
  | single (x : UInt32) : Printable (.single x)
  | double (x : UInt64) : Printable (.double x)
  | array {a : List Value} (h : ∀ v ∈ a, Printable v) : Printable (.array a)
  | map {m : List (List Char × Value)} (h : ∀ p ∈ m, Printable p.2) : Printable (.map m)
  | timezone (z : List Char) : Printable (.timezone z)
  | ipv4 (a b c d : UInt8) : Printable (.ipv4 a b c d)
  | ipv6 (a b c d e f g h : UInt16) : Printable (.ipv6 a b c d e f g h)

/-- There is no map in the value. -/
inductive MapFree : Value → Prop
  | flat {v : Value} (ha : ∀ a, v ≠ .array a) (hm : ∀ m, v ≠ .map m) : MapFree v
  | array {a : List Value} (h : ∀ v ∈ a, MapFree v) : MapFree (.array a)

/-- `t` is how the value is printed. `plain` are the characters that need no escape, `layout` writes out the keys
of a map and the texts of their values. -/
inductive ShownAs (plain : Char → Bool) (layout : List (List Char × List Char) → List Char) : Value → List Char → Prop
  | character {c : Char} {t : List Char} (h : LiteralText plain '\'' [c] t) : ShownAs plain layout (.character c) t
  | string {s t : List Char} (h : LiteralText plain '"' s t) : ShownAs plain layout (.string s) t
  | binary {b : List UInt8} {ts : List (List Char)} (h : List.Forall₂ ByteText b ts) : ShownAs plain layout (.binary b) (listText ts)
  | true : ShownAs plain layout (.boolean Bool.true) "true".toList
  | false : ShownAs plain layout (.boolean Bool.false) "false".toList
  | integer {i : Integer} {t : List Char} (h : WholeText i.value t) : ShownAs plain layout (.integer i) t
  | cartesian {a b : Integer} {s t : List Char} (ha : WholeText a.value s) (hb : WholeText b.value t) :
      ShownAs plain layout (.imaginary (.cartesian a b)) (s ++ (if b.value < 0 then [] else ['+']) ++ t ++ ['i'])
  | polar {m a : UInt64} {s t : List Char} (hm : kind64.Printed m.toNat s) (ha : kind64.Printed a.toNat t) :
      ShownAs plain layout (.imaginary (.polar m a)) (s ++ " e^(".toList ++ t ++ "i)".toList)
  | timestamp {x : Timestamp} {t : List Char} (h : PrintedStamp x t) : ShownAs plain layout (.timestamp x) t
  | json {j : SJValue} {t : List Char} (h : JsonText JsonRight j.depth t j) : ShownAs plain layout (.json j) t
  | null : ShownAs plain layout .null "null".toList
  | single {x : UInt32} {t : List Char} (h : kind32.Printed x.toNat t) : ShownAs plain layout (.single x) t
  | double {x : UInt64} {t : List Char} (h : kind64.Printed x.toNat t) : ShownAs plain layout (.double x) t
  | array {a : List Value} {ts : List (List Char)} (h : List.Forall₂ (ShownAs plain layout) a ts) :
      ShownAs plain layout (.array a) (listText ts)
  | map {m : List (List Char × Value)} {ts : List (List Char)} (h : List.Forall₂ (ShownAs plain layout) (m.map Prod.snd) ts) :
      ShownAs plain layout (.map m) (layout ((m.map Prod.fst).zip ts))
  | timezone {z : List Char} : ShownAs plain layout (.timezone z) z
  | ipv4 {a b c d : UInt8} {t : List Char} (h : DottedText t a b c d) : ShownAs plain layout (.ipv4 a b c d) t
  | ipv6 {a b c d e f g i : UInt16} {t : List Char} (h : Ip6Printed t [a, b, c, d, e, f, g, i]) :
      ShownAs plain layout (.ipv6 a b c d e f g i) t

end Value

/-- Keys and texts in braces, as `key: text` with a comma and a space in between. -/
def bracedRows (rows : List (List Char × List Char)) : List Char :=
  '{' :: (List.intercalate [',', ' '] (rows.map fun r => r.1 ++ [':', ' '] ++ r.2) ++ ['}'])

end Souris
