import Verif.Spec.IntegerSerde
import Verif.Spec.ValueJson
import Verif.Model.Json

/-! # Specification of JSON text (RFC 8259) -/

namespace Souris

/-- White space only. -/
def JsonBlank (s : List Char) : Prop := ∀ c ∈ s, JsonSpace c

/-! ## Numbers -/

/-- At least one digit. -/
def JsonDigits (ds : List Char) : Prop := ds ≠ [] ∧ ∀ c ∈ ds, c ∈ decimalDigits

/-- The digits of an integer: no superfluous zeros. -/
def JsonWhole (ds : List Char) : Prop := JsonDigits ds ∧ (ds.head? = some '0' → ds = ['0'])

/-- `s` is written for a fraction with these digits; without digits it is not written. -/
def JsonFraction (s ds : List Char) : Prop := (s = [] ∧ ds = []) ∨ (JsonDigits ds ∧ s = '.' :: ds)

/-- `s` is written for the exponent `e`. -/
inductive JsonExponent : List Char → Int → Prop
  | none : JsonExponent [] 0
  | plain {c : Char} {ds : List Char} (hc : c = 'e' ∨ c = 'E') (h : JsonDigits ds) : JsonExponent (c :: ds) (digitsValue ds)
  | plus {c : Char} {ds : List Char} (hc : c = 'e' ∨ c = 'E') (h : JsonDigits ds) :
      JsonExponent (c :: '+' :: ds) (digitsValue ds)
  | minus {c : Char} {ds : List Char} (hc : c = 'e' ∨ c = 'E') (h : JsonDigits ds) :
      JsonExponent (c :: '-' :: ds) (-(digitsValue ds : Int))

/-- `t` is a number without sign: digits, digits behind the point, an exponent. -/
def JsonReal (t int frac : List Char) (e : Int) : Prop :=
  ∃ fr ex, t = int ++ fr ++ ex ∧ JsonWhole int ∧ JsonFraction fr frac ∧ JsonExponent ex e

/-- The number that it is. -/
def realValue (int frac : List Char) (e : Int) : ℚ := digitsValue (int ++ frac) * 10 ^ (e - frac.length)

/-- No float is nearer to `q` than `b`; if one is as near, then `b` is even. -/
def Nearest (b : UInt64) (q : ℚ) : Prop :=
  ∀ b' : UInt64, F64Finite b' → |f64Value b - q| ≤ |f64Value b' - q| ∧
    (|f64Value b - q| = |f64Value b' - q| → f64Value b' = f64Value b ∨ b.toNat % 2 = 0)

/-- The float is the nearest one to a decimal of at most 15 digits, at most 21 of its digits behind the
point. -/
def FewDigits (b : UInt64) : Prop :=
  ∃ m e : Nat, m < 10 ^ 15 ∧ e ≤ 21 ∧ (Nearest b ((m : ℚ) / 10 ^ e) ∨ Nearest b (-((m : ℚ) / 10 ^ e)))

/-- Few digits and a small exponent. -/
def EasyDecimal (int frac : List Char) (e : Int) : Prop :=
  digitsValue (int ++ frac) ≤ 2 ^ 53 ∧ |e - frac.length| ≤ 22 ∧ |e| < 2 ^ 31

/-- `t` is written for the number `n`. Integers that fit 64 bits are themselves; every other number is a
finite float with the sign that is written, and it is the nearest one if the number has few digits. -/
inductive JsonNum : List Char → SJNumber → Prop
  | posInt {ds : List Char} (h : JsonWhole ds) (hv : digitsValue ds < 2 ^ 64) : JsonNum ds (.posInt (digitsValue ds))
  | negInt {ds : List Char} (h : JsonWhole ds) (h0 : 0 < digitsValue ds) (hv : digitsValue ds ≤ 2 ^ 63) :
      JsonNum ('-' :: ds) (.negInt (-(digitsValue ds : Int)))
  | posFloat {t int frac : List Char} {e : Int} {b : UInt64} (h : JsonReal t int frac e)
      (hint : t = int → 2 ^ 64 ≤ digitsValue int) (hb : F64Finite b) (hs : b.toNat < 2 ^ 63)
      (hv : EasyDecimal int frac e → Nearest b (realValue int frac e)) : JsonNum t (.float b)
  | negFloat {t int frac : List Char} {e : Int} {b : UInt64} (h : JsonReal t int frac e)
      (hint : t = int → digitsValue int = 0 ∨ 2 ^ 63 < digitsValue int) (hb : F64Finite b) (hs : 2 ^ 63 ≤ b.toNat)
      (hv : EasyDecimal int frac e → Nearest b (-realValue int frac e)) : JsonNum ('-' :: t) (.float b)

/-- `t` is written for the number `n`, and it is an integer that fits 64 bits or a number with few digits. -/
inductive JsonExact : List Char → SJNumber → Prop
  | posInt {ds : List Char} (h : JsonWhole ds) (hv : digitsValue ds < 2 ^ 64) : JsonExact ds (.posInt (digitsValue ds))
  | negInt {ds : List Char} (h : JsonWhole ds) (h0 : 0 < digitsValue ds) (hv : digitsValue ds ≤ 2 ^ 63) :
      JsonExact ('-' :: ds) (.negInt (-(digitsValue ds : Int)))
  | posFloat {t int frac : List Char} {e : Int} {b : UInt64} (h : JsonReal t int frac e) (hint : t ≠ int)
      (he : EasyDecimal int frac e) (hb : F64Finite b) (hs : b.toNat < 2 ^ 63) (hv : Nearest b (realValue int frac e)) :
      JsonExact t (.float b)
  | negFloat {t int frac : List Char} {e : Int} {b : UInt64} (h : JsonReal t int frac e) (hint : t ≠ int)
      (he : EasyDecimal int frac e) (hb : F64Finite b) (hs : 2 ^ 63 ≤ b.toNat) (hv : Nearest b (-realValue int frac e)) :
      JsonExact ('-' :: t) (.float b)

/-- `t` is written for the number `n`: an integer that fits 64 bits, or otherwise the nearest float. -/
inductive JsonRight : List Char → SJNumber → Prop
  | posInt {ds : List Char} (h : JsonWhole ds) (hv : digitsValue ds < 2 ^ 64) : JsonRight ds (.posInt (digitsValue ds))
  | negInt {ds : List Char} (h : JsonWhole ds) (h0 : 0 < digitsValue ds) (hv : digitsValue ds ≤ 2 ^ 63) :
      JsonRight ('-' :: ds) (.negInt (-(digitsValue ds : Int)))
  | posFloat {t int frac : List Char} {e : Int} {b : UInt64} (h : JsonReal t int frac e)
      (hint : t = int → 2 ^ 64 ≤ digitsValue int) (hb : F64Finite b) (hs : b.toNat < 2 ^ 63)
      (hv : Nearest b (realValue int frac e)) : JsonRight t (.float b)
  | negFloat {t int frac : List Char} {e : Int} {b : UInt64} (h : JsonReal t int frac e)
      (hint : t = int → digitsValue int = 0 ∨ 2 ^ 63 < digitsValue int) (hb : F64Finite b) (hs : 2 ^ 63 ≤ b.toNat)
      (hv : Nearest b (-realValue int frac e)) : JsonRight ('-' :: t) (.float b)

/-- The float is about `q`: the difference is at most the 10¹⁵-th part, or about the smallest float. -/
def Close (b : UInt64) (q : ℚ) : Prop := |f64Value b - q| ≤ |q| / 10 ^ 15 + 1 / 10 ^ 323

/-- `t` is written for the number `n`: an integer that fits 64 bits, or otherwise a float that is about the number.
Texts of more than a gigabyte are left out. -/
inductive JsonClose : List Char → SJNumber → Prop
  | posInt {ds : List Char} (h : JsonWhole ds) (hv : digitsValue ds < 2 ^ 64) : JsonClose ds (.posInt (digitsValue ds))
  | negInt {ds : List Char} (h : JsonWhole ds) (h0 : 0 < digitsValue ds) (hv : digitsValue ds ≤ 2 ^ 63) :
      JsonClose ('-' :: ds) (.negInt (-(digitsValue ds : Int)))
  | posFloat {t int frac : List Char} {e : Int} {b : UInt64} (h : JsonReal t int frac e)
      (hint : t = int → 2 ^ 64 ≤ digitsValue int) (hb : F64Finite b) (hs : b.toNat < 2 ^ 63)
      (hv : t.length ≤ 2 ^ 30 → Close b (realValue int frac e)) : JsonClose t (.float b)
  | negFloat {t int frac : List Char} {e : Int} {b : UInt64} (h : JsonReal t int frac e)
      (hint : t = int → digitsValue int = 0 ∨ 2 ^ 63 < digitsValue int) (hb : F64Finite b) (hs : 2 ^ 63 ≤ b.toNat)
      (hv : t.length ≤ 2 ^ 30 → Close b (-realValue int frac e)) : JsonClose ('-' :: t) (.float b)

/-- A number as a text of at most a gigabyte, that fits a float: the largest float is about `1.79769 * 10^308`. -/
inductive JsonToken : List Char → Prop
  | pos {t int frac : List Char} {e : Int} (h : JsonReal t int frac e) (hl : t.length ≤ 2 ^ 30)
      (hs : realValue int frac e ≤ 17976 * 10 ^ 304) : JsonToken t
  | neg {t int frac : List Char} {e : Int} (h : JsonReal t int frac e) (hl : t.length ≤ 2 ^ 30)
      (hs : realValue int frac e ≤ 17976 * 10 ^ 304) : JsonToken ('-' :: t)

/-! ## Strings -/

/-- The digits of hexadecimal numbers. -/
def hexTable : List (Char × Nat) :=
  [('0', 0), ('1', 1), ('2', 2), ('3', 3), ('4', 4), ('5', 5), ('6', 6), ('7', 7), ('8', 8), ('9', 9),
   ('a', 10), ('b', 11), ('c', 12), ('d', 13), ('e', 14), ('f', 15),
   ('A', 10), ('B', 11), ('C', 12), ('D', 13), ('E', 14), ('F', 15)]

/-- Four hexadecimal digits and their value. -/
inductive Hex4 : List Char → Nat → Prop
  | mk {a b c d : Char} {x y z w : Nat} (ha : (a, x) ∈ hexTable) (hb : (b, y) ∈ hexTable) (hc : (c, z) ∈ hexTable)
      (hd : (d, w) ∈ hexTable) : Hex4 [a, b, c, d] (x * 4096 + y * 256 + z * 16 + w)

/-- The short escapes: what stands behind the backslash, and the code of the character. -/
def escapeTable : List (Char × Nat) :=
  [('"', 34), ('\\', 92), ('/', 47), ('b', 8), ('f', 12), ('n', 10), ('r', 13), ('t', 9)]

/-- The text between the quotes, and the string it stands for. -/
inductive JsonChars : List Char → List Char → Prop
  | nil : JsonChars [] []
  | plain {c : Char} {t s : List Char} (h1 : c ≠ '"') (h2 : c ≠ '\\') (h3 : 32 ≤ c.toNat) (h : JsonChars t s) :
      JsonChars (c :: t) (c :: s)
  | short {x c : Char} {t s : List Char} (hx : (x, c.toNat) ∈ escapeTable) (h : JsonChars t s) :
      JsonChars ('\\' :: x :: t) (c :: s)
  | unit {u t s : List Char} {c : Char} (hu : Hex4 u c.toNat) (h : JsonChars t s) :
      JsonChars ('\\' :: 'u' :: (u ++ t)) (c :: s)
  | pair {u u' t s : List Char} {c : Char} {hi lo : Nat} (hu : Hex4 u hi) (hu' : Hex4 u' lo)
      (h1 : 0xD800 ≤ hi ∧ hi < 0xDC00) (h2 : 0xDC00 ≤ lo ∧ lo < 0xE000)
      (hc : c.toNat = 0x10000 + (hi - 0xD800) * 0x400 + (lo - 0xDC00)) (h : JsonChars t s) :
      JsonChars ('\\' :: 'u' :: (u ++ '\\' :: 'u' :: (u' ++ t))) (c :: s)

/-! ## Values -/

/-- An element of an array: white space, a value, white space. -/
structure JsonElement where
  before : List Char
  text : List Char
  after : List Char
  value : SJValue

/-- A member of an object: white space, a key in quotes, white space, a colon, white space, a value, white
space. -/
structure JsonMember where
  before : List Char
  keyText : List Char
  key : List Char
  middle : List Char
  element : JsonElement

def JsonElement.whole (e : JsonElement) : List Char := e.before ++ e.text ++ e.after

def JsonMember.whole (m : JsonMember) : List Char :=
  m.before ++ ('"' :: (m.keyText ++ '"' :: (m.middle ++ ':' :: m.element.whole)))

/-- `m` is the map of these entries in the order of the keys; of entries with the same key the last counts. -/
def Gathered (es : List (List Char × SJValue)) (m : List (List Char × SJValue)) : Prop :=
  m.Pairwise (fun a b => SJValue.keyLt a.1 b.1 = true) ∧
  ∀ k v, (k, v) ∈ m ↔ ∃ front back, es = front ++ (k, v) :: back ∧ ∀ v', (k, v') ∉ back

/-- `t` is the JSON text, without white space around it, of a value that is nested at most `d` deep. What a
text stands for that is a number is up to `N`. -/
inductive JsonDoc (N : List Char → SJNumber → Prop) : Nat → List Char → SJValue → Prop
  | null (d : Nat) : JsonDoc N d "null".toList .null
  | true (d : Nat) : JsonDoc N d "true".toList (.bool true)
  | false (d : Nat) : JsonDoc N d "false".toList (.bool false)
  | number (d : Nat) {t : List Char} {n : SJNumber} (h : N t n) : JsonDoc N d t (.number n)
  | string (d : Nat) {t s : List Char} (h : JsonChars t s) : JsonDoc N d ('"' :: (t ++ ['"'])) (.string s)
  | emptyArray (d : Nat) {w : List Char} (hw : JsonBlank w) : JsonDoc N (d + 1) ('[' :: (w ++ [']'])) (.array [])
  | array {d : Nat} {es : List JsonElement} (hne : es ≠ [])
      (hw : ∀ e ∈ es, JsonBlank e.before ∧ JsonBlank e.after) (h : ∀ e ∈ es, JsonDoc N d e.text e.value) :
      JsonDoc N (d + 1) ('[' :: ([','].intercalate (es.map JsonElement.whole) ++ [']'])) (.array (es.map JsonElement.value))
  | emptyObject (d : Nat) {w : List Char} (hw : JsonBlank w) : JsonDoc N (d + 1) ('{' :: (w ++ ['}'])) (.object [])
  | object {d : Nat} {ms : List JsonMember} {m : List (List Char × SJValue)} (hne : ms ≠ [])
      (hw : ∀ x ∈ ms, JsonBlank x.before ∧ JsonBlank x.middle ∧ JsonBlank x.element.before ∧ JsonBlank x.element.after)
      (hk : ∀ x ∈ ms, JsonChars x.keyText x.key) (h : ∀ x ∈ ms, JsonDoc N d x.element.text x.element.value)
      (hm : Gathered (ms.map fun x => (x.key, x.element.value)) m) :
      JsonDoc N (d + 1) ('{' :: ([','].intercalate (ms.map JsonMember.whole) ++ ['}'])) (.object m)

/-- The whole text: a value with white space around it. -/
def JsonText (N : List Char → SJNumber → Prop) (d : Nat) (s : List Char) (j : SJValue) : Prop :=
  ∃ before t after, s = before ++ t ++ after ∧ JsonBlank before ∧ JsonBlank after ∧ JsonDoc N d t j

/-! ## Values that exist -/

mutual
/-- How deep arrays and objects are nested. -/
def SJValue.depth : SJValue → Nat
  | .array a => 1 + depthList a
  | .object m => 1 + depthEntries m
  | _ => 0

def SJValue.depthList : List SJValue → Nat
  | [] => 0
  | v :: vs => max (depth v) (depthList vs)

def SJValue.depthEntries : List (List Char × SJValue) → Nat
  | [] => 0
  | (_, v) :: vs => max (depth v) (depthEntries vs)
end

/-- Values of serde_json: numbers of 64 bits or finite floats of the class `P`, objects in the order of their
keys. -/
inductive SJValue.Made (P : UInt64 → Prop) : SJValue → Prop
  | null : Made P .null
  | bool (b : Bool) : Made P (.bool b)
  | posInt {n : Nat} (h : n < 2 ^ 64) : Made P (.number (.posInt n))
  | negInt {n : Int} (h : -(2 ^ 63) ≤ n) (h0 : n < 0) : Made P (.number (.negInt n))
  | float {b : UInt64} (h : F64Finite b) (hp : P b) : Made P (.number (.float b))
  | string (s : List Char) : Made P (.string s)
  | array {a : List SJValue} (h : ∀ j ∈ a, Made P j) : Made P (.array a)
  | object {m : List (List Char × SJValue)} (ho : m.Pairwise (fun a b => SJValue.keyLt a.1 b.1 = true))
      (h : ∀ k j, (k, j) ∈ m → Made P j) : Made P (.object m)

end Souris
