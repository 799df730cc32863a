import Verif.Model.Display
import Verif.Spec.ValueEq

/-! # Specification vocabulary for printing -/

namespace Souris

/-- An integer whose number is one of the numbers of its signedness: not one that bytes made up by hand
denote. -/
def Integer.InRange (i : Integer) : Prop :=
  i.Reachable ∧ -(2 ^ 127) ≤ i.value ∧ (i.signedState ≠ .unsigned → i.value < 2 ^ 127)

namespace Value

/-- Two values that a reader need not tell apart: the same structure, with the same numbers. Integers of
different signedness are alike when they are the same number, and so are all not-a-numbers. -/
inductive Alike : Value → Value → Prop
  | character (c : Char) : Alike (.character c) (.character c)
  | string (s : List Char) : Alike (.string s) (.string s)
  | binary (b : List UInt8) : Alike (.binary b) (.binary b)
  | boolean (b : Bool) : Alike (.boolean b) (.boolean b)
  | integer {i j : Integer} (h : i.value = j.value) : Alike (.integer i) (.integer j)
  | cartesian {a b a' b' : Integer} (h1 : a.value = a'.value) (h2 : b.value = b'.value) :
      Alike (.imaginary (.cartesian a b)) (.imaginary (.cartesian a' b'))
  | polar {m a m' a' : UInt64} (h1 : m = m' ∨ IsNan64 m ∧ IsNan64 m') (h2 : a = a' ∨ IsNan64 a ∧ IsNan64 a') :
      Alike (.imaginary (.polar m a)) (.imaginary (.polar m' a'))
  | timestamp (t : Timestamp) : Alike (.timestamp t) (.timestamp t)
  | json (j : SJValue) : Alike (.json j) (.json j)
  | null : Alike .null .null
  | single {x y : UInt32} (h : x = y ∨ IsNan32 x ∧ IsNan32 y) : Alike (.single x) (.single y)
  | double {x y : UInt64} (h : x = y ∨ IsNan64 x ∧ IsNan64 y) : Alike (.double x) (.double y)
  | timezone (n : List Char) : Alike (.timezone n) (.timezone n)
  | ipv4 (a b c d : UInt8) : Alike (.ipv4 a b c d) (.ipv4 a b c d)
  | ipv6 (a b c d e f g i : UInt16) : Alike (.ipv6 a b c d e f g i) (.ipv6 a b c d e f g i)
  | array {a b : List Value} (hl : a.length = b.length)
      (h : ∀ (i : Nat) x y, a[i]? = some x → b[i]? = some y → Alike x y) : Alike (.array a) (.array b)

/-- Values whose text is made by the code of the project alone: characters, strings, binary data that are
not empty, booleans, integers, complex numbers with integer parts, null, and arrays of such values. -/
inductive Literal : Value → Prop
  | character (c : Char) : Literal (.character c)
  | string (s : List Char) : Literal (.string s)
  | binary {b : List UInt8} (h : b ≠ []) : Literal (.binary b)
  | boolean (b : Bool) : Literal (.boolean b)
  | integer {i : Integer} (h : i.InRange) : Literal (.integer i)
  | cartesian {a b : Integer} (ha : a.InRange) (hb : b.InRange) : Literal (.imaginary (.cartesian a b))
  | null : Literal .null
  | array {a : List Value} (h : ∀ v ∈ a, Literal v) : Literal (.array a)

/-- Not an array or a map, and the integers in it are in range. -/
def Scalar (v : Value) : Prop :=
  v.asTy ≠ .array ∧ v.asTy ≠ .map ∧ (∀ i, v = .integer i → i.InRange) ∧
  ∀ a b, v = .imaginary (.cartesian a b) → a.InRange ∧ b.InRange

end Value

/-- What is assumed of std: the text of a float or an address tells which one it is, and the text of a
float has no space. -/
structure Shows.Faithful (sh : Shows) : Prop where
  f32 : ∀ x y, sh.f32 x = sh.f32 y → x = y ∨ Value.IsNan32 x ∧ Value.IsNan32 y
  f64 : ∀ x y, sh.f64 x = sh.f64 y → x = y ∨ Value.IsNan64 x ∧ Value.IsNan64 y
  f64_space : ∀ x, ' ' ∉ sh.f64 x
  ipv6 : ∀ a b, a.length = 8 → b.length = 8 → sh.ipv6 a = sh.ipv6 b → a = b

end Souris
