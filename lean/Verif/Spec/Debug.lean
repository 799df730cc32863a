import Verif.Spec.StdText
import Verif.Spec.Value
import Verif.Spec.ValueEq

/-! # Specification of `Debug` -/

namespace Souris

/-! ## Floats -/

/-- `t` is the number `q` with a point, at least one digit behind it and no zeros that could be left out. -/
def PointDecimal (t : List Char) (q : ℚ) : Prop :=
  ∃ int frac, JsonWhole int ∧ JsonDigits frac ∧ (frac = ['0'] ∨ frac.getLast? ≠ some '0') ∧ t = int ++ '.' :: frac ∧
    q = realValue int frac 0

/-- `t` is the number `q` with an exponent: one digit that is not zero before the point, no zeros that could be left
out, and no point without digits behind it. -/
def ScientificDecimal (t : List Char) (q : ℚ) : Prop :=
  ∃ (c : Char) (frac ex : List Char) (e : Int), c ∈ decimalDigits ∧ c ≠ '0' ∧ (∀ x ∈ frac, x ∈ decimalDigits) ∧
    frac.getLast? ≠ some '0' ∧ (e < 0 ∧ (∃ ds, ex = '-' :: ds ∧ JsonWhole ds ∧ e = -(digitsValue ds : Int)) ∨
      0 ≤ e ∧ JsonWhole ex ∧ e = digitsValue ex) ∧
    t = c :: ((if frac = [] then [] else '.' :: frac) ++ 'e' :: ex) ∧ q = realValue [c] frac e

/-- The floats that are written with an exponent: those from `1e16` on and those below `1e-4`, as they are rounded. -/
def FloatKind.Extreme (K : FloatKind) (b : Nat) : Prop := (∃ c, K.Rounds c (10 ^ 16) ∧ c ≤ b) ∨ ∃ c, K.Rounds c (1 / 10 ^ 4) ∧ b < c

/-- The digits of the float with the bits `b` (without sign, finite, not zero). -/
inductive FloatKind.DebugDigits (K : FloatKind) : Nat → List Char → Prop
  | point {b : Nat} {t : List Char} {q : ℚ} (he : ¬ K.Extreme b) (hs : K.Shortest b q) (ht : PointDecimal t q) : K.DebugDigits b t
  | exponent {b : Nat} {t : List Char} {q : ℚ} (he : K.Extreme b) (hs : K.Shortest b q) (ht : ScientificDecimal t q) :
      K.DebugDigits b t

/-- How the float with the bits `x` is shown. -/
inductive FloatKind.DebugPrinted (K : FloatKind) : Nat → List Char → Prop
  | nan {x : Nat} (h : K.inf < x % K.sign) : K.DebugPrinted x ['N', 'a', 'N']
  | infinite : K.DebugPrinted K.inf ['i', 'n', 'f']
  | negInfinite : K.DebugPrinted (K.sign + K.inf) ['-', 'i', 'n', 'f']
  | zero : K.DebugPrinted 0 ['0', '.', '0']
  | negZero : K.DebugPrinted K.sign ['-', '0', '.', '0']
  | positive {b : Nat} {t : List Char} (h0 : 0 < b) (hb : b < K.inf) (h : K.DebugDigits b t) : K.DebugPrinted b t
  | negative {b : Nat} {t : List Char} (h0 : 0 < b) (hb : b < K.inf) (h : K.DebugDigits b t) : K.DebugPrinted (K.sign + b) ('-' :: t)

/-! ## Values -/

namespace Value

/-- Timestamps exist and have leap seconds only in second 59, JSON can occur, and names of timezones are without
spaces, commas and closing brackets. -/
inductive Ordinary : Value → Prop
  | character (c : Char) : Ordinary (.character c)
  | string (s : List Char) : Ordinary (.string s)
  | binary (b : List UInt8) : Ordinary (.binary b)
  | boolean (b : Bool) : Ordinary (.boolean b)
  | integer (i : Integer) : Ordinary (.integer i)
  | imaginary (z : Imaginary) : Ordinary (.imaginary z)
  | timestamp {t : Timestamp} (h : t.Valid) (hl : t.LeapAt59) : Ordinary (.timestamp t)
  | json {j : SJValue} (h : j.Made fun _ => True) : Ordinary (.json j)
  | null : Ordinary .null
  | single (x : UInt32) : Ordinary (.single x)
  | double (x : UInt64) : Ordinary (.double x)
  | array {a : List Value} (h : ∀ v ∈ a, Ordinary v) : Ordinary (.array a)
  | map {m : List (List Char × Value)} (h : ∀ p ∈ m, Ordinary p.2) : Ordinary (.map m)
  | timezone {z : List Char} (h : ∀ c ∈ z, c ∉ [' ', ',', ')', ']', '}']) : Ordinary (.timezone z)
  | ipv4 (a b c d : UInt8) : Ordinary (.ipv4 a b c d)
  | ipv6 (a b c d e f g h : UInt16) : Ordinary (.ipv6 a b c d e f g h)

/-- The same values, but for the bits of not-a-numbers. The entries of maps are in the same order. -/
inductive Twin : Value → Value → Prop
  | same (v : Value) : Twin v v
  | polar {m a m' a' : UInt64} (h1 : m = m' ∨ IsNan64 m ∧ IsNan64 m') (h2 : a = a' ∨ IsNan64 a ∧ IsNan64 a') :
      Twin (.imaginary (.polar m a)) (.imaginary (.polar m' a'))
  | single {x y : UInt32} (hx : IsNan32 x) (hy : IsNan32 y) : Twin (.single x) (.single y)
  | double {x y : UInt64} (hx : IsNan64 x) (hy : IsNan64 y) : Twin (.double x) (.double y)
  | array {a b : List Value} (hl : a.length = b.length)
      (h : ∀ (i : Nat) x y, a[i]? = some x → b[i]? = some y → Twin x y) : Twin (.array a) (.array b)
  | map {m m' : List (List Char × Value)} (hk : m.map (·.1) = m'.map (·.1))
      (h : ∀ (i : Nat) p q, m[i]? = some p → m'[i]? = some q → Twin p.2 q.2) : Twin (.map m) (.map m')

end Value

end Souris
