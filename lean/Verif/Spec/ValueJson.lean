import Verif.Model.ValueJson
import Verif.Spec.ValueEq

/-! # Specification vocabulary for the JSON form of values -/

namespace Souris

/-- The JSON object carries the key `souris_type` with a number that is the code of a type. -/
def SJValue.Marked (m : List (List Char × SJValue)) : Prop :=
  ∃ n : Nat, n < 16 ∧ ("souris_type".toList, SJValue.number (.posInt n)) ∈ m

/-- Numbers as serde_json keeps them: unsigned and negative 64-bit integers, finite floats. -/
def SJNumber.Ok : SJNumber → Prop
  | .posInt n => n < 2 ^ 64
  | .negInt n => -(2 ^ 63) ≤ n ∧ n < 0
  | .float _ => True

/-- JSON values that exist and in which no object looks like a marked one. -/
inductive SJValue.Plain : SJValue → Prop
  | null : Plain .null
  | bool (b : Bool) : Plain (.bool b)
  | number {n : SJNumber} (h : n.Ok) : Plain (.number n)
  | string (s : List Char) : Plain (.string s)
  | array {a : List SJValue} (h : ∀ j ∈ a, Plain j) : Plain (.array a)
  | object {m : List (List Char × SJValue)} (hk : (m.map Prod.fst).Nodup) (hm : ¬ SJValue.Marked m)
      (h : ∀ k j, (k, j) ∈ m → Plain j) : Plain (.object m)

namespace Value

/-- The value says what the JSON says. -/
inductive Contents : SJValue → Value → Prop
  | null : Contents .null .null
  | bool (b : Bool) : Contents (.bool b) (.boolean b)
  | posInt {n : Nat} {i : Integer} (h : i.value = n) : Contents (.number (.posInt n)) (.integer i)
  | negInt {n : Int} {i : Integer} (h : i.value = n) : Contents (.number (.negInt n)) (.integer i)
  | float (x : UInt64) : Contents (.number (.float x)) (.double x)
  | string (s : List Char) : Contents (.string s) (.string s)
  | array {a : List SJValue} {b : List Value} (hl : a.length = b.length)
      (h : ∀ (i : Nat) (j : SJValue) (v : Value), a[i]? = some j → b[i]? = some v → Contents j v) :
      Contents (.array a) (.array b)
  | object {a : List (List Char × SJValue)} {b : List (List Char × Value)} (hl : a.length = b.length)
      (hk : ∀ k, (∃ j, (k, j) ∈ a) ↔ ∃ v, (k, v) ∈ b)
      (h : ∀ k j v, (k, j) ∈ a → (k, v) ∈ b → Contents j v) : Contents (.object a) (.map b)

/-- `y` is the same number as the single-precision `x` (both finite): a finite double is a multiple of
`2^-1074`, a finite single of `2^-149`. -/
def SameFloat (x : UInt32) (y : UInt64) : Prop :=
  f64Format.isFinite y.toNat = true ∧ f64Format.num y.toNat = f32Format.num x.toNat * 2 ^ 925

/-- `w` is `v` up to the documented widening: characters become strings, single floats become double
floats, JSON becomes its contents; integers keep their value. -/
inductive Widened : Value → Value → Prop
  | character (c : Char) : Widened (.character c) (.string [c])
  | string (s : List Char) : Widened (.string s) (.string s)
  | binary (b : List UInt8) : Widened (.binary b) (.binary b)
  | boolean (b : Bool) : Widened (.boolean b) (.boolean b)
  | integer {i j : Integer} (h : i.value = j.value) : Widened (.integer i) (.integer j)
  | cartesian {a b a' b' : Integer} (h1 : a.value = a'.value) (h2 : b.value = b'.value) :
      Widened (.imaginary (.cartesian a b)) (.imaginary (.cartesian a' b'))
  | polar (m a : UInt64) : Widened (.imaginary (.polar m a)) (.imaginary (.polar m a))
  | timestamp (t : Timestamp) : Widened (.timestamp t) (.timestamp t)
  | json {j : SJValue} {w : Value} (h : Contents j w) : Widened (.json j) w
  | null : Widened .null .null
  | single {x : UInt32} {y : UInt64} (h : SameFloat x y) : Widened (.single x) (.double y)
  | double (x : UInt64) : Widened (.double x) (.double x)
  | array {a b : List Value} (hl : a.length = b.length)
      (h : ∀ (i : Nat) (v w : Value), a[i]? = some v → b[i]? = some w → Widened v w) :
      Widened (.array a) (.array b)
  | map {a b : List (List Char × Value)} (hl : a.length = b.length)
      (hk : ∀ k, (∃ v, (k, v) ∈ a) ↔ ∃ w, (k, w) ∈ b)
      (h : ∀ k v w, (k, v) ∈ a → (k, w) ∈ b → Widened v w) : Widened (.map a) (.map b)
  | timezone (n : List Char) : Widened (.timezone n) (.timezone n)
  | ipv4 (a b c d : UInt8) : Widened (.ipv4 a b c d) (.ipv4 a b c d)
  | ipv6 (a b c d e f g i : UInt16) : Widened (.ipv6 a b c d e f g i) (.ipv6 a b c d e f g i)

/-- Integers that JSON can carry. -/
def JsonInt (i : Integer) : Prop := i.Native ∧ -(2 ^ 63) ≤ i.value ∧ i.value < 2 ^ 64

/-- The entry would be taken for a marker. -/
def LooksMarked (k : List Char) (v : Value) : Prop :=
  k = "souris_type".toList ∧
    ((∃ i, v = .integer i ∧ 0 ≤ i.value ∧ i.value < 16) ∨ (∃ n, n < 16 ∧ v = .json (.number (.posInt n))))

/-- Values for which the round trip through JSON is proved. Excluded: integers outside of the 64-bit
ranges, floats that are not finite, timestamps whose text chrono does not read back, and objects that
look like marked ones. -/
inductive Jsonable (env : Env) : Value → Prop
  | character (c : Char) : Jsonable env (.character c)
  | string (s : List Char) : Jsonable env (.string s)
  | binary (b : List UInt8) : Jsonable env (.binary b)
  | boolean (b : Bool) : Jsonable env (.boolean b)
  | integer {i : Integer} (h : JsonInt i) : Jsonable env (.integer i)
  | cartesian {a b : Integer} (h1 : JsonInt a) (h2 : JsonInt b) : Jsonable env (.imaginary (.cartesian a b))
  | polar {m a : UInt64} (h1 : f64Format.isFinite m.toNat) (h2 : f64Format.isFinite a.toNat) :
      Jsonable env (.imaginary (.polar m a))
  | timestamp {t : Timestamp} (h : env.tsParse (env.tsPrint t) = some t) : Jsonable env (.timestamp t)
  | json {j : SJValue} (h : j.Plain) : Jsonable env (.json j)
  | null : Jsonable env .null
  | single {x : UInt32} (h : f32Format.isFinite x.toNat) : Jsonable env (.single x)
  | double {x : UInt64} (h : f64Format.isFinite x.toNat) : Jsonable env (.double x)
  | array {a : List Value} (h : ∀ v ∈ a, Jsonable env v) : Jsonable env (.array a)
  | map {m : List (List Char × Value)} (hk : (m.map Prod.fst).Nodup)
      (hm : ∀ k v, (k, v) ∈ m → ¬ LooksMarked k v) (h : ∀ k v, (k, v) ∈ m → Jsonable env v) :
      Jsonable env (.map m)
  | timezone {n : List Char} (h : n ∈ env.tzNames) : Jsonable env (.timezone n)
  | ipv4 (a b c d : UInt8) : Jsonable env (.ipv4 a b c d)
  | ipv6 (a b c d e f g i : UInt16) : Jsonable env (.ipv6 a b c d e f g i)

end Value

end Souris
