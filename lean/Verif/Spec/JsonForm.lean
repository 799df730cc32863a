import Verif.Spec.IntegerConv
import Verif.Spec.Store

/-!
# The JSON form of values

`JsonForm env types v j`: `j` is the JSON documented for the value `v`, with or without the additional members
`souris_type`. Written from the documentation of `Value::convert_to_json` and the README, with the names of the
members spelled out.
-/

namespace Souris

/-- The members of a JSON object, kept in increasing order of names. -/
def IsObject (o fields : List (List Char × SJValue)) : Prop :=
  (o.Pairwise fun x y => x.1 < y.1) ∧ o.Perm fields

/-- The JSON number of a mathematical integer: unsigned or negative, with 64 bits. -/
inductive JsonInteger : Int → SJNumber → Prop
  | nonneg {n : Nat} (h : n < 2 ^ 64) : JsonInteger n (.posInt n)
  | negative {n : Int} (h1 : -(2 ^ 63) ≤ n) (h2 : n < 0) : JsonInteger n (.negInt n)

/-- The member `souris_type`, if wanted. -/
def typeMember (types : Bool) (code : Nat) : List (List Char × SJValue) :=
  if types then [("souris_type".toList, .number (.posInt code))] else []

/-- An array of small numbers. -/
def numberArray (l : List Nat) : SJValue := .array (l.map fun n => .number (.posInt n))

namespace Value

/-- See above. -/
inductive JsonForm (env : Env) (types : Bool) : Value → SJValue → Prop
  | character (c : Char) : JsonForm env types (.character c) (.string [c])
  | string (s : List Char) : JsonForm env types (.string s) (.string s)
  | boolean (b : Bool) : JsonForm env types (.boolean b) (.bool b)
  | null : JsonForm env types .null .null
  | json (j : SJValue) : JsonForm env types (.json j) j
  | integer {i : Integer} {n : SJNumber} (h : JsonInteger i.value n) : JsonForm env types (.integer i) (.number n)
  | single {x : UInt32} {y : UInt64} (hx : F32Finite x) (hy : F64Finite y) (h : f64Value y = f32Value x)
      (hs : y.toNat / 2 ^ 63 = x.toNat / 2 ^ 31) : JsonForm env types (.single x) (.number (.float y))
  | double {x : UInt64} (hx : F64Finite x) : JsonForm env types (.double x) (.number (.float x))
  | array {a : List Value} {b : List SJValue} (hl : a.length = b.length)
      (h : ∀ (i : Nat) (v : Value) (j : SJValue), a[i]? = some v → b[i]? = some j → JsonForm env types v j) :
      JsonForm env types (.array a) (.array b)
  | map {m : List (List Char × Value)} {o : List (List Char × SJValue)} (ho : o.Pairwise fun x y => x.1 < y.1)
      (hl : m.length = o.length) (hk : ∀ k, (∃ v, (k, v) ∈ m) ↔ ∃ j, (k, j) ∈ o)
      (h : ∀ k v j, (k, v) ∈ m → (k, j) ∈ o → JsonForm env types v j) : JsonForm env types (.map m) (.object o)
  | cartesian {re im : Integer} {r i : SJNumber} {o : List (List Char × SJValue)} (hr : JsonInteger re.value r)
      (hi : JsonInteger im.value i)
      (ho : IsObject o (typeMember types 5 ++ [("real".toList, .number r), ("imaginary".toList, .number i)])) :
      JsonForm env types (.imaginary (.cartesian re im)) (.object o)
  | polar {m a : UInt64} {o : List (List Char × SJValue)} (hm : F64Finite m) (ha : F64Finite a)
      (ho : IsObject o (typeMember types 5 ++ [("modulus".toList, .number (.float m)),
        ("argument".toList, .number (.float a))])) :
      JsonForm env types (.imaginary (.polar m a)) (.object o)
  | timestamp {t : Timestamp} {o : List (List Char × SJValue)}
      (ho : IsObject o (typeMember types 6 ++ [("timestamp".toList, .string (env.tsPrint t))])) :
      JsonForm env types (.timestamp t) (.object o)
  | timezone {z : List Char} {o : List (List Char × SJValue)}
      (ho : IsObject o (typeMember types 12 ++ [("timezone".toList, .string z)])) :
      JsonForm env types (.timezone z) (.object o)
  | binary {b : List UInt8} {o : List (List Char × SJValue)}
      (ho : IsObject o (typeMember types 2 ++ [("bytes".toList, numberArray (b.map UInt8.toNat))])) :
      JsonForm env types (.binary b) (.object o)
  | ipv4_plain (a b c d : UInt8) (h : types = false) :
      JsonForm env types (.ipv4 a b c d) (numberArray [a.toNat, b.toNat, c.toNat, d.toNat])
  | ipv4_marked {a b c d : UInt8} {o : List (List Char × SJValue)} (h : types = true)
      (ho : IsObject o [("souris_type".toList, .number (.posInt 13)),
        ("octets".toList, numberArray [a.toNat, b.toNat, c.toNat, d.toNat])]) :
      JsonForm env types (.ipv4 a b c d) (.object o)
  | ipv6_plain (a b c d e f g i : UInt16) (h : types = false) : JsonForm env types (.ipv6 a b c d e f g i)
      (numberArray [a.toNat, b.toNat, c.toNat, d.toNat, e.toNat, f.toNat, g.toNat, i.toNat])
  | ipv6_marked {a b c d e f g i : UInt16} {o : List (List Char × SJValue)} (h : types = true)
      (ho : IsObject o [("souris_type".toList, .number (.posInt 14)),
        ("octets".toList, numberArray [a.toNat, b.toNat, c.toNat, d.toNat, e.toNat, f.toNat, g.toNat, i.toNat])]) :
      JsonForm env types (.ipv6 a b c d e f g i) (.object o)

/-- JSON has a number for the integer. -/
def Fits (i : Integer) : Prop := -(2 ^ 63) ≤ i.value ∧ i.value < 2 ^ 64

/-- Nothing in the value is too large for JSON, infinite or not a number. -/
def Expressible (v : Value) : Prop :=
  (∀ i, Sub (.integer i) v → Fits i) ∧
  (∀ re im, Sub (.imaginary (.cartesian re im)) v → Fits re ∧ Fits im) ∧
  (∀ m a, Sub (.imaginary (.polar m a)) v → F64Finite m ∧ F64Finite a) ∧
  (∀ x, Sub (.single x) v → F32Finite x) ∧
  (∀ x, Sub (.double x) v → F64Finite x)

/-- The integers come from Rust integers, and none is in the range that the code converts wrongly
(`C11_refuted_everywhere`). -/
def SafeInt (i : Integer) : Prop := i.Native ∧ ¬ (-(2 ^ 64) ≤ i.value ∧ i.value < -(2 ^ 63))

def SafeInts (v : Value) : Prop :=
  (∀ i, Sub (.integer i) v → SafeInt i) ∧
  (∀ re im, Sub (.imaginary (.cartesian re im)) v → SafeInt re ∧ SafeInt im)

/-- The keys of every map are distinct. -/
def KeysDistinct (v : Value) : Prop := ∀ m, Sub (.map m) v → (m.map Prod.fst).Nodup

end Value

end Souris
