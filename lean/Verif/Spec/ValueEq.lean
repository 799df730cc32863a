import Verif.Spec.Value

/-! # Specification vocabulary for equality of values -/

namespace Souris

/-- `w` occurs in the JSON value. -/
inductive SJValue.Sub : SJValue → SJValue → Prop
  | refl (j : SJValue) : Sub j j
  | array {a : List SJValue} {w v : SJValue} (hv : v ∈ a) (h : Sub w v) : Sub w (.array a)
  | object {m : List (List Char × SJValue)} {k : List Char} {w v : SJValue} (hv : (k, v) ∈ m)
      (h : Sub w v) : Sub w (.object m)

namespace Value

/-- `w` is the value itself or occurs in it. -/
inductive Sub : Value → Value → Prop
  | refl (v : Value) : Sub v v
  | array {a : List Value} {w v : Value} (hv : v ∈ a) (h : Sub w v) : Sub w (.array a)
  | map {m : List (List Char × Value)} {k : List Char} {w v : Value} (hv : (k, v) ∈ m)
      (h : Sub w v) : Sub w (.map m)

/-- A value that exists at run time: its integers were built by the API, and the keys of each of its maps
are distinct. -/
def Live (v : Value) : Prop :=
  (∀ i, Sub (.integer i) v → i.Reachable) ∧
  (∀ z, Sub (.imaginary z) v → z.Reachable) ∧
  (∀ m, Sub (.map m) v → (m.map Prod.fst).Nodup)

/-- IEEE-754 not-a-number bit patterns. -/
def IsNan64 (x : UInt64) : Prop := x.toNat / 2 ^ 52 % 2 ^ 11 = 2 ^ 11 - 1 ∧ x.toNat % 2 ^ 52 ≠ 0
def IsNan32 (x : UInt32) : Prop := x.toNat / 2 ^ 23 % 2 ^ 8 = 2 ^ 8 - 1 ∧ x.toNat % 2 ^ 23 ≠ 0

/-- A NaN occurs somewhere in the value. -/
def HasNan (v : Value) : Prop :=
  (∃ x, IsNan64 x ∧ Sub (.double x) v) ∨ (∃ x, IsNan32 x ∧ Sub (.single x) v) ∨
  (∃ m a, (IsNan64 m ∨ IsNan64 a) ∧ Sub (.imaginary (.polar m a)) v)

/-- `0.0` and `-0.0`. -/
def IsZero64 (x : UInt64) : Prop := x.toNat = 0 ∨ x.toNat = 2 ^ 63
def IsZero32 (x : UInt32) : Prop := x.toNat = 0 ∨ x.toNat = 2 ^ 31

/-- A float zero occurs somewhere in the value, also inside JSON. -/
def HasFloatZero (v : Value) : Prop :=
  (∃ x, IsZero64 x ∧ Sub (.double x) v) ∨ (∃ x, IsZero32 x ∧ Sub (.single x) v) ∨
  (∃ m a, (IsZero64 m ∨ IsZero64 a) ∧ Sub (.imaginary (.polar m a)) v) ∨
  (∃ j x, IsZero64 x ∧ SJValue.Sub (.number (.float x)) j ∧ Sub (.json j) v)

/-- A map of two or more entries occurs somewhere in the value. -/
def HasWideMap (v : Value) : Prop := ∃ m, 2 ≤ m.length ∧ Sub (.map m) v

end Value

end Souris
