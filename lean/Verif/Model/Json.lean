import Verif.Model.IntegerConv

/-!
# serde_json values

External code, modelled by its documentation: `Value` and `Map` of serde_json 1.0.129 without the
`preserve_order` and `arbitrary_precision` features. A `Map` is a `BTreeMap<String, Value>`: its
entries in increasing order of keys, which are compared bytewise; that is the order of code points. The
text form (`to_string`, `from_str`) is a parameter of the model of values.
-/

namespace Souris

/-- `serde_json::Value`. -/
inductive SJValue
  | null
  | bool (b : Bool)
  | number (n : SJNumber)
  | string (s : List Char)
  | array (a : List SJValue)
  | object (m : List (List Char × SJValue))

namespace SJValue

/-- `str::cmp`: is the first string smaller? -/
def keyLt : List Char → List Char → Bool
  | [], [] => false
  | [], _ :: _ => true
  | _ :: _, [] => false
  | a :: as, b :: bs => if a = b then keyLt as bs else a.toNat < b.toNat

/-- `BTreeMap::insert`. -/
def insert {α : Type} (k : List Char) (v : α) : List (List Char × α) → List (List Char × α)
  | [] => [(k, v)]
  | (k', v') :: rest =>
    if k = k' then (k, v) :: rest
    else if keyLt k k' then (k, v) :: (k', v') :: rest
    else (k', v') :: insert k v rest

/-- `BTreeMap::get`. -/
def get {α : Type} (k : List Char) : List (List Char × α) → Option α
  | [] => none
  | (k', v) :: rest => if k = k' then some v else get k rest

/-- `Number::from_f64`: only finite floats are JSON numbers. -/
def ofF64 (bits : UInt64) : Option SJNumber :=
  if f64Format.isFinite bits.toNat then some (.float bits) else none

/-- `Value::as_u64`. -/
def asU64 : SJValue → Option Nat
  | number n => n.asU64
  | _ => none

mutual
/-- `PartialEq`: derived; numbers compare within their kind, floats as floats. -/
def eq : SJValue → SJValue → Bool
  | null, null => true
  | bool a, bool b => a = b
  | number (.posInt a), number (.posInt b) => a = b
  | number (.negInt a), number (.negInt b) => a = b
  | number (.float a), number (.float b) => decide (a = b) ||
      (decide (a.toNat % 2 ^ 63 = 0) && decide (b.toNat % 2 ^ 63 = 0))
  | string a, string b => a = b
  | array a, array b => eqList a b
  | object a, object b => eqEntries a b
  | _, _ => false

/-- Arrays: same length and equal elements. -/
def eqList : List SJValue → List SJValue → Bool
  | [], [] => true
  | a :: as, b :: bs => eq a b && eqList as bs
  | _, _ => false

/-- Objects: the sorted entries are compared in order. -/
def eqEntries : List (List Char × SJValue) → List (List Char × SJValue) → Bool
  | [], [] => true
  | (k, a) :: as, (k', b) :: bs => decide (k = k') && eq a b && eqEntries as bs
  | _, _ => false
end

end SJValue

end Souris
