import Verif.Spec.Store
import Verif.Spec.ValueEq

/-! # Specification vocabulary for the contents of files -/

namespace Souris

namespace Value

/-- A value that exists at run time (`Live`), whose timestamps are dates and times of day, and whose JSON
survives its own text form. -/
def Sound (env : Env) (v : Value) : Prop :=
  Live v ∧ (∀ t, Sub (.timestamp t) v → t.Valid) ∧
  ∀ j, Sub (.json j) v → env.jsonParse (env.jsonPrint j) = some j

mutual
/-- The size of a value: its characters (of JSON, those of its text), bytes of binary data, keys and nested
values. -/
def size (env : Env) : Value → Nat
  | string s => 1 + s.length
  | binary b => 1 + b.length
  | json j => 1 + (env.jsonPrint j).length
  | timezone n => 1 + n.length
  | map m => 1 + sizeEntries env m
  | array a => 1 + sizeList env a
  | _ => 1

/-- The elements of an array. -/
def sizeList (env : Env) : List Value → Nat
  | [] => 0
  | v :: vs => size env v + sizeList env vs

/-- The entries of a map. -/
def sizeEntries (env : Env) : List (List Char × Value) → Nat
  | [] => 0
  | (k, v) :: vs => (1 + k.length) + size env v + sizeEntries env vs
end

end Value

/-- All the text in the store is made of one and the same character, and there is some. -/
def Store.OneCharacter (env : Env) (s : Store) : Prop :=
  ∃ x : Char, (∀ t, Value.Text env t (.map s) → ∀ y ∈ t, y = x) ∧ ∃ t, Value.Text env t (.map s) ∧ x ∈ t

end Souris
