import Verif.Model.Value

/-! # How deeply values are nested, and of how many parts they consist -/

namespace Souris

/-- Somewhere inside the value there are `n` containers (arrays or maps), each inside the one before, with
something in the innermost. -/
inductive Value.Nested : Nat → Value → Prop
  | zero (v : Value) : Nested 0 v
  | array {n : Nat} {v : Value} {a : List Value} (hv : v ∈ a) (h : Nested n v) : Nested (n + 1) (.array a)
  | map {n : Nat} {k : List Char} {v : Value} {m : List (List Char × Value)} (hv : (k, v) ∈ m) (h : Nested n v) :
      Nested (n + 1) (.map m)

mutual

/-- The number of values in a value, itself included. -/
def Value.parts : Value → Nat
  | .array a => 1 + Value.partsList a
  | .map m => 1 + Value.partsEntries m
  | _ => 1

def Value.partsList : List Value → Nat
  | [] => 0
  | v :: a => v.parts + Value.partsList a

def Value.partsEntries : List (List Char × Value) → Nat
  | [] => 0
  | (_, v) :: m => v.parts + Value.partsEntries m

end

end Souris
