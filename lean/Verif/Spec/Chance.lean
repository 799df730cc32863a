import Verif.Spec.ValueEq

/-! # Specification vocabulary: one value on two occasions

A hash map hands out its entries in an order that changes from one process (and one map) to the next. -/

namespace Souris

/-- The two are one value, met on two occasions: the same but for the order in which maps, at any depth,
hand out their entries. -/
inductive Reordered : Value → Value → Prop
  | same (v : Value) : Reordered v v
  | array {a a' : List Value} (hl : a.length = a'.length)
      (h : ∀ (i : Nat) (v v' : Value), a[i]? = some v → a'[i]? = some v' → Reordered v v') :
      Reordered (.array a) (.array a')
  | map {m m' m'' : List (List Char × Value)} (hl : m.length = m'.length)
      (hk : ∀ (i : Nat) (e e' : List Char × Value), m[i]? = some e → m'[i]? = some e' → e.1 = e'.1)
      (hv : ∀ (i : Nat) (e e' : List Char × Value), m[i]? = some e → m'[i]? = some e' → Reordered e.2 e'.2)
      (hp : m'.Perm m'') : Reordered (.map m) (.map m'')

/-- Two occasions: the same libraries, but hash maps may iterate in any order on either. -/
structure Occasions (env env' : Env) : Prop where
  lz : env.lz = env'.lz
  json : env.jsonPrint = env'.jsonPrint
  first : HashOrder env.byteOrd
  second : HashOrder env'.byteOrd

/-- No two groups of symbols that have none in common occur equally often in the data. -/
def Untied {T : Type} [DecidableEq T] (data : List T) : Prop :=
  ∀ A B : List T, (A ++ B).Nodup → A ≠ [] → B ≠ [] → (∀ x ∈ A ++ B, x ∈ data) →
    (A.map fun x => data.count x).sum ≠ (B.map fun x => data.count x).sum

namespace Value

mutual
/-- All characters of the text in a value: of strings, keys, names of time zones and printed JSON. -/
def letters (env : Env) : Value → List Char
  | array a => lettersList env a
  | map m => lettersEntries env m
  | json j => env.jsonPrint j
  | timezone n => n
  | string s => s
  | _ => []
def lettersList (env : Env) : List Value → List Char
  | [] => []
  | v :: vs => letters env v ++ lettersList env vs
def lettersEntries (env : Env) : List (List Char × Value) → List Char
  | [] => []
  | (k, v) :: m => k ++ (letters env v ++ lettersEntries env m)
end

end Value

end Souris
