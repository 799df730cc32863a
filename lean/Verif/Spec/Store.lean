import Verif.Model.Store
import Verif.Spec.ValueJson

/-! # Specification vocabulary for stores -/

namespace Souris

/-- `t` is a text that occurs in the value, at any depth: a string, a map key, the text of a JSON value or
the name of a timezone. -/
inductive Value.Text (env : Env) : List Char → Value → Prop
  | string (s : List Char) : Text env s (.string s)
  | json (j : SJValue) : Text env (env.jsonPrint j) (.json j)
  | timezone (n : List Char) : Text env n (.timezone n)
  | key {k : List Char} {v : Value} {m : List (List Char × Value)} (h : (k, v) ∈ m) : Text env k (.map m)
  | array {t : List Char} {v : Value} {a : List Value} (hv : v ∈ a) (h : Text env t v) : Text env t (.array a)
  | map {t k : List Char} {v : Value} {m : List (List Char × Value)} (hv : (k, v) ∈ m) (h : Text env t v) :
      Text env t (.map m)

/-- The entries of every object are in increasing order of keys and every float is finite, as serde_json
keeps them. -/
inductive SJValue.Canonical : SJValue → Prop
  | null : Canonical .null
  | bool (b : Bool) : Canonical (.bool b)
  | posInt (n : Nat) : Canonical (.number (.posInt n))
  | negInt (n : Int) : Canonical (.number (.negInt n))
  | float {x : UInt64} (h : f64Format.isFinite x.toNat) : Canonical (.number (.float x))
  | string (s : List Char) : Canonical (.string s)
  | array {a : List SJValue} (h : ∀ j ∈ a, Canonical j) : Canonical (.array a)
  | object {m : List (List Char × SJValue)} (hs : m.Pairwise fun x y => x.1 < y.1)
      (h : ∀ k j, (k, j) ∈ m → Canonical j) : Canonical (.object m)

end Souris
