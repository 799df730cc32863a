import Verif.Spec.Concurrent
import Verif.Spec.Daemon

/-! # Specification: what concurrent writes and reads of one key have to do with each other -/

namespace Souris

/-- The operation may change or remove a value that is stored under the key `k` of the database `n`. -/
def Op.Touches (n k : List Char) : Op → Prop
  | .newDb m overwrite => m = n ∧ overwrite = true
  | .newDbWith m _ _ => m = n
  | .clearDb m => m = n
  | .removeDb m _ => m = n
  | .addKv m k' _ overwrite _ => m = n ∧ k' = k ∧ overwrite = true
  | .removeKey m k' => m = n ∧ k' = k
  | .getDb _ | .getValue _ _ | .allNames => False

/-- The operation may store the value `v` under the key `k` of the database `n`. -/
def Op.Offers (n k : List Char) (v : Value) : Op → Prop
  | .newDbWith m _ c => m = n ∧ (k, v) ∈ c
  | .addKv m k' _ _ w => m = n ∧ k' = k ∧ w = v
  | _ => False

/-- Executed one after another on a map of maps `a`, every operation gets a reply that fits, and `b` is the
result. -/
def Abs.Explains (env : Env) : Abs → List (Nat × Op × Reply) → Abs → Prop
  | a, [], b => a = b
  | a, x :: S, b => a.Answers env x.2.1 x.2.2 ∧ Abs.Explains env (a.after x.2.1) S b

/-- The operation `u` was not executed between `t` and `t'`: it was answered before `t` was called, or called
after `t'` was answered. -/
def Apart (evs : List Ev) (t t' u : Nat) : Prop :=
  (∃ r op, Before evs (.ret u r) (.call t op)) ∨ (∃ r op, Before evs (.ret t' r) (.call u op))

end Souris
