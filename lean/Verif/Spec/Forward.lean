import Verif.Spec.Concurrent

/-! # Specification: whole-database reads in the order of their answers (C110) -/

namespace Souris

/-- The event number `i` is the answer `b` to a `get_db` of `n`. -/
def Trace.Gives (tr : Trace) (n : List Char) (i : Nat) (b : List UInt8) : Prop :=
  ∃ t, tr.events[i]? = some (.ret t (.bytes b)) ∧ .call t (.getDb n) ∈ tr.events

/-- The database `n` has contents that are written as `b`. -/
def Conf.Writes (env : Env) (n : List Char) (b : List UInt8) (c : Conf) : Prop :=
  ∃ s, AMap.get n c.dbs = some s ∧ Store.ser env s = .ok b

end Souris
