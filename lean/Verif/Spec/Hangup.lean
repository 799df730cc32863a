import Verif.Spec.Concurrent

/-! # What requests have done, in order (specification of C108) -/

namespace Souris

/-- The tasks that have worked on the databases, in order. -/
def Ev.worked : Ev → Option Nat
  | .act t => some t
  | _ => none

/-- The databases after whole requests, one after another. -/
def afterAll (env : Env) (dbs : Dbs) (reqs : List (Nat × Op)) : Dbs :=
  reqs.foldl (fun dbs x => (Daemon.exec env x.2 ⟨dbs, []⟩).2.dbs) dbs

/-- The requests that may have been carried out though their client went away before the answer: those that wait for something
after they have worked on the databases. -/
def Op.waitsAfter : Op → Prop
  | .newDb _ _ | .removeDb _ _ | .getDb _ => True
  | _ => False

end Souris
