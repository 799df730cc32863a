import Verif.Model.Concurrent

/-! # Specification of concurrent behaviour: sequential histories and the order of events -/

namespace Souris

namespace Trace

/-- What happened, in order. -/
def events (tr : Trace) : List Ev := tr.map Prod.fst

/-- The configurations on the way, the first one included. -/
def confs (c : Conf) (tr : Trace) : List Conf := c :: tr.map Prod.snd

end Trace

/-- `a` happened before `b`. -/
def Before (evs : List Ev) (a b : Ev) : Prop := ∃ l₁ l₂, evs = l₁ ++ l₂ ∧ a ∈ l₁ ∧ b ∈ l₂

/-- `get_db`. -/
def Op.isGetDb : Op → Bool
  | .getDb _ => true
  | _ => false

/-- The replies to operations executed one after another by a daemon that has no cache, and the databases
afterwards. -/
def replay (env : Env) : Dbs → List Op → List Reply × Dbs
  | dbs, [] => ([], dbs)
  | dbs, op :: ops =>
    let x := Daemon.exec env op ⟨dbs, []⟩
    let y := replay env x.2.dbs ops
    (x.1 :: y.1, y.2)

/-- An order in which the operations of a trace (other than `get_db`) could have been executed one after
another, explaining every reply: complete operations are in it, an operation that returned before another
one was called comes first, and the order is that in which the lock was obtained. -/
structure Linearization (env : Env) (c : Conf) (tr : Trace) (S : List (Nat × Op × Reply)) : Prop where
  legal : replay env c.dbs (S.map fun x => x.2.1) = (S.map fun x => x.2.2, (Trace.last c tr).dbs)
  called : ∀ x ∈ S, .call x.1 x.2.1 ∈ tr.events ∧ x.2.1.isGetDb = false
  once : (S.map Prod.fst).Nodup
  complete : ∀ t op r, .call t op ∈ tr.events → op.isGetDb = false → .ret t r ∈ tr.events → (t, op, r) ∈ S
  realTime : ∀ t r t' op', Before tr.events (.ret t r) (.call t' op') → ∀ S₁ x S₂, S = S₁ ++ x :: S₂ → x.1 = t →
    ∀ y ∈ S₁, y.1 ≠ t'
  lockOrder : ∀ S₁ x S₂, S = S₁ ++ x :: S₂ → ∀ y ∈ S₁, .acquire y.1 ∈ tr.events → .acquire x.1 ∈ tr.events →
    Before tr.events (.acquire y.1) (.acquire x.1)

end Souris
