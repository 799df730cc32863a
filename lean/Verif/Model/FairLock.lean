import Verif.Model.Saver

/-!
# Waiting for the lock (crates/sourisd/src/v1_routes/state.rs L39 and every `lock().await`)

`tokio::sync::Mutex` hands the lock to those who asked for it in the order in which they asked. Here the tasks of
`Model/Saver.lean` have a queue in front of the lock. Asking is the first poll of `lock()`; who finds the lock free and
nobody waiting obtains it with the next step. A cancelled task leaves the queue.

Simplified: whether a save that waited for the lock is the last one is decided when it begins.
-/

namespace Souris

/-- Who can hold the lock. -/
inductive Who
  | task (t : Nat)
  | saver
deriving DecidableEq, Repr

/-- The daemon with the queue in front of its lock. -/
structure FSys where
  sys : Sys
  queue : List Who

/-- What can be seen of a step. -/
inductive FEv
  | ask (w : Who)
  | act (e : SEv)

/-- The daemon has just started. -/
def FSys.init (dbs : Dbs) (fs : FS) : FSys := ⟨Sys.init dbs fs, []⟩

/-- The event obtains the lock. -/
def SEv.obtains : SEv → Option Who
  | .req (.acquire t) => some (.task t)
  | .begin _ => some .saver
  | _ => none

/-- The event ends the wait of a task without the lock. -/
def SEv.leaves : SEv → Option Who
  | .req (.cancel t) => some (.task t)
  | _ => none

/-- Who is about to call `lock()`: a method at one of its calls, or the saver when it wakes up (main.rs L105-119,
state.rs L338). -/
def Sys.Asks (s : Sys) : Who → Prop
  | .task t => ∃ op pc, s.conf.tasks t = some (op, pc) ∧ op.asks pc
  | .saver => s.saver = .idle

/-- One step. -/
inductive FStep (env : Env) (base : Path) : FSys → FEv → FSys → Prop
  /-- `lock()` is polled for the first time -/
  | ask {s : FSys} {w : Who} (hx : s.sys.exited = false) (hq : w ∉ s.queue) (h : s.sys.Asks w) :
      FStep env base s (.ask w) { s with queue := s.queue ++ [w] }
  /-- the lock is handed to the first in the queue -/
  | obtain {s : FSys} {w : Who} {q : List Who} {e : SEv} {s' : Sys} (hq : s.queue = w :: q) (he : e.obtains = some w)
      (h : SStep env base s.sys e s') : FStep env base s (.act e) ⟨s', q⟩
  /-- everything else -/
  | other {s : FSys} {e : SEv} {s' : Sys} (he : e.obtains = none) (h : SStep env base s.sys e s') :
      FStep env base s (.act e) ⟨s', s.queue.filter fun w => some w ≠ e.leaves⟩

end Souris
