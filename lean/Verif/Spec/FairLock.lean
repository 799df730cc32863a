import Verif.Model.FairLock

/-! # Specification: runs without end and a fair scheduler -/

namespace Souris

/-- Whose work an event is. Arrivals, cancellations, evictions, the stop signal and the end of the process are
nobody's work. -/
def FEv.who : FEv → Option Who
  | .ask w => some w
  | .act (.req (.call _ _)) | .act (.req (.cancel _)) | .act (.req (.evict _)) => none
  | .act (.req e) => e.task.map .task
  | .act (.begin _) | .act (.write _ _) | .act .release | .act (.list _ _) => some .saver
  | .act (.lateDelete _) | .act .signal | .act .exit => none

/-- It can do some of its work now. -/
def FSys.Able (env : Env) (base : Path) (s : FSys) (w : Who) : Prop :=
  ∃ e s', FStep env base s e s' ∧ e.who = some w

/-- Everything that ever happens: `s i` is the daemon after `i` ticks, and `e i` what happens next, if anything. -/
structure Forever (env : Env) (base : Path) (s : Nat → FSys) (e : Nat → Option FEv) : Prop where
  starts : ∃ dbs fs, s 0 = FSys.init dbs fs
  idle : ∀ i, e i = none → s (i + 1) = s i
  steps : ∀ i v, e i = some v → FStep env base (s i) v (s (i + 1))

/-- The scheduler is fair: who can work from some point on without interruption, works. -/
def Fair (env : Env) (base : Path) (s : Nat → FSys) (e : Nat → Option FEv) : Prop :=
  ∀ w i, (∀ j, i ≤ j → (s j).Able env base w) → ∃ j, i ≤ j ∧ (e j).bind FEv.who = some w

/-- The answer of the file system to a deletion, which the model keeps with the request, is one that the file system
can give when the file is deleted. -/
def Deletes (base : Path) (s : Sys) : Prop :=
  ∀ t n io, s.conf.tasks t = some (.removeDb n io, .unlinking) → io = .failed ∨ (unlink s.fs base n).1 = io

/-- A run: the events with the states that they lead to. -/
inductive FRun (env : Env) (base : Path) (s : FSys) : List FEv → FSys → Prop
  | nil : FRun env base s [] s
  | snoc {tr : List FEv} {m : FSys} {e : FEv} {s' : FSys} (h : FRun env base s tr m) (hs : FStep env base m e s') :
      FRun env base s (tr ++ [e]) s'

/-- Who obtained the lock, in order. -/
def obtained (tr : List FEv) : List Who :=
  tr.filterMap fun
    | .act e => e.obtains
    | .ask _ => none

end Souris
