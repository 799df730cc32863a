import Verif.Model.Concurrent
import Verif.Model.Disk

/-!
# The saver beside the requests (crates/sourisd/src/main.rs L57-86, L99-123, L147-150; v1_routes/state.rs L137-147, L335-355)

The tasks of `Model/Concurrent.lean` and the saver's task interleave in any order, and the file system of
`Model/Disk.lean` changes with their steps. The saver sleeps (L108) until it begins a save; a save waits for
the lock (state.rs L338), writes one file after another with the lock held, for the guard is a temporary of
the `for` expression, releases it, and writes the list (L349-354). After the stop signal there is one last
save (L119), then the server stops accepting (L83, L149), finishes the requests in progress, and exits.

`rm_db` deletes the file after it has released the lock (L137-141). The deletion runs on a background
thread; when the request is cancelled meanwhile it happens nevertheless, later.

Simplified: a file that the saver writes is written when the saver goes on to the next (`Model/Disk.lean`);
the saver's waking up and its asking for the lock are one step with obtaining it; a task that asks for the
lock may get it before one that asked earlier (tokio's lock is fair).
-/

namespace Souris

/-- Where the saver is. `last` is whether this is the save after the stop signal. -/
inductive SPc
  /-- main.rs L103-115 -/
  | idle
  /-- state.rs L338-347, the lock held: the databases to be written, and the names of those that were -/
  | writing (last : Bool) (todo : Dbs) (names : List (List Char))
  /-- state.rs L349-354, the lock released -/
  | listing (last : Bool) (names : List (List Char))
  /-- main.rs L122 -/
  | finished

/-- The saver holds the lock. -/
def SPc.holds : SPc → Prop
  | .writing _ _ _ => True
  | _ => False

/-- The stop signal (main.rs L81, L105-115). -/
inductive StopSignal
  | no
  /-- sent; if the saver's timer expires at the same time, `select!` may still choose the timer -/
  | sent
  /-- a periodic save began after it was sent; the timer is new after that, so the signal is next -/
  | due
deriving DecidableEq

/-- The daemon with its tasks, its saver and its disk. -/
structure Sys where
  conf : Conf
  fs : FS
  saver : SPc
  /-- files that a cancelled `rm_db` is still about to delete -/
  late : List (List Char)
  stop : StopSignal
  /-- the process has exited -/
  exited : Bool

/-- What can be seen of a step. -/
inductive SEv
  | req (e : Ev)
  | lateDelete (n : List Char)
  | signal
  | begin (last : Bool)
  | write (n : List Char) (f : Fault)
  | release
  | list (f : Fault) (ok : Bool)
  | exit

/-- The daemon has just started. -/
def Sys.init (dbs : Dbs) (fs : FS) : Sys := ⟨Conf.init dbs, fs, .idle, [], .no, false⟩

/-- A task that does nothing any more. -/
def Pc.ended : Pc → Prop
  | .done _ | .cancelled => True
  | _ => False

/-- One step. -/
inductive SStep (env : Env) (base : Path) : Sys → SEv → Sys → Prop
  /-- a step of a request that is not deleting a file; the lock cannot be obtained while the saver has it -/
  | req {s : Sys} {e : Ev} {c' : Conf} (hx : s.exited = false) (h : Step env s.conf e c')
      (hl : ∀ t, e = .acquire t → ¬ s.saver.holds)
      (hu : ∀ t n io, e.task = some t → s.conf.tasks t ≠ some (.removeDb n io, .unlinking)) :
      SStep env base s (.req e) { s with conf := c' }
  /-- state.rs L141: the file is deleted, or cannot be -/
  | delete {s : Sys} {t : Nat} {n : List Char} {io : IoResult} {fs' : FS} (hx : s.exited = false)
      (h : s.conf.tasks t = some (.removeDb n io, .unlinking))
      (hio : unlink s.fs base n = (io, fs') ∨ (io = .failed ∧ fs' = s.fs)) :
      SStep env base s (.req (.ret t (afterUnlink io)))
        { s with conf := s.conf.set t (.removeDb n io) (.done (afterUnlink io)), fs := fs' }
  /-- the request is cancelled while the file is being deleted; the deletion is still to come, or not -/
  | abandon {s : Sys} {t : Nat} {n : List Char} {io : IoResult} {late' : List (List Char)} (hx : s.exited = false)
      (h : s.conf.tasks t = some (.removeDb n io, .unlinking)) (hl : late' = s.late ∨ late' = n :: s.late) :
      SStep env base s (.req (.cancel t)) { s with conf := s.conf.set t (.removeDb n io) .cancelled, late := late' }
  /-- the deletion of a cancelled request -/
  | lateDelete {s : Sys} {n : List Char} {l₁ l₂ : List (List Char)} (hx : s.exited = false) (h : s.late = l₁ ++ n :: l₂) :
      SStep env base s (.lateDelete n) { s with fs := (unlink s.fs base n).2, late := l₁ ++ l₂ }
  /-- main.rs L81 -/
  | signal {s : Sys} (hx : s.exited = false) (h : s.stop = .no) : SStep env base s .signal { s with stop := .sent }
  /-- state.rs L338: the saver obtains the lock; a map lists its entries in any order -/
  | begin {s : Sys} {todo : Dbs} (hx : s.exited = false) (h : s.saver = .idle) (hl : s.conf.lock = none)
      (hs : s.stop ≠ .due) (ht : todo.Perm s.conf.dbs) :
      SStep env base s (.begin false)
        { s with saver := .writing false todo [], stop := if s.stop = .sent then .due else s.stop }
  /-- the same for the save after the stop signal (main.rs L119) -/
  | beginLast {s : Sys} {todo : Dbs} (hx : s.exited = false) (h : s.saver = .idle) (hl : s.conf.lock = none)
      (hs : s.stop ≠ .no) (ht : todo.Perm s.conf.dbs) :
      SStep env base s (.begin true) { s with saver := .writing true todo [] }
  /-- state.rs L339-346 -/
  | write {s : Sys} {last : Bool} {n : List Char} {d : Store} {todo : Dbs} {names : List (List Char)} (f : Fault)
      (hx : s.exited = false) (h : s.saver = .writing last ((n, d) :: todo) names) :
      SStep env base s (.write n f)
        { s with fs := (writeTo f s.fs base n (serBytes env d)).1,
                 saver := .writing last todo (if (writeTo f s.fs base n (serBytes env d)).2 then names ++ [n] else names) }
  /-- state.rs L347 -/
  | release {s : Sys} {last : Bool} {names : List (List Char)} (hx : s.exited = false)
      (h : s.saver = .writing last [] names) : SStep env base s .release { s with saver := .listing last names }
  /-- state.rs L349-354 -/
  | list {s : Sys} {last : Bool} {names : List (List Char)} (f : Fault) (hx : s.exited = false)
      (h : s.saver = .listing last names) :
      SStep env base s (.list f (saveMeta env base f names s.fs).2)
        { s with fs := (saveMeta env base f names s.fs).1, saver := if last then .finished else .idle }
  /-- main.rs L150 -/
  | exit {s : Sys} (hx : s.exited = false) (h : s.saver = .finished)
      (ht : ∀ t op pc, s.conf.tasks t = some (op, pc) → pc.ended) : SStep env base s .exit { s with exited := true }

/-- A run: the events with the states that they lead to. -/
abbrev STrace : Type := List (SEv × Sys)

/-- The state at the end of a trace that began in `s`. -/
def STrace.last (s : Sys) (tr : STrace) : Sys := (tr.getLast?.map Prod.snd).getD s

/-- The traces from `s`. -/
inductive SRun (env : Env) (base : Path) (s : Sys) : STrace → Prop
  | nil : SRun env base s []
  | snoc {tr : STrace} {e : SEv} {s' : Sys} (h : SRun env base s tr) (hs : SStep env base (STrace.last s tr) e s') :
      SRun env base s (tr ++ [(e, s')])

end Souris
