import Verif.Model.Daemon

/-!
# The daemon under concurrent requests (crates/sourisd/src/v1_routes/state.rs)

Every method call is a task that moves through the points where it may be interrupted: before and after
each operation on the cache, before it gets the lock, and while it holds it. The steps of different tasks
interleave in any order. What the cache and the lock do in a single step is taken to be atomic: moka's
`get`, `insert` and `invalidate`, and tokio's `Mutex`. A step on the databases (`act`) is the code between
`lock().await` and the next `await` or the end of the method.

The lock guard `dbs` of `new_db`, `get_db` and the others lives until the method returns, except in
`remove_db` (L137). A request whose client went away is cancelled: its task is dropped at the `await` where
it is, which frees the lock. The saver, which only reads the databases, is
added in `Model/Saver.lean`.
-/

namespace Souris

/-- Where a method call is. -/
inductive Pc
  /-- nothing done yet -/
  | start
  /-- `get_db` after a miss in the cache (L155) -/
  | missed
  /-- after the invalidation at the beginning of the mutating methods except `new_db` -/
  | invalidated
  /-- the lock was obtained -/
  | locked
  /-- the databases were read or changed; the lock is held -/
  | acted (r : Reply)
  /-- the cache operation of `new_db` (L77) or `get_db` (L164) is done; the lock is held -/
  | cached (r : Reply)
  /-- `remove_db` after `drop(dbs)` (L137), before the file is deleted -/
  | unlinking
  /-- the method returned -/
  | done (r : Reply)
  /-- the client went away and the task was dropped -/
  | cancelled

/-- What can be seen of a step. -/
inductive Ev
  | call (t : Nat) (op : Op)
  | invalidate (t : Nat)
  | miss (t : Nat)
  | acquire (t : Nat)
  | act (t : Nat)
  | fill (t : Nat) (n : List Char)
  | drop (t : Nat)
  | ret (t : Nat) (r : Reply)
  | cancel (t : Nat)
  | evict (n : List Char)

/-- The task of an event. -/
def Ev.task : Ev → Option Nat
  | .call t _ | .invalidate t | .miss t | .acquire t | .act t | .fill t _ | .drop t | .ret t _ | .cancel t => some t
  | .evict _ => none

/-- The daemon with its running tasks. -/
structure Conf where
  dbs : Dbs
  cache : List (List Char × List UInt8)
  lock : Option Nat
  tasks : Nat → Option (Op × Pc)

namespace Conf

/-- Task `t` is now `op` at `pc`. -/
def set (c : Conf) (t : Nat) (op : Op) (pc : Pc) : Conf :=
  { c with tasks := fun i => if i = t then some (op, pc) else c.tasks i }

/-- No task, nothing cached. -/
def init (dbs : Dbs) : Conf := ⟨dbs, [], none, fun _ => none⟩

end Conf

namespace Op

/-- What the method does to the databases, and what it then knows of its reply. For `remove_db` the reply
is that of the rest of the method. -/
def act (env : Env) : Op → Dbs → Reply × Dbs
  | .newDb n o, dbs => Dbs.newDb n o dbs
  | .newDbWith n o c, dbs => Dbs.newDbWith env n o c dbs
  | .clearDb n, dbs => Dbs.clearDb n dbs
  | .removeDb n _, dbs =>
    match Dbs.removeDb n dbs with
    | none => (.error .databaseNotFound, dbs)
    | some dbs' => (.status 200, dbs')
  | .getDb n, dbs => (Dbs.getDb env n dbs, dbs)
  | .addKv n k c o v, dbs =>
    let (r, dbs') := Dbs.addKv env n k c o v dbs
    (.creation r, dbs')
  | .getValue n k, dbs => (Dbs.getValue n k dbs, dbs)
  | .removeKey n k, dbs => Dbs.removeKey n k dbs
  | .allNames, dbs => (.names (dbs.map Prod.fst), dbs)

/-- The methods that begin by invalidating the cached copy of a database. -/
def invalidates : Op → Option (List Char)
  | .newDbWith n _ _ | .clearDb n | .removeDb n _ | .addKv n _ _ _ _ | .removeKey n _ => some n
  | _ => none

/-- The point at which a method asks for the lock. -/
def asks : Op → Pc → Prop
  | .newDb n _, pc => pc = .start ∧ badName n = false
  | .getDb _, pc => pc = .missed
  | .getValue _ _, pc | .allNames, pc => pc = .start
  | .newDbWith _ _ _, pc | .clearDb _, pc | .removeDb _ _, pc | .addKv _ _ _ _ _, pc | .removeKey _ _, pc =>
    pc = .invalidated

/-- The point at which a method returns with the lock still held, and its reply. -/
def returns : Op → Pc → Reply → Prop
  | .newDb _ _, pc, r => pc = .cached r
  | .getDb _, pc, r => pc = .cached r ∨ (pc = .acted r ∧ ∀ b, r ≠ .bytes b)
  | .removeDb _ _, pc, r => pc = .acted r ∧ r = .error .databaseNotFound
  | .newDbWith _ _ _, pc, r | .clearDb _, pc, r | .addKv _ _ _ _ _, pc, r | .getValue _ _, pc, r
  | .removeKey _ _, pc, r | .allNames, pc, r => pc = .acted r

/-- The points at an `await` without the lock: the cache operations and `lock()` at L62, L89-90, L112-114,
L128-130, L151-155, L173-175, L213, L223-224, L239, and the deletion of the file at L141. -/
def awaits : Pc → Prop
  | .start | .missed | .invalidated | .unlinking => True
  | _ => False

/-- The methods with an `await` while they hold the lock, after their step on the databases: L77 and L164. -/
def awaitsLocked : Op → Prop
  | .newDb _ _ | .getDb _ => True
  | _ => False

end Op

/-- One step of one task (or an eviction). -/
inductive Step (env : Env) : Conf → Ev → Conf → Prop
  /-- a request arrives -/
  | call {c : Conf} {t : Nat} (op : Op) (h : c.tasks t = none) : Step env c (.call t op) (c.set t op .start)
  /-- L58-60 -/
  | refuse {c : Conf} {t : Nat} {n : List Char} {o : Bool} (h : c.tasks t = some (.newDb n o, .start))
      (hb : badName n = true) :
      Step env c (.ret t (.error .invalidDatabaseName)) (c.set t (.newDb n o) (.done (.error .invalidDatabaseName)))
  /-- L89, L112, L128, L173, L223 -/
  | invalidate {c : Conf} {t : Nat} {op : Op} {n : List Char} (h : c.tasks t = some (op, .start))
      (hi : op.invalidates = some n) :
      Step env c (.invalidate t) ({ c with cache := AMap.erase n c.cache }.set t op .invalidated)
  /-- L151-153: found in the cache -/
  | hit {c : Conf} {t : Nat} {n : List Char} {b : List UInt8} (h : c.tasks t = some (.getDb n, .start))
      (hc : AMap.get n c.cache = some b) : Step env c (.ret t (.bytes b)) (c.set t (.getDb n) (.done (.bytes b)))
  /-- L151: not in the cache -/
  | miss {c : Conf} {t : Nat} {n : List Char} (h : c.tasks t = some (.getDb n, .start))
      (hc : AMap.get n c.cache = none) : Step env c (.miss t) (c.set t (.getDb n) .missed)
  /-- `lock().await` -/
  | acquire {c : Conf} {t : Nat} {op : Op} {pc : Pc} (h : c.tasks t = some (op, pc)) (ha : op.asks pc)
      (hl : c.lock = none) : Step env c (.acquire t) ({ c with lock := some t }.set t op .locked)
  /-- the code under the lock -/
  | act {c : Conf} {t : Nat} {op : Op} (h : c.tasks t = some (op, .locked)) :
      Step env c (.act t) ({ c with dbs := (op.act env c.dbs).2 }.set t op (.acted (op.act env c.dbs).1))
  /-- L77: `new_db` invalidates with the lock held -/
  | uncache {c : Conf} {t : Nat} {n : List Char} {o : Bool} {r : Reply}
      (h : c.tasks t = some (.newDb n o, .acted r)) :
      Step env c (.invalidate t) ({ c with cache := AMap.erase n c.cache }.set t (.newDb n o) (.cached r))
  /-- L164: `get_db` caches with the lock held -/
  | fill {c : Conf} {t : Nat} {n : List Char} {b : List UInt8} (h : c.tasks t = some (.getDb n, .acted (.bytes b))) :
      Step env c (.fill t n) ({ c with cache := AMap.insert n b c.cache }.set t (.getDb n) (.cached (.bytes b)))
  /-- the method returns and the guard is dropped -/
  | ret {c : Conf} {t : Nat} {op : Op} {pc : Pc} {r : Reply} (h : c.tasks t = some (op, pc)) (hr : op.returns pc r) :
      Step env c (.ret t r) ({ c with lock := none }.set t op (.done r))
  /-- L137 -/
  | drop {c : Conf} {t : Nat} {n : List Char} {io : IoResult}
      (h : c.tasks t = some (.removeDb n io, .acted (.status 200))) :
      Step env c (.drop t) ({ c with lock := none }.set t (.removeDb n io) .unlinking)
  /-- L139-147 -/
  | unlink {c : Conf} {t : Nat} {n : List Char} {io : IoResult} (h : c.tasks t = some (.removeDb n io, .unlinking)) :
      Step env c (.ret t (afterUnlink io)) (c.set t (.removeDb n io) (.done (afterUnlink io)))
  /-- a task that does not hold the lock is dropped -/
  | cancel {c : Conf} {t : Nat} {op : Op} {pc : Pc} (h : c.tasks t = some (op, pc)) (ha : Op.awaits pc) :
      Step env c (.cancel t) (c.set t op .cancelled)
  /-- a task that holds the lock is dropped, and with it the guard -/
  | cancelLocked {c : Conf} {t : Nat} {op : Op} {r : Reply} (h : c.tasks t = some (op, .acted r))
      (ha : op.awaitsLocked) : Step env c (.cancel t) ({ c with lock := none }.set t op .cancelled)
  /-- moka drops an entry -/
  | evict {c : Conf} (n : List Char) : Step env c (.evict n) { c with cache := AMap.erase n c.cache }

/-- A run: the events with the configurations that they lead to. -/
abbrev Trace : Type := List (Ev × Conf)

/-- The configuration at the end of a trace that began in `c`. -/
def Trace.last (c : Conf) (tr : Trace) : Conf := (tr.getLast?.map Prod.snd).getD c

/-- The traces from `c`. -/
inductive Run (env : Env) (c : Conf) : Trace → Prop
  | nil : Run env c []
  | snoc {tr : Trace} {e : Ev} {c' : Conf} (h : Run env c tr) (hs : Step env (Trace.last c tr) e c') :
      Run env c (tr ++ [(e, c')])

end Souris
