import Verif.Model.Daemon

/-!
# Specification of the daemon: a map of maps

A state is a function from names to databases, and a database is a function from keys to values. Nothing
here knows about association lists, caches or locks.
-/

namespace Souris

/-- A database: what each key holds. -/
abbrev AbsDb : Type := List Char → Option Value

/-- All databases. -/
abbrev Abs : Type := List Char → Option AbsDb

/-- What can be read from a daemon, key by key. -/
def Daemon.view (d : Daemon) : Abs := fun n => (AMap.get n d.dbs).map fun s k => AMap.get k s

/-- The operation names the database `n`. -/
def Op.names : Op → List Char → Prop
  | .newDb n _, x | .newDbWith n _ _, x | .clearDb n, x | .removeDb n _, x | .getDb n, x
  | .addKv n _ _ _ _, x | .getValue n _, x | .removeKey n _, x => x = n
  | .allNames, _ => False

/-- The operation is about the key `k` only. -/
def Op.onKey : Op → List Char → Prop
  | .addKv _ k _ _ _, x | .getValue _ k, x | .removeKey _ k, x => x = k
  | _, _ => False

/-- The reply tells of a failure: an error status, no reply, or one of the two `CreationResult`s that
announce that nothing was written. -/
def Reply.Failed : Reply → Prop
  | .error _ | .rejected _ | .aborted => True
  | .creation c => c = .foundExistingKey ∨ c = .unableToFindDB
  | .status c => 400 ≤ c
  | _ => False

namespace Abs

/-- The function `f`, except that `a` is sent to `b`. -/
def put {β : Type} (f : List Char → β) (a : List Char) (b : β) : List Char → β := fun x => if x = a then b else f x

/-- A name that may be given to `add_db`: ASCII, and not `meta`. -/
def GoodName (n : List Char) : Prop := n ≠ "meta".toList ∧ ∀ c ∈ n, c.toNat < 128

instance (n : List Char) : Decidable (GoodName n) := by unfold GoodName; infer_instance

/-- The entries of a store, as a map. -/
def Lists (s : Store) (m : AbsDb) : Prop := (s.map Prod.fst).Nodup ∧ ∀ k v, (k, v) ∈ s ↔ m k = some v

/-- `m` extended, or overwritten, by the entries of `s`. -/
def extend (m : AbsDb) (s : Store) : AbsDb := fun k =>
  match s.find? fun e => decide (e.1 = k) with
  | some e => some e.2
  | none => m k

/-- The empty database. -/
def empty : AbsDb := fun _ => none

/-- The databases after an operation. -/
def after (a : Abs) : Op → Abs
  | .newDb n overwrite =>
    if GoodName n then put a n (some (if overwrite then empty else (a n).getD empty)) else a
  | .newDbWith n overwrite s => put a n (some (extend (if overwrite then empty else (a n).getD empty) s))
  | .clearDb n => match a n with
    | some _ => put a n (some empty)
    | none => a
  | .removeDb n _ => put a n none
  | .getDb _ => a
  | .addKv n k create overwrite v =>
    match a n with
    | some m => if (m k).isSome ∧ ¬ overwrite then a else put a n (some (put m k (some v)))
    | none => if create then put a n (some (put empty k (some v))) else a
  | .getValue _ _ => a
  | .removeKey n k =>
    match a n with
    | some m => put a n (some (put m k none))
    | none => a
  | .allNames => a

/-- The replies that fit the databases before the operation. The status of `newDbWith` is only required
to be a success here; see C42 about it. -/
def Answers (env : Env) (a : Abs) : Op → Reply → Prop
  | .newDb n _, r =>
    if GoodName n then r = .status (if (a n).isSome then 200 else 201) else r = .error .invalidDatabaseName
  | .newDbWith _ _ _, r => r = .status 200 ∨ r = .status 201
  | .clearDb n, r => if (a n).isSome then r = .status 200 else r = .error .databaseNotFound
  | .removeDb n io, r =>
    if (a n).isSome then (if io = .failed then r = .error .io else r = .status 200)
    else r = .error .databaseNotFound
  | .getDb n, r =>
    match a n with
    | none => r = .error .databaseNotFound
    | some m => ∃ s b, r = .bytes b ∧ Store.ser env s = .ok b ∧ Lists s m
  | .addKv n k create overwrite _, r =>
    match a n with
    | none => r = .creation (if create then .insertedKeyIntoNewDB else .unableToFindDB)
    | some m =>
      if (m k).isSome then r = .creation (if overwrite then .overwroteKeyInExistingDB else .foundExistingKey)
      else r = .creation .insertedKeyIntoExistingDB
  | .getValue n k, r =>
    match a n with
    | none => r = .error .databaseNotFound
    | some m => match m k with
      | none => r = .error .keyNotFound
      | some v => r = .value v
  | .removeKey n k, r =>
    match a n with
    | none => r = .error .databaseNotFound
    | some m => if (m k).isSome then r = .status 200 else r = .error .keyNotFound
  | .allNames, r => ∃ ns, r = .names ns ∧ ns.Nodup ∧ ∀ n, n ∈ ns ↔ (a n).isSome

/-- The databases after whatever happened: requests that do not get as far as an operation, and
evictions, change nothing. -/
def afterAll (env : Env) (a : Abs) : List Happening → Abs
  | [] => a
  | .request r :: hs =>
    match r.route env with
    | .inl _ => afterAll env a hs
    | .inr op => afterAll env (after a op) hs
  | .evict _ :: hs => afterAll env a hs

end Abs

end Souris
