import Verif.Model.Store

/-!
# The daemon, one request at a time (crates/sourisd/src/v1_routes/state.rs, db.rs, value.rs, error.rs)

`HashMap`s are association lists in the order of iteration. Names, keys and flags arrive parsed (axum's
`Query` is not modelled); bodies are bytes. What an operation does while it holds the lock is a function on
the databases (`Dbs.*`), so that the model of concurrent requests can use it as well; the functions
`Daemon.*` are the whole methods, including the cache. Tracing is left out.
-/

namespace Souris

/-! ## Association lists -/

namespace AMap

variable {β : Type}

/-- `HashMap::get`. -/
def get (k : List Char) : List (List Char × β) → Option β
  | [] => none
  | (k', v) :: rest => if k' = k then some v else get k rest

/-- `HashMap::insert`: replaces in place, or adds. -/
def insert (k : List Char) (v : β) : List (List Char × β) → List (List Char × β)
  | [] => [(k, v)]
  | (k', v') :: rest => if k' = k then (k', v) :: rest else (k', v') :: insert k v rest

/-- `HashMap::remove`. -/
def erase (k : List Char) : List (List Char × β) → List (List Char × β)
  | [] => []
  | (k', v') :: rest => if k' = k then erase k rest else (k', v') :: erase k rest

end AMap

/-! ## Replies -/

/-- client.rs L31-38: `CreationResult`. -/
inductive CreationResult
  | insertedKeyIntoExistingDB
  | overwroteKeyInExistingDB
  | foundExistingKey
  | insertedKeyIntoNewDB
  | unableToFindDB
deriving DecidableEq, Repr

/-- error.rs L14-22: `SourisError`, without the contents of I/O errors. `ValueError` and `IntegerSerError`
are not constructed by the daemon. -/
inductive SourisError
  | io
  | databaseNotFound
  | keyNotFound
  | storeError (e : StoreSerError)
  | invalidDatabaseName
deriving DecidableEq, Repr

/-- What a handler answers: a bare status, bytes, a value (`IntoResponse for Value`, axum.rs L54-59), a
`CreationResult` or names as JSON, a `SourisError`, a rejected body (axum.rs L145-149), or nothing because
the handler panicked. -/
inductive Reply
  | status (code : Nat)
  | bytes (b : List UInt8)
  | value (v : Value)
  | creation (c : CreationResult)
  | names (ns : List (List Char))
  | error (e : SourisError)
  | rejected (e : ValueSerError)
  | aborted

/-- error.rs L78-88: the status of an error. -/
def SourisError.code : SourisError → Nat
  | .keyNotFound | .invalidDatabaseName | .storeError _ => 400
  | .databaseNotFound => 410
  | .io => 500

/-- The HTTP status of a reply: axum answers 200 for bytes and JSON; axum.rs L131-136 for rejections. -/
def Reply.code : Reply → Option Nat
  | .status c => some c
  | .bytes _ | .value _ | .creation _ | .names _ => some 200
  | .error e => some e.code
  | .rejected _ => some 400
  | .aborted => none

/-! ## Under the lock -/

/-- state.rs L41: the databases. -/
abbrev Dbs : Type := List (List Char × Store)

/-- `"meta"` -/
def kMeta : List Char := ['m', 'e', 't', 'a']

/-- `str::is_ascii`. -/
def isAscii (s : List Char) : Bool := s.all fun c => c.toNat < 128

namespace Dbs

/-- state.rs L64-75: `new_db`. -/
def newDb (name : List Char) (overwrite : Bool) (dbs : Dbs) : Reply × Dbs :=
  match AMap.get name dbs with
  | some _ => (.status 200, if overwrite then AMap.insert name [] dbs else dbs)
  | none => (.status 201, AMap.insert name [] dbs)

/-- `Store::insert`, a `HashMap` insertion through `Deref`. -/
def storeInsert (env : Env) (s : Store) (e : List Char × Value) : Store := env.mapOrd (AMap.insert e.1 e.2 s)

/-- state.rs L92-106: `new_db_with_contents`. -/
def newDbWith (env : Env) (name : List Char) (overwrite : Bool) (contents : Store) (dbs : Dbs) : Reply × Dbs :=
  let createdNew := (AMap.get name dbs).isSome
  let current := (AMap.get name dbs).getD []
  let current := if overwrite then contents else contents.foldl (storeInsert env) current
  (if createdNew then .status 201 else .status 200, AMap.insert name current dbs)

/-- state.rs L116-122: `clear_db`. -/
def clearDb (name : List Char) (dbs : Dbs) : Reply × Dbs :=
  match AMap.get name dbs with
  | some _ => (.status 200, AMap.insert name [] dbs)
  | none => (.error .databaseNotFound, dbs)

/-- state.rs L132-136: `remove_db`, up to the release of the lock. `none` when there was nothing to
remove. -/
def removeDb (name : List Char) (dbs : Dbs) : Option Dbs :=
  match AMap.get name dbs with
  | some _ => some (AMap.erase name dbs)
  | none => none

/-- state.rs L156-162: `get_db`. -/
def getDb (env : Env) (name : List Char) (dbs : Dbs) : Reply :=
  match AMap.get name dbs with
  | none => .error .databaseNotFound
  | some db =>
    match Store.ser env db with
    | .ok b => .bytes b
    | .err _ | .panic _ => .aborted

/-- state.rs L176-203: `add_key_value_pair`. -/
def addKv (env : Env) (name key : List Char) (create overwrite : Bool) (v : Value) (dbs : Dbs) :
    CreationResult × Dbs :=
  match AMap.get name dbs with
  | some db =>
    match AMap.get key db with
    | some _ =>
      if overwrite then
        (.overwroteKeyInExistingDB, AMap.insert name (AMap.insert key v db) dbs)
      else (.foundExistingKey, dbs)
    | none => (.insertedKeyIntoExistingDB, AMap.insert name (storeInsert env db (key, v)) dbs)
  | none =>
    if create then (.insertedKeyIntoNewDB, AMap.insert name (storeInsert env [] (key, v)) dbs)
    else (.unableToFindDB, dbs)

/-- state.rs L212-219: `get_value`. -/
def getValue (name key : List Char) (dbs : Dbs) : Reply :=
  match AMap.get name dbs with
  | none => .error .databaseNotFound
  | some db =>
    match AMap.get key db with
    | none => .error .keyNotFound
    | some v => .value v

/-- state.rs L226-233: `remove_key`. -/
def removeKey (name key : List Char) (dbs : Dbs) : Reply × Dbs :=
  match AMap.get name dbs with
  | none => (.error .databaseNotFound, dbs)
  | some db =>
    match AMap.get key db with
    | some _ => (.status 200, AMap.insert name (AMap.erase key db) dbs)
    | none => (.error .keyNotFound, dbs)

end Dbs

/-! ## Whole methods -/

/-- What `tokio::fs::remove_file` may answer: done, not found, another error. -/
inductive IoResult
  | done
  | notFound
  | failed
deriving DecidableEq, Repr

/-- state.rs L37-43: `SourisState`. The cache holds serialised databases; moka may drop entries at any
time (`Daemon.evict`). -/
structure Daemon where
  dbs : Dbs := []
  cache : List (List Char × List UInt8) := []

/-- A call of one of the methods. `removeDb` comes with the answer of the file system. -/
inductive Op
  | newDb (name : List Char) (overwrite : Bool)
  | newDbWith (name : List Char) (overwrite : Bool) (contents : Store)
  | clearDb (name : List Char)
  | removeDb (name : List Char) (io : IoResult)
  | getDb (name : List Char)
  | addKv (name key : List Char) (create overwrite : Bool) (v : Value)
  | getValue (name key : List Char)
  | removeKey (name key : List Char)
  | allNames

/-- state.rs L58-60: the name check of `new_db`. -/
def badName (name : List Char) : Bool := name == kMeta || !isAscii name

/-- state.rs L141-147: the reply of `remove_db` after the file system's. -/
def afterUnlink : IoResult → Reply
  | .done | .notFound => .status 200
  | .failed => .error .io

namespace Daemon

/-- `Cache::invalidate`. -/
def invalidate (name : List Char) (d : Daemon) : Daemon := { d with cache := AMap.erase name d.cache }

/-- Eviction by moka. -/
def evict (name : List Char) (d : Daemon) : Daemon := { d with cache := AMap.erase name d.cache }

/-- state.rs L53-80. -/
def newDb (name : List Char) (overwrite : Bool) (d : Daemon) : Reply × Daemon :=
  if badName name then (.error .invalidDatabaseName, d)
  else
    let (r, dbs) := Dbs.newDb name overwrite d.dbs
    (r, invalidate name { d with dbs })

/-- state.rs L83-107. -/
def newDbWith (env : Env) (name : List Char) (overwrite : Bool) (contents : Store) (d : Daemon) : Reply × Daemon :=
  let d := d.invalidate name
  let (r, dbs) := Dbs.newDbWith env name overwrite contents d.dbs
  (r, { d with dbs })

/-- state.rs L111-123 and db.rs L48-54. -/
def clearDb (name : List Char) (d : Daemon) : Reply × Daemon :=
  let d := d.invalidate name
  let (r, dbs) := Dbs.clearDb name d.dbs
  (r, { d with dbs })

/-- state.rs L127-148 and db.rs L56-62. -/
def removeDb (name : List Char) (io : IoResult) (d : Daemon) : Reply × Daemon :=
  let d := d.invalidate name
  match Dbs.removeDb name d.dbs with
  | none => (.error .databaseNotFound, d)
  | some dbs => (afterUnlink io, { d with dbs })

/-- state.rs L150-166. -/
def getDb (env : Env) (name : List Char) (d : Daemon) : Reply × Daemon :=
  match AMap.get name d.cache with
  | some b => (.bytes b, d)
  | none =>
    match Dbs.getDb env name d.dbs with
    | .bytes b => (.bytes b, { d with cache := AMap.insert name b d.cache })
    | r => (r, d)

/-- state.rs L168-204 and value.rs L23-31. -/
def addKv (env : Env) (name key : List Char) (create overwrite : Bool) (v : Value) (d : Daemon) : Reply × Daemon :=
  let d := d.invalidate name
  let (r, dbs) := Dbs.addKv env name key create overwrite v d.dbs
  (.creation r, { d with dbs })

/-- state.rs L222-234 and value.rs L42-49. -/
def removeKey (name key : List Char) (d : Daemon) : Reply × Daemon :=
  let d := d.invalidate name
  let (r, dbs) := Dbs.removeKey name key d.dbs
  (r, { d with dbs })

/-- A method call. `get_value` and `get_all_db_names` (state.rs L206-220, L236-238) only read. -/
def exec (env : Env) : Op → Daemon → Reply × Daemon
  | .newDb n o, d => newDb n o d
  | .newDbWith n o c, d => newDbWith env n o c d
  | .clearDb n, d => clearDb n d
  | .removeDb n io, d => removeDb n io d
  | .getDb n, d => getDb env n d
  | .addKv n k c o v, d => addKv env n k c o v d
  | .getValue n k, d => (Dbs.getValue n k d.dbs, d)
  | .removeKey n k, d => removeKey n k d
  | .allNames, d => (.names (d.dbs.map Prod.fst), d)

end Daemon

/-! ## HTTP requests -/

/-- The requests of main.rs L126-134 (and the healthcheck). -/
inductive Request
  | healthcheck
  | getDb (name : List Char)
  | allNames
  | addDb (name : List Char) (overwrite : Bool)
  | addDbWithContent (name : List Char) (overwrite : Bool) (body : List UInt8)
  | rmDb (name : List Char) (io : IoResult)
  | clearDb (name : List Char)
  | addKv (name key : List Char) (create overwrite : Bool) (body : List UInt8)
  | rmKv (name key : List Char)
  | getValue (name key : List Char)

/-- What the extractors and handlers make of a request before the state is touched: a reply, or a method
call. db.rs L24-74, value.rs L22-49, axum.rs L62-73, main.rs L88-90. -/
def Request.route (env : Env) : Request → Reply ⊕ Op
  | .healthcheck => .inl (.status 200)
  | .getDb n => .inr (.getDb n)
  | .allNames => .inr .allNames
  | .addDb n o => .inr (.newDb n o)
  | .addDbWithContent n o body =>
    match Store.deser env body with
    | .ok s => .inr (.newDbWith n o s)
    | .err e => .inl (.error (.storeError e))
    | .panic _ => .inl .aborted
  | .rmDb n io => .inr (.removeDb n io)
  | .clearDb n => .inr (.clearDb n)
  | .addKv n k c o body =>
    match Value.deser env none (Cursor.new body) with
    | .ok (v, _) => .inr (.addKv n k c o v)
    | .err e => .inl (.rejected e)
    | .panic _ => .inl .aborted
  | .rmKv n k => .inr (.removeKey n k)
  | .getValue n k => .inr (.getValue n k)

/-- A request, handled with no other request in progress. -/
def Daemon.handle (env : Env) (r : Request) (d : Daemon) : Reply × Daemon :=
  match r.route env with
  | .inl reply => (reply, d)
  | .inr op => d.exec env op

/-- Something that happens to the daemon: a request, or an eviction from the cache. -/
inductive Happening
  | request (r : Request)
  | evict (name : List Char)

namespace Daemon

/-- One after another. -/
def happen (env : Env) (d : Daemon) : Happening → Daemon
  | .request r => (d.handle env r).2
  | .evict n => d.evict n

def history (env : Env) (d : Daemon) (hs : List Happening) : Daemon := hs.foldl (happen env) d

end Daemon

end Souris
