import Verif.Model.Daemon

/-!
# The clients (crates/sourisdb/src/client.rs, client/async_client.rs, client/sync_client.rs)

Each method sends at most one request to a daemon and reads its reply. Names, keys and flags arrive in the
query string and are percent-encoded by reqwest and ureq; here this and the JSON form of `CreationResult` and
of a list of names are left out, `Model/Http.lean` adds them. The transport is taken to be faithful. A handler that panicked closes the connection,
which is a transport error for the client.
-/

namespace Souris

/-- client.rs L58-81: `ClientError`. `transport` stands for `Reqwest`/`Ureq` when there is no reply,
`builder` for `Reqwest` when no request could be built, `json` for a body that is not the JSON expected. -/
inductive ClientError
  | transport
  | builder
  | json
  | store (e : StoreSerError)
  | httpErrorCode (code : Nat)
  | serverNotHealthy (code : Nat)
deriving DecidableEq, Repr

namespace Client

/-- `StatusCode::is_success`. -/
def isSuccess (c : Nat) : Bool := 200 ≤ c && c < 300

/-- reqwest's `send().await?`: the status. -/
def sent (r : Reply) : Out ClientError Nat :=
  match r.code with
  | some c => .ok c
  | none => .err .transport

/-- async_client.rs L405-413: `error_for_status_to_client_error`. -/
def checked (r : Reply) : Out ClientError Nat := do
  let c ← sent r
  if isSuccess c then .ok c else .err (.httpErrorCode c)

/-- ureq's `call()?` and `send_bytes()?`: statuses from 400 on are errors (client.rs L112-123). -/
def called (r : Reply) : Out ClientError Nat := do
  let c ← sent r
  if 400 ≤ c then .err (.httpErrorCode c) else .ok c

/-- async_client.rs L148-152 and L259-263, sync_client.rs L58-62 and L98-102. -/
def created (c : Nat) : Out ClientError Bool :=
  if c = 200 then .ok false else if c = 201 then .ok true else .panic .unreachable

/-- `rsp.json()` for a `CreationResult`. -/
def creationOf : Reply → Out ClientError CreationResult
  | .creation c => .ok c
  | _ => .err .json

/-- `rsp.json()` for a list of names. -/
def namesOf : Reply → Out ClientError (List (List Char))
  | .names ns => .ok ns
  | _ => .err .json

/-- `Store::deser` of the body. -/
def storeOf (env : Env) : Reply → Out ClientError Store
  | .bytes b => (Store.deser env b).mapErr .store
  | _ => .err .json

/-- What a method returns, and the server afterwards. -/
abbrev CallOn (σ α : Type) : Type := σ → Out ClientError α × σ

/-- The same for the daemon. -/
abbrev Call (α : Type) : Type := CallOn Daemon α

/-- Send a request and look at the reply. -/
def request (env : Env) {α : Type} (r : Request) (read : Reply → Out ClientError α) : Call α := fun d =>
  let (reply, d) := d.handle env r
  (read reply, d)

/-- Build the body first; a panic in it ends the call before anything is sent. -/
def withBody {σ α : Type} (body : Out Empty (List UInt8)) (f : List UInt8 → CallOn σ α) : CallOn σ α := fun d =>
  match body with
  | .ok b => f b d
  | .panic p => (.panic p, d)

namespace Async

/-- async_client.rs L43-70: `new`, as far as the healthcheck. -/
def new (env : Env) : Call Unit :=
  request env .healthcheck fun r => do
    let c ← sent r
    if c ≠ 200 then .err (.serverNotHealthy c) else .ok ()

/-- async_client.rs L94-105. The status is not looked at. -/
def getAllDbs (env : Env) : Call (List (List Char)) :=
  request env .allNames fun r => do
    let _ ← sent r
    namesOf r

/-- async_client.rs L131-153. -/
def createNewDb (env : Env) (overwrite : Bool) (name : List Char) : Call Bool :=
  request env (.addDb name overwrite) fun r => do
    let c ← checked r
    created c

/-- async_client.rs L183-203. `.query(&["db_name", db_name])` is an array of strings where
serde_urlencoded wants pairs; it refuses, and `send` returns the builder's error. -/
def getStore (_env : Env) (_name : List Char) : Call (Option Store) := fun d => (.err .builder, d)

/-- async_client.rs L234-264. -/
def addDbWithContents (env : Env) (overwrite : Bool) (name : List Char) (store : Store) : Call Bool :=
  withBody (Store.ser env store) fun b =>
    request env (.addDbWithContent name overwrite b) fun r => do
      let c ← checked r
      created c

/-- async_client.rs L303-325. -/
def addEntryToDb (env : Env) (name : List Char) (create overwrite : Bool) (key : List Char) (v : Value) :
    Call CreationResult :=
  withBody (Value.ser env none v) fun b =>
    request env (.addKv name key create overwrite b) fun r => do
      let _ ← checked r
      creationOf r

/-- async_client.rs L347-359. -/
def removeEntryFromDb (env : Env) (name key : List Char) : Call Unit :=
  request env (.rmKv name key) fun r => do
    let _ ← checked r
    .ok ()

/-- async_client.rs L380-398. `io` is the file system's answer to the daemon. -/
def removeDb (env : Env) (name : List Char) (io : IoResult) : Call Bool :=
  request env (.rmDb name io) fun r => do
    let c ← sent r
    if c = 410 then .ok false else if isSuccess c then .ok true else .err (.httpErrorCode c)

end Async

namespace Sync

/-- sync_client.rs L17-30: `new`, as far as the healthcheck. -/
def new (env : Env) : Call Unit :=
  request env .healthcheck fun r => do
    let c ← called r
    if c ≠ 200 then .err (.serverNotHealthy c) else .ok ()

/-- sync_client.rs L33-44. -/
def getAllDbs (env : Env) : Call (List (List Char)) :=
  request env .allNames fun r => do
    let _ ← called r
    namesOf r

/-- sync_client.rs L47-63. -/
def createNewDb (env : Env) (overwrite : Bool) (name : List Char) : Call Bool :=
  request env (.addDb name overwrite) fun r => do
    let c ← called r
    created c

/-- sync_client.rs L66-75. -/
def getStore (env : Env) (name : List Char) : Call Store :=
  request env (.getDb name) fun r => do
    let _ ← called r
    storeOf env r

/-- sync_client.rs L78-103. -/
def addDbWithContents (env : Env) (overwrite : Bool) (name : List Char) (store : Store) : Call Bool :=
  withBody (Store.ser env store) fun b =>
    request env (.addDbWithContent name overwrite b) fun r => do
      let c ← called r
      created c

/-- sync_client.rs L106-127. -/
def addEntryToDb (env : Env) (name : List Char) (create overwrite : Bool) (key : List Char) (v : Value) :
    Call CreationResult :=
  withBody (Value.ser env none v) fun b =>
    request env (.addKv name key create overwrite b) fun r => do
      let _ ← called r
      creationOf r

/-- sync_client.rs L130-137. -/
def removeEntryFromDb (env : Env) (name key : List Char) : Call Unit :=
  request env (.rmKv name key) fun r => do
    let _ ← called r
    .ok ()

/-- sync_client.rs L140-146. -/
def removeDb (env : Env) (name : List Char) (io : IoResult) : Call Unit :=
  request env (.rmDb name io) fun r => do
    let _ ← called r
    .ok ()

end Sync

end Client

end Souris
