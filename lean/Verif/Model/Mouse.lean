import Verif.Model.MouseEntry
import Verif.Model.StoreSerde

/-!
# The `mouse` program (crates/mouse/src/main.rs)

A run is a function of the command, the surroundings (`Term`), the user's script and the daemon. Other
clients may use the daemon between two requests of the run. The log lists what happened: the answers to
yes/no questions, the database that was chosen, what each request did to the daemon, what was printed and
which file was written. Prompts are left out; the command line is parsed in Model/MouseArgs.
-/

namespace Souris

/-- main.rs L33-53: `Commands`. -/
inductive Command
  | createNew (name : List Char)
  | addEntry
  | viewAll
  | debugViewAll
  | removeEntry
  | updateEntry
  | exportToJson (path : List Char) (types : Bool)
  | importFromJson (path : List Char)
  | removeDatabase

/-- The yes/no questions of main.rs. -/
inductive Question
  /-- L143 -/
  | clearExisting
  /-- L320 -/
  | newDatabase
  /-- L337 -/
  | overwriteExisting
  /-- L202 -/
  | confirmAddition
  /-- L231 -/
  | confirmRemoval
  /-- L263 -/
  | confirmUpdate
deriving DecidableEq, Repr

/-- What main.rs prints. -/
inductive Message
  | cancelledClearing | created | cleared
  | store (s : Store) | debugStore (s : Store)
  | importedNew | importedOver
  | receivedKey (k : List Char) | receivedValue (v : Value)
  | creation (c : CreationResult)
  | cancelledAddition | alreadyEmpty | removedKey | cancelledRemoval | isEmpty | cancelledUpdate
  | converting (name : List Char) | writing (path : List Char) | unableToConvert
  | removedDatabase | reserved

/-- An entry of the log. -/
inductive Event
  | asked (q : Question) (yes : Bool)
  | chose (name : List Char)
  /-- a request, with the daemon just before and just after it -/
  | talked (before after : Daemon)
  | said (m : Message)
  | wrote (path : List Char) (text : List Char)

/-- A running `mouse`. -/
structure Session where
  script : List Answer
  daemon : Daemon
  /-- what others do with the daemon before the next requests -/
  others : List (List Happening)
  log : List Event

/-- A piece of the program. -/
def Cli (α : Type) : Type := Session → Out Stop α × Session

namespace Cli

instance : Monad Cli where
  pure a := fun s => (.ok a, s)
  bind x f := fun s =>
    match x s with
    | (.ok a, s) => f a s
    | (.err e, s) => (.err e, s)
    | (.panic p, s) => (.panic p, s)

/-- Write to the log. -/
def tell (e : Event) : Cli Unit := fun s => (.ok (), { s with log := s.log ++ [e] })

/-- A dialog. -/
def dialog {α : Type} (d : Entry α) : Cli α := fun s =>
  match d s.script with
  | .ok (a, rest) => (.ok a, { s with script := rest })
  | .err e => (.err e, s)
  | .panic p => (.panic p, s)

/-- A yes/no question. -/
def ask (q : Question) : Cli Bool := do
  let b ← dialog Mouse.confirm
  tell (.asked q b)
  return b

/-- A method of the client; main.rs L112-116 converts its error. -/
def call {α : Type} (env : Env) (c : Client.Call α) : Cli α := fun s =>
  let before := s.daemon.history env (s.others.headD [])
  let (r, after) := c before
  (r.mapErr fun e => .error (.client e),
    { s with daemon := after, others := s.others.tail, log := s.log ++ [.talked before after] })

/-- An outcome that does not depend on the session. -/
def lift {α : Type} (o : Out Stop α) : Cli α := fun s => (o, s)

end Cli

namespace Mouse

open Cli Client

/-- main.rs L323-342: ask for the name of a new database. The number bounds the attempts; each takes an
answer. -/
def newName (names : List (List Char)) : Nat → Cli (List Char)
  | 0 => lift failed
  | n + 1 => do
    let trial ← dialog (input stringOf)
    if trial = kMeta then
      tell (.said .reserved)
      newName names n
    else if trial ∉ names then return trial
    else
      let over ← ask .overwriteExisting
      if over then return trial else newName names n

/-- main.rs L311-361: `pick_db_name`. -/
def pickDbName (env : Env) (canPickNew : Bool) : Cli (List Char) := do
  let names ← call env (Sync.getAllDbs env)
  let new ← (if canPickNew then ask .newDatabase else pure false : Cli Bool)
  if new then
    let n ← fun s => newName names (s.script.length + 1) s
    tell (.chose n)
    return n
  match names with
  | [] => lift (.err (.error .noDatabasesFound))
  | [first] =>
    tell (.chose first)
    return first
  | names =>
    let i ← dialog (select names.length)
    match names[i]? with
    | none => lift (.panic .index)
    | some n =>
      tell (.chose n)
      return n

/-- main.rs L304-308: `pick_db`. -/
def pickDb (env : Env) : Cli (List Char × Store) := do
  let name ← pickDbName env false
  let store ← call env (Sync.getStore env name)
  return (name, store)

/-- main.rs L221-225 and L251-255: choose one of the keys. -/
def pickKey (store : Store) : Cli (List Char) := do
  let i ← dialog (select store.length)
  match (store.map Prod.fst)[i]? with
  | none => lift (.panic .index)
  | some k => return k

/-- store.rs L142-145 on the bytes of a file. -/
def jsonStore (env : Env) (bytes : List UInt8) : Out Stop Store :=
  match utf8Decode bytes with
  | none => .err (.error .store)
  | some text => (Store.fromJsonBytes env text).mapErr fun _ => .error .store

/-- main.rs L214-239: `RemoveEntry`, once the database has been fetched. -/
def removeFrom (env : Env) (name : List Char) (store : Store) : Cli Unit :=
  if store = [] then tell (.said .alreadyEmpty)
  else do
    let key ← pickKey store
    let go ← ask .confirmRemoval
    if go then
      call env (Sync.removeEntryFromDb env name key)
      tell (.said .removedKey)
    else tell (.said .cancelledRemoval)

/-- main.rs L244-271: `UpdateEntry`, once the database has been fetched. -/
def updateIn (env : Env) (T : Term) (name : List Char) (store : Store) : Cli Unit :=
  if store = [] then tell (.said .isEmpty)
  else do
    let key ← pickKey store
    let v ← dialog (value env T)
    let go ← ask .confirmUpdate
    if go then
      let res ← call env (Sync.addEntryToDb env name true true key v)
      tell (.said (.creation res))
    else tell (.said .cancelledUpdate)

/-- main.rs L278-292: `ExportToJSON`, once the database has been fetched. `File::create` is taken to fail for directories and unreadable files only. -/
def exportTo (env : Env) (T : Term) (path : List Char) (types : Bool) (name : List Char) (store : Store) : Cli Unit := do
  tell (.said (.converting name))
  match Store.toJson env types store with
  | some json =>
    tell (.said (.writing path))
    match T.files path with
    | .directory | .unreadable => lift (.err (.error .io))
    | _ => tell (.wrote path (env.jsonPretty json))
  | none => tell (.said .unableToConvert)

/-- main.rs L132-302: the arms of `fun_main`. -/
def command (env : Env) (T : Term) : Command → Cli Unit
  | .createNew name => do
    let all ← call env (Sync.getAllDbs env)
    let go ← (if name ∈ all then ask .clearExisting else pure true : Cli Bool)
    if go then
      let new ← call env (Sync.createNewDb env true name)
      tell (.said (if new then .created else .cleared))
    else tell (.said .cancelledClearing)
  | .viewAll => do
    let (_, store) ← pickDb env
    tell (.said (.store store))
  | .debugViewAll => do
    let (_, store) ← pickDb env
    tell (.said (.debugStore store))
  | .importFromJson path => do
    let bytes ← lift (readFile T path)
    let store ← lift (jsonStore env bytes)
    let name ← pickDbName env true
    let new ← call env (Sync.addDbWithContents env true name store)
    tell (.said (if new then .importedNew else .importedOver))
  | .addEntry => do
    let name ← pickDbName env true
    let key ← dialog (input stringOf)
    let v ← dialog (value env T)
    tell (.said (.receivedKey key))
    tell (.said (.receivedValue v))
    let go ← ask .confirmAddition
    if go then
      let res ← call env (Sync.addEntryToDb env name true true key v)
      tell (.said (.creation res))
    else tell (.said .cancelledAddition)
  | .removeEntry => do
    let (name, store) ← pickDb env
    removeFrom env name store
  | .updateEntry => do
    let (name, store) ← pickDb env
    updateIn env T name store
  | .exportToJson path types => do
    let (name, store) ← pickDb env
    exportTo env T path types name store
  | .removeDatabase => do
    let name ← pickDbName env false
    call env (Sync.removeDb env name T.unlink)
    tell (.said .removedDatabase)

/-- main.rs L55-60 and L133-135: `main`. -/
def run (env : Env) (T : Term) (c : Command) : Cli Unit := do
  call env (Sync.new env)
  command env T c

end Mouse

end Souris
