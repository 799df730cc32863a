import Verif.Model.Client

/-!
# Requests and replies as HTTP messages

The router and the extractors of the daemon (crates/sourisd/src/main.rs L126-141, v1_routes/db.rs,
v1_routes/value.rs) and the messages that the clients send (crates/sourisdb/src/client/*.rs). External code
is modelled by its documentation: form_urlencoded 1.2.1 (used by ureq through url, and by reqwest and axum
through serde_urlencoded), `Query` and routing of axum 0.7.7, and the limit of http 1.1.0 on the length of
a URI. A message is taken to arrive as it was sent; headers, redirections and chunking are left out.
-/

namespace Souris

namespace Http

inductive Method
  | get
  | head
  | post
  | put
  | other
deriving DecidableEq, Repr

/-- A request: `path` and `query` are what stands in the request line before and after `?`. -/
structure Req where
  method : Method
  path : List Char
  query : List UInt8
  body : List UInt8
deriving DecidableEq, Repr

/-- A response. -/
structure Rsp where
  code : Nat
  body : List UInt8
deriving DecidableEq, Repr

/-- Name and value of a parameter. -/
abbrev Pair : Type := List Char × List Char

/-! ## Query strings -/

/-- form_urlencoded: `byte_serialized_unchanged`. -/
def unchanged (b : UInt8) : Bool :=
  b == 42 || b == 45 || b == 46 || (48 ≤ b && b ≤ 57) || (65 ≤ b && b ≤ 90) || b == 95 || (97 ≤ b && b ≤ 122)

/-- A digit of percent_encoding's `percent_encode_byte`. -/
def hexDigit (n : Nat) : UInt8 := UInt8.ofNat (if n < 10 then 48 + n else 55 + n)

/-- form_urlencoded: one byte of `byte_serialize`. -/
def encodeByte (b : UInt8) : List UInt8 :=
  if unchanged b then [b] else if b = 32 then [43] else [37, hexDigit (b.toNat / 16), hexDigit (b.toNat % 16)]

/-- form_urlencoded: `byte_serialize` of a string. -/
def encode (s : List Char) : List UInt8 := (utf8 s).flatMap encodeByte

/-- form_urlencoded: `append_pair`, one after the other. -/
def encodePairs : List Pair → List UInt8
  | [] => []
  | [(k, v)] => encode k ++ 61 :: encode v
  | (k, v) :: ps => encode k ++ 61 :: encode v ++ 38 :: encodePairs ps

/-- `char::to_digit(16)`. -/
def hexVal (b : UInt8) : Option Nat :=
  if 48 ≤ b ∧ b ≤ 57 then some (b.toNat - 48)
  else if 65 ≤ b ∧ b ≤ 70 then some (b.toNat - 55)
  else if 97 ≤ b ∧ b ≤ 102 then some (b.toNat - 87)
  else none

/-- percent_encoding: `percent_decode`. A `%` without two digits stays. -/
def percentDecode : List UInt8 → List UInt8
  | [] => []
  | [a] => [a]
  | [a, b] => [a, b]
  | a :: b :: c :: rest =>
    if a = 37 then
      match hexVal b, hexVal c with
      | some x, some y => UInt8.ofNat (16 * x + y) :: percentDecode rest
      | _, _ => a :: percentDecode (b :: c :: rest)
    else a :: percentDecode (b :: c :: rest)

/-- `split(|b| b == c)`. -/
def splitAll (c : UInt8) : List UInt8 → List (List UInt8)
  | [] => [[]]
  | b :: bs =>
    if b = c then [] :: splitAll c bs
    else match splitAll c bs with
      | [] => [[b]]
      | x :: xs => (b :: x) :: xs

/-- `splitn(2, |b| b == c)`, with an empty second part if there is none. -/
def splitFirst (c : UInt8) : List UInt8 → List UInt8 × List UInt8
  | [] => ([], [])
  | b :: bs => if b = c then ([], bs) else (b :: (splitFirst c bs).1, (splitFirst c bs).2)

/-- The rest of the world that answers depend on: what `String::from_utf8_lossy` makes of bytes that are not
UTF-8, and the texts of error bodies. -/
structure Texts where
  lossy : List UInt8 → List Char
  errorBody : Reply → List UInt8
  refusal : Nat → List UInt8

/-- form_urlencoded: `decode`. -/
def decode (X : Texts) (bs : List UInt8) : List Char :=
  let raw := percentDecode (bs.map fun b => if b = 43 then 32 else b)
  (utf8Decode raw).getD (X.lossy raw)

/-- form_urlencoded: `parse`. -/
def parsePairs (X : Texts) (q : List UInt8) : List Pair :=
  ((splitAll 38 q).filter (· ≠ [])).map fun p => (decode X (splitFirst 61 p).1, decode X (splitFirst 61 p).2)

/-! ## The daemon -/

/-- A field of a struct with a derived `Deserialize`: missing and repeated ones are errors, unknown ones are
ignored. -/
def field (k : List Char) (ps : List Pair) : Option (List Char) :=
  match ps.filter (·.1 = k) with
  | [p] => some p.2
  | _ => none

/-- `bool::from_str`. -/
def parseBool (s : List Char) : Option Bool :=
  if s = "true".toList then some true else if s = "false".toList then some false else none

/-- A field of type `bool`. -/
def flag (k : List Char) (ps : List Pair) : Option Bool := (field k ps).bind parseBool

/-- A route: path, method, and what the extractors make of parameters and body. -/
structure Route where
  path : List Char
  method : Method
  extract : List Pair → List UInt8 → Option Request

/-- main.rs L126-141, with the parameters of db.rs L13-22 (`NewDB`, `DbByName`) and value.rs L8-20
(`KeyAndDb`, `NewKeyArgs`). `io` is the file system's answer, should a file be deleted. -/
def routes (io : IoResult) : List Route :=
  [⟨"/v1/get_db".toList, .get, fun q _ => do return .getDb (← field "db_name".toList q)⟩,
   ⟨"/v1/get_all_db_names".toList, .get, fun _ _ => some .allNames⟩,
   ⟨"/v1/add_db".toList, .post, fun q _ => do
      return .addDb (← field "db_name".toList q) (← flag "overwrite_existing".toList q)⟩,
   ⟨"/v1/add_db_with_content".toList, .put, fun q b => do
      return .addDbWithContent (← field "db_name".toList q) (← flag "overwrite_existing".toList q) b⟩,
   ⟨"/v1/rm_db".toList, .post, fun q _ => do return .rmDb (← field "db_name".toList q) io⟩,
   ⟨"/v1/clear_db".toList, .post, fun q _ => do return .clearDb (← field "db_name".toList q)⟩,
   ⟨"/v1/add_kv".toList, .put, fun q b => do
      return .addKv (← field "db_name".toList q) (← field "key".toList q) (← flag "create_new_database".toList q)
        (← flag "overwrite_key".toList q) b⟩,
   ⟨"/v1/rm_kv".toList, .post, fun q _ => do return .rmKv (← field "db_name".toList q) (← field "key".toList q)⟩,
   ⟨"/v1/get_value".toList, .get, fun q _ => do
      return .getValue (← field "db_name".toList q) (← field "key".toList q)⟩,
   ⟨"/healthcheck".toList, .get, fun _ _ => some .healthcheck⟩]

/-- axum: `get(handler)` answers `HEAD` as well. -/
def Method.accepts (route asked : Method) : Bool := asked = route || (route = .get && asked = .head)

/-- http: the longest URI. -/
def maxUri : Nat := 65534

/-- The length of the request's URI: path, `?` and query. -/
def Req.uriLength (r : Req) : Nat := (utf8 r.path).length + 1 + r.query.length

/-- What becomes of a request: a status from hyper, the router or an extractor, or a call of a handler. -/
def dispatch (X : Texts) (io : IoResult) (r : Req) : Nat ⊕ Request :=
  if maxUri < r.uriLength then .inl 414
  else match (routes io).find? (·.path = r.path) with
    | none => .inl 404
    | some route =>
      if route.method.accepts r.method then
        match route.extract (parsePairs X r.query) r.body with
        | some q => .inr q
        | none => .inl 400
      else .inl 405

/-- client.rs L31-38: the derived `Serialize`. -/
def creationName : CreationResult → List Char
  | .insertedKeyIntoExistingDB => "InsertedKeyIntoExistingDB".toList
  | .overwroteKeyInExistingDB => "OverwroteKeyInExistingDB".toList
  | .foundExistingKey => "FoundExistingKey".toList
  | .insertedKeyIntoNewDB => "InsertedKeyIntoNewDB".toList
  | .unableToFindDB => "UnableToFindDB".toList

/-- axum's `IntoResponse` for what the handlers return; nothing if a handler panicked. -/
def respond (env : Env) (X : Texts) (r : Reply) : Option Rsp :=
  match r with
  | .status c => some ⟨c, []⟩
  | .bytes b => some ⟨200, b⟩
  | .value v =>
    match Value.ser env none v with
    | .ok b => some ⟨200, b⟩
    | .panic _ => none
  | .creation c => some ⟨200, utf8 (env.jsonPrint (.string (creationName c)))⟩
  | .names ns => some ⟨200, utf8 (env.jsonPrint (.array (ns.map .string)))⟩
  | .error e => some ⟨e.code, X.errorBody r⟩
  | .rejected _ => some ⟨400, X.errorBody r⟩
  | .aborted => none

/-- The daemon answers a request. Bodies of answers to `HEAD` are dropped. -/
def serve (env : Env) (X : Texts) (io : IoResult) (r : Req) (d : Daemon) : Option Rsp × Daemon :=
  match dispatch X io r with
  | .inl c => (some ⟨c, if r.method = .head then [] else X.refusal c⟩, d)
  | .inr q =>
    let (reply, d) := d.handle env q
    ((respond env X reply).map fun p => if r.method = .head then { p with body := [] } else p, d)

/-! ## The clients -/

/-- client.rs L23-29: `bool_to_string`. -/
def boolToString (b : Bool) : List Char := if b then "true".toList else "false".toList

/-- The derived `Deserialize` of `CreationResult`: a string, or an object with one entry that is null. -/
def creationOfJson (j : SJValue) : Option CreationResult :=
  let byName (s : List Char) := [.insertedKeyIntoExistingDB, .overwroteKeyInExistingDB, .foundExistingKey,
    .insertedKeyIntoNewDB, .unableToFindDB].find? fun c => creationName c = s
  match j with
  | .string s => byName s
  | .object [(s, .null)] => byName s
  | _ => none

/-- `Vec<String>` from JSON. -/
def namesOfJson : SJValue → Option (List (List Char))
  | .array a => a.mapM fun
    | .string s => some s
    | _ => none
  | _ => none

/-- `serde_json::from_slice`. -/
def fromSlice (env : Env) {α : Type} (f : SJValue → Option α) (b : List UInt8) : Out ClientError α :=
  match utf8Decode b with
  | none => .err .json
  | some t =>
    match env.jsonParse t with
    | none => .err .json
    | some j => Out.ofOption .json (f j)

/-- reqwest's `send().await?`, ureq's reading of a reply. -/
def arrived : Option Rsp → Out ClientError Rsp
  | some r => .ok r
  | none => .err .transport

/-- async_client.rs L405-413: `error_for_status_to_client_error`. -/
def checked (r : Option Rsp) : Out ClientError Rsp := do
  let r ← arrived r
  if Client.isSuccess r.code then .ok r else .err (.httpErrorCode r.code)

/-- ureq's `call()?`: statuses from 400 on are errors. -/
def called (r : Option Rsp) : Out ClientError Rsp := do
  let r ← arrived r
  if 400 ≤ r.code then .err (.httpErrorCode r.code) else .ok r

/-- sync_client.rs L157-170: `body`, of a reader that hands out these pieces. -/
def readAll : List (List UInt8) → List UInt8
  | [] => []
  | [] :: _ => []
  | piece :: rest => piece ++ readAll rest

/-- An element of what is passed to reqwest's `query`. -/
inductive QueryItem
  | pair (k v : List Char)
  | str (s : List Char)

/-- serde_urlencoded: only pairs can be serialised. -/
def serialise : List QueryItem → Option (List Pair)
  | [] => some []
  | .pair k v :: rest => (serialise rest).map ((k, v) :: ·)
  | .str _ :: _ => none

/-- A connection to a server, whatever it is: the length of `http://host:port`, the pieces in which a reader hands out
a body, and what the server answers. Nothing is a connection that breaks before there is an answer. Statuses are taken to
be within 100 to 999, as the protocol demands (others are `InvalidStatusCode` in client.rs L118-121 or errors of hyper),
and bodies to arrive whole. -/
structure Line (σ : Type) where
  origin : Nat
  pieces : List UInt8 → List (List UInt8)
  answer : Req → σ → Option Rsp × σ

/-- Send a request through ureq. -/
def Line.call {σ : Type} (L : Line σ) {α : Type} (r : Req) (read : Option Rsp → Out ClientError α) : Client.CallOn σ α :=
  fun d =>
    let (rsp, d) := L.answer r d
    (read rsp, d)

/-- Send a request through reqwest: the query has to be serialised, and the URI must not be too long. -/
def Line.send {σ : Type} (L : Line σ) {α : Type} (method : Method) (path : List Char) (query : List QueryItem)
    (body : List UInt8) (read : Option Rsp → Out ClientError α) : Client.CallOn σ α := fun d =>
  match serialise query with
  | none => (.err .builder, d)
  | some ps =>
    let r : Req := ⟨method, path, encodePairs ps, body⟩
    if maxUri < L.origin + r.uriLength then (.err .builder, d) else L.call r read d

/-- A connection to a daemon: the daemon's texts and what the file system answers it. -/
structure Link where
  origin : Nat
  texts : Texts
  io : IoResult
  pieces : List UInt8 → List (List UInt8)

/-- The connection with the daemon at its end. -/
def Link.line (L : Link) (env : Env) : Line Daemon := ⟨L.origin, L.pieces, serve env L.texts L.io⟩

namespace Async

/-- async_client.rs L43-70. -/
def new {σ : Type} (L : Line σ) (env : Env) : Client.CallOn σ Unit :=
  L.send .get "/healthcheck".toList [] [] fun r => do
    let r ← arrived r
    if r.code ≠ 200 then .err (.serverNotHealthy r.code) else .ok ()

/-- async_client.rs L94-105. -/
def getAllDbs {σ : Type} (L : Line σ) (env : Env) : Client.CallOn σ (List (List Char)) :=
  L.send .get "/v1/get_all_db_names".toList [] [] fun r => do
    let r ← arrived r
    fromSlice env namesOfJson r.body

/-- async_client.rs L131-153. -/
def createNewDb {σ : Type} (L : Line σ) (env : Env) (overwrite : Bool) (name : List Char) : Client.CallOn σ Bool :=
  L.send .post "/v1/add_db".toList
    [.pair "overwrite_existing".toList (boolToString overwrite), .pair "db_name".toList name] [] fun r => do
    let r ← checked r
    Client.created r.code

/-- async_client.rs L183-203. -/
def getStore {σ : Type} (L : Line σ) (env : Env) (name : List Char) : Client.CallOn σ (Option Store) :=
  L.send .get "/v1/get_db".toList [.str "db_name".toList, .str name] [] fun r => do
    let r ← arrived r
    if r.code = 410 then .ok none
    else if !Client.isSuccess r.code then .err (.httpErrorCode r.code)
    else ((Store.deser env r.body).mapErr .store).bind fun s => .ok (some s)

/-- async_client.rs L234-264. -/
def addDbWithContents {σ : Type} (L : Line σ) (env : Env) (overwrite : Bool) (name : List Char) (store : Store) : Client.CallOn σ Bool :=
  Client.withBody (Store.ser env store) fun b =>
    L.send .put "/v1/add_db_with_content".toList
      [.pair "overwrite_existing".toList (boolToString overwrite), .pair "db_name".toList name] b fun r => do
      let r ← checked r
      Client.created r.code

/-- async_client.rs L303-325. -/
def addEntryToDb {σ : Type} (L : Line σ) (env : Env) (name : List Char) (create overwrite : Bool) (key : List Char) (v : Value) :
    Client.CallOn σ CreationResult :=
  Client.withBody (Value.ser env none v) fun b =>
    L.send .put "/v1/add_kv".toList
      [.pair "db_name".toList name, .pair "key".toList key, .pair "create_new_database".toList (boolToString create),
        .pair "overwrite_key".toList (boolToString overwrite)] b fun r => do
      let r ← checked r
      fromSlice env creationOfJson r.body

/-- async_client.rs L347-359. -/
def removeEntryFromDb {σ : Type} (L : Line σ) (env : Env) (name key : List Char) : Client.CallOn σ Unit :=
  L.send .post "/v1/rm_kv".toList [.pair "db_name".toList name, .pair "key".toList key] [] fun r => do
    let _ ← checked r
    .ok ()

/-- async_client.rs L380-398. -/
def removeDb {σ : Type} (L : Line σ) (env : Env) (name : List Char) : Client.CallOn σ Bool :=
  L.send .post "/v1/rm_db".toList [.pair "db_name".toList name] [] fun r => do
    let r ← arrived r
    if r.code = 410 then .ok false else if Client.isSuccess r.code then .ok true else .err (.httpErrorCode r.code)

end Async

namespace Sync

/-- sync_client.rs L17-30. -/
def new {σ : Type} (L : Line σ) (env : Env) : Client.CallOn σ Unit :=
  L.call ⟨.get, "/healthcheck".toList, [], []⟩ fun r => do
    let r ← called r
    if r.code ≠ 200 then .err (.serverNotHealthy r.code) else .ok ()

/-- sync_client.rs L33-44. -/
def getAllDbs {σ : Type} (L : Line σ) (env : Env) : Client.CallOn σ (List (List Char)) :=
  L.call ⟨.get, "/v1/get_all_db_names".toList, [], []⟩ fun r => do
    let r ← called r
    fromSlice env namesOfJson (readAll (L.pieces r.body))

/-- sync_client.rs L47-63. -/
def createNewDb {σ : Type} (L : Line σ) (env : Env) (overwrite : Bool) (name : List Char) : Client.CallOn σ Bool :=
  L.call ⟨.post, "/v1/add_db".toList,
      encodePairs [("overwrite_existing".toList, boolToString overwrite), ("db_name".toList, name)], []⟩ fun r => do
    let r ← called r
    Client.created r.code

/-- sync_client.rs L66-75. -/
def getStore {σ : Type} (L : Line σ) (env : Env) (name : List Char) : Client.CallOn σ Store :=
  L.call ⟨.get, "/v1/get_db".toList, encodePairs [("db_name".toList, name)], []⟩ fun r => do
    let r ← called r
    (Store.deser env (readAll (L.pieces r.body))).mapErr .store

/-- sync_client.rs L78-103. -/
def addDbWithContents {σ : Type} (L : Line σ) (env : Env) (overwrite : Bool) (name : List Char) (store : Store) : Client.CallOn σ Bool :=
  Client.withBody (Store.ser env store) fun b =>
    L.call ⟨.put, "/v1/add_db_with_content".toList,
        encodePairs [("overwrite_existing".toList, boolToString overwrite), ("db_name".toList, name)], b⟩ fun r => do
      let r ← called r
      Client.created r.code

/-- sync_client.rs L106-127. -/
def addEntryToDb {σ : Type} (L : Line σ) (env : Env) (name : List Char) (create overwrite : Bool) (key : List Char) (v : Value) :
    Client.CallOn σ CreationResult :=
  Client.withBody (Value.ser env none v) fun b =>
    L.call ⟨.put, "/v1/add_kv".toList,
        encodePairs [("db_name".toList, name), ("key".toList, key), ("create_new_database".toList, boolToString create),
          ("overwrite_key".toList, boolToString overwrite)], b⟩ fun r => do
      let r ← called r
      fromSlice env creationOfJson r.body

/-- sync_client.rs L130-137. -/
def removeEntryFromDb {σ : Type} (L : Line σ) (env : Env) (name key : List Char) : Client.CallOn σ Unit :=
  L.call ⟨.post, "/v1/rm_kv".toList, encodePairs [("db_name".toList, name), ("key".toList, key)], []⟩ fun r => do
    let _ ← called r
    .ok ()

/-- sync_client.rs L140-146. -/
def removeDb {σ : Type} (L : Line σ) (env : Env) (name : List Char) : Client.CallOn σ Unit :=
  L.call ⟨.post, "/v1/rm_db".toList, encodePairs [("db_name".toList, name)], []⟩ fun r => do
    let _ ← called r
    .ok ()

end Sync

end Http

end Souris
