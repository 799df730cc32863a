import Verif.Spec.Http

/-! # What a client may make of an answer

The server may be anything: the daemon, another program on its port, or something in between that answers for it. -/

namespace Souris.Http

/-- Statuses that say that a request was carried out. -/
def Success (code : Nat) : Prop := 200 ≤ code ∧ code ≤ 299

/-- `Read::read`: pieces of the body in order, none of them empty before the end. -/
def Line.Reads {σ : Type} (L : Line σ) : Prop := ∀ b, (L.pieces b).flatten = b ∧ ∀ p ∈ L.pieces b, p ≠ []

/-- Names and keys that leave a URI within the limit of reqwest. -/
def Line.Fits {σ : Type} (L : Line σ) (words : List (List Char)) : Prop :=
  L.origin + 100 + (words.map fun w => (encode w).length).sum ≤ 65534

/-- What is made of an answer: without one the connection is to blame, a status outside `okay` is reported as it is, and of
the others `told` tells what they say. -/
inductive Verdict {α : Type} (okay : Nat → Prop) (told : Rsp → Out ClientError α → Prop) :
    Option Rsp → Out ClientError α → Prop
  | lost : Verdict okay told none (.err .transport)
  | bad {r : Rsp} (h : ¬ okay r.code) : Verdict okay told (some r) (.err (.httpErrorCode r.code))
  | good {r : Rsp} {o : Out ClientError α} (h : okay r.code) (hs : told r o) : Verdict okay told (some r) o

/-- `Asks L call q V`: the call sends one request, which says `q` and does not depend on the server, and `V` holds for the
answer and what is made of it. -/
def Asks {σ α : Type} (L : Line σ) (call : Client.CallOn σ α) (q : Request) (V : Option Rsp → Out ClientError α → Prop) : Prop :=
  ∃ (r : Req) (ps : List Pair) (io : IoResult), Says ps r.query ∧ Means io r.method r.path ps r.body q ∧
    ∀ s, (call s).2 = (L.answer r s).2 ∧ V (L.answer r s).1 (call s).1

/-- An answer to the creation of a database: there was one, there was none, and any other status is a panic. -/
inductive SaysCreated : Rsp → Out ClientError Bool → Prop
  | found {r : Rsp} (h : r.code = 200) : SaysCreated r (.ok false)
  | created {r : Rsp} (h : r.code = 201) : SaysCreated r (.ok true)
  | other {r : Rsp} (h : r.code ≠ 200) (h' : r.code ≠ 201) : SaysCreated r (.panic .unreachable)

/-- An answer whose body is the text of JSON that stands for something. -/
inductive SaysJson (env : Env) {α : Type} (stands : SJValue → α → Prop) : Rsp → Out ClientError α → Prop
  | text {r : Rsp} {t : List Char} {j : SJValue} {a : α} (hu : r.body = utf8 t) (hj : env.jsonParse t = some j)
      (ha : stands j a) : SaysJson env stands r (.ok a)
  | junk {r : Rsp} (h : ∀ t j a, r.body = utf8 t → env.jsonParse t = some j → ¬ stands j a) :
      SaysJson env stands r (.err .json)

/-- A list of names is an array of strings. -/
def StandsNames (j : SJValue) (ns : List (List Char)) : Prop := j = .array (ns.map .string)

/-- The words for what became of an entry. -/
def word : CreationResult → List Char
  | .insertedKeyIntoExistingDB => "InsertedKeyIntoExistingDB".toList
  | .overwroteKeyInExistingDB => "OverwroteKeyInExistingDB".toList
  | .foundExistingKey => "FoundExistingKey".toList
  | .insertedKeyIntoNewDB => "InsertedKeyIntoNewDB".toList
  | .unableToFindDB => "UnableToFindDB".toList

/-- What became of an entry is a word, or an object with nothing behind that word. -/
def StandsCreation (j : SJValue) (c : CreationResult) : Prop := j = .string (word c) ∨ j = .object [(word c, .null)]

/-- An answer whose body is a database. -/
inductive SaysStore (env : Env) : Rsp → Out ClientError Store → Prop
  | store {r : Rsp} {s : Store} (h : Store.deser env r.body = .ok s) : SaysStore env r (.ok s)
  | junk {r : Rsp} {e : StoreSerError} (h : Store.deser env r.body = .err e) : SaysStore env r (.err (.store e))
  | panic {r : Rsp} {p : Panic} (h : Store.deser env r.body = .panic p) : SaysStore env r (.panic p)

/-- An answer that says nothing more. -/
inductive SaysDone : Rsp → Out ClientError Unit → Prop
  | done {r : Rsp} : SaysDone r (.ok ())

/-- An answer to the removal of a database: 410 says that there was none. -/
inductive SaysRemoved : Rsp → Out ClientError Bool → Prop
  | none {r : Rsp} (h : r.code = 410) : SaysRemoved r (.ok false)
  | removed {r : Rsp} (h : Success r.code) : SaysRemoved r (.ok true)

/-- An answer to whether the server is healthy: only 200 says yes. -/
inductive SaysHealthy : Rsp → Out ClientError Unit → Prop
  | yes {r : Rsp} (h : r.code = 200) : SaysHealthy r (.ok ())
  | no {r : Rsp} (h : r.code ≠ 200) : SaysHealthy r (.err (.serverNotHealthy r.code))

end Souris.Http
