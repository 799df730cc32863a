import Verif.Spec.Http
import Verif.Props.Client

/-! # Requests and replies as HTTP messages: C72 (they arrive as sent), C73 (what the daemon understands) -/

namespace Souris

open Value Http

/-! ## C72 -/

theorem hexVal_of {x : UInt8} {n : Nat} (h : Hex x n) : hexVal x = some n := by
  cases h with
  | @digit n h => interval_cases n <;> rfl
  | @upper n h => interval_cases n <;> rfl
  | @lower n h => interval_cases n <;> rfl

theorem hex_plain {x : UInt8} {n : Nat} (h : Hex x n) : x ≠ 43 ∧ x ≠ 38 ∧ x ≠ 61 := by
  cases h with
  | @digit n h => interval_cases n <;> decide
  | @upper n h => interval_cases n <;> decide
  | @lower n h => interval_cases n <;> decide

theorem percentDecode_cons {a : UInt8} (h : a ≠ 37) (l : List UInt8) : percentDecode (a :: l) = a :: percentDecode l := by
  match l with
  | [] => rfl
  | [b] => rfl
  | b :: c :: rest => simp [percentDecode, h]

theorem percentDecode_hex {x y : UInt8} {m n : Nat} (hx : Hex x m) (hy : Hex y n) (l : List UInt8) :
    percentDecode (37 :: x :: y :: l) = UInt8.ofNat (16 * m + n) :: percentDecode l := by
  simp [percentDecode, hexVal_of hx, hexVal_of hy]

theorem percentDecode_writes {bs t : List UInt8} (h : Writes bs t) :
    percentDecode (t.map fun b => if b = 43 then 32 else b) = bs := by
  induction h with
  | nil => rfl
  | @plain b bs t h _ ih =>
    obtain ⟨_, _, h1, h2⟩ := h
    rw [List.map_cons, if_neg h1, percentDecode_cons h2, ih]
  | plus _ ih =>
    rw [List.map_cons, if_pos rfl, percentDecode_cons (by decide), ih]
  | @hex x y m n bs t hx hy _ ih =>
    rw [List.map_cons, List.map_cons, List.map_cons, if_neg (by decide), if_neg (hex_plain hx).1, if_neg (hex_plain hy).1,
      percentDecode_hex hx hy, ih]

theorem decode_writes (X : Texts) {s : List Char} {t : List UInt8} (h : Writes (utf8 s) t) : decode X t = s := by
  unfold decode
  rw [percentDecode_writes h]
  simp only [utf8Decode_utf8, Option.getD_some]

theorem writes_clean {bs t : List UInt8} (h : Writes bs t) : 38 ∉ t ∧ 61 ∉ t := by
  induction h with
  | nil => simp
  | @plain b bs t h _ ih =>
    simp only [List.mem_cons, not_or]
    exact ⟨⟨fun e => h.1 e.symm, ih.1⟩, fun e => h.2.1 e.symm, ih.2⟩
  | plus _ ih =>
    simp only [List.mem_cons, not_or]
    exact ⟨⟨by decide, ih.1⟩, by decide, ih.2⟩
  | @hex x y m n bs t hx hy _ ih =>
    simp only [List.mem_cons, not_or]
    have h1 := hex_plain hx
    have h2 := hex_plain hy
    exact ⟨⟨by decide, fun e => h1.2.1 e.symm, fun e => h2.2.1 e.symm, ih.1⟩, by decide, fun e => h1.2.2 e.symm,
      fun e => h2.2.2 e.symm, ih.2⟩

theorem splitFirst_of {c : UInt8} {t u : List UInt8} (h : c ∉ t) : splitFirst c (t ++ c :: u) = (t, u) := by
  induction t with
  | nil => simp [splitFirst]
  | cons b t ih =>
    simp only [List.mem_cons, not_or] at h
    simp [splitFirst, ih h.2, Ne.symm h.1]

theorem splitAll_clean {c : UInt8} {t : List UInt8} (h : c ∉ t) : splitAll c t = [t] := by
  induction t with
  | nil => rfl
  | cons b t ih =>
    simp only [List.mem_cons, not_or] at h
    simp [splitAll, ih h.2, Ne.symm h.1]

theorem splitAll_of {c : UInt8} {t u : List UInt8} (h : c ∉ t) : splitAll c (t ++ c :: u) = t :: splitAll c u := by
  induction t with
  | nil => simp [splitAll]
  | cons b t ih =>
    simp only [List.mem_cons, not_or] at h
    simp [splitAll, ih h.2, Ne.symm h.1]

theorem pair_clean {bs t bs' u : List UInt8} (h : Writes bs t) (h' : Writes bs' u) : 38 ∉ t ++ 61 :: u := by
  simp only [List.mem_append, List.mem_cons, not_or]
  exact ⟨(writes_clean h).1, by decide, (writes_clean h').1⟩

/-- C72: any query string that says something is understood as that. -/
theorem C72_query (X : Texts) {ps : List Pair} {q : List UInt8} (h : Says ps q) : parsePairs X q = ps := by
  induction h with
  | nil => rfl
  | one ht hu =>
    unfold parsePairs
    rw [splitAll_clean (pair_clean ht hu), List.filter_cons_of_pos (by simp), List.filter_nil, List.map_cons, List.map_nil,
      splitFirst_of (writes_clean ht).2, decode_writes X ht, decode_writes X hu]
  | cons ht hu _ _ ih =>
    unfold parsePairs at ih ⊢
    rw [splitAll_of (pair_clean ht hu), List.filter_cons_of_pos (by simp), List.map_cons, ih,
      splitFirst_of (writes_clean ht).2, decode_writes X ht, decode_writes X hu]

theorem hexDigit_hex {n : Nat} (h : n < 16) : Hex (hexDigit n) n := by
  by_cases h1 : n < 10
  · rw [hexDigit, if_pos h1]
    exact .digit h1
  · obtain ⟨m, rfl⟩ := Nat.exists_eq_add_of_le (Nat.le_of_not_lt h1)
    rw [hexDigit, if_neg h1, ← Nat.add_assoc]
    exact .upper (by omega)

theorem unchanged_plain : ∀ b : UInt8, unchanged b = true → b ≠ 38 ∧ b ≠ 61 ∧ b ≠ 43 ∧ b ≠ 37 := by
  rintro b h
  refine ⟨?_, ?_, ?_, ?_⟩ <;> rintro rfl <;> exact absurd h (by decide)

theorem writes_encode (bs : List UInt8) : Writes bs (bs.flatMap encodeByte) := by
  induction bs with
  | nil => exact .nil
  | cons b bs ih =>
    rw [List.flatMap_cons, encodeByte]
    by_cases h1 : unchanged b = true
    · rw [if_pos h1]
      exact .plain (unchanged_plain b h1) ih
    · rw [if_neg h1]
      by_cases h2 : b = 32
      · rw [if_pos h2, h2]
        exact .plus ih
      · rw [if_neg h2]
        have := Writes.hex (hexDigit_hex (n := b.toNat / 16) (by have := b.toNat_lt; omega))
          (hexDigit_hex (n := b.toNat % 16) (by omega)) ih
        rwa [show 16 * (b.toNat / 16) + b.toNat % 16 = b.toNat by omega, UInt8.ofNat_toNat] at this

/-- C72: what the clients write says what they mean. -/
theorem C72_encode (ps : List Pair) : Says ps (encodePairs ps) := by
  induction ps with
  | nil => exact .nil
  | cons p ps ih =>
    obtain ⟨k, v⟩ := p
    cases ps with
    | nil => exact .one (writes_encode _) (writes_encode _)
    | cons q ps => exact .cons (writes_encode _) (writes_encode _) ih (by simp)

theorem parse_encode (X : Texts) (ps : List Pair) : parsePairs X (encodePairs ps) = ps := C72_query X (C72_encode ps)

/-! ### Methods over HTTP -/

theorem parseBool_boolToString (b : Bool) : parseBool (boolToString b) = some b := by cases b <;> rfl

theorem creation_json (c : CreationResult) : creationOfJson (.string (creationName c)) = some c := by cases c <;> rfl

theorem names_json (ns : List (List Char)) : namesOfJson (.array (ns.map .string)) = some ns := by
  unfold namesOfJson
  simp only
  induction ns with
  | nil => rfl
  | cons n ns ih => rw [List.map_cons, List.mapM_cons, ih]; rfl

theorem fromSlice_of {env : Env} {α : Type} {f : SJValue → Option α} {j : SJValue} {a : α}
    (hj : env.jsonParse (env.jsonPrint j) = some j) (hf : f j = some a) :
    fromSlice env f (utf8 (env.jsonPrint j)) = .ok a := by
  unfold fromSlice
  rw [utf8Decode_utf8]
  simp only [hj, hf]
  rfl

/-- A reply whose status on the wire is the one the model of the clients looks at. -/
def Sendable : Reply → Prop
  | .value _ => False
  | _ => True

theorem respond_code (env : Env) (X : Texts) {r : Reply} (h : Sendable r) :
    arrived (respond env X r) = match r.code with
      | some c => .ok ⟨c, ((respond env X r).map Rsp.body).getD []⟩
      | none => .err .transport := by
  cases r <;> first | rfl | exact h.elim

theorem respond_checked (env : Env) (X : Texts) {r : Reply} (h : Sendable r) {α : Type} (f : Nat → Out ClientError α) :
    (checked (respond env X r)).bind (fun p => f p.code) = (Client.checked r).bind f := by
  unfold checked Client.checked Client.sent
  rw [respond_code env X h]
  cases r.code with
  | none => rfl
  | some c =>
    simp only [bind, Out.bind]
    by_cases h : Client.isSuccess c = true
    · simp only [if_pos h]
    · simp only [if_neg h]

theorem respond_called (env : Env) (X : Texts) {r : Reply} (h : Sendable r) {α : Type} (f : Nat → Out ClientError α) :
    (called (respond env X r)).bind (fun p => f p.code) = (Client.called r).bind f := by
  unfold called Client.called Client.sent
  rw [respond_code env X h]
  cases r.code with
  | none => rfl
  | some c =>
    simp only [bind, Out.bind]
    by_cases h : 400 ≤ c
    · simp only [if_pos h]
    · simp only [if_neg h]

/-- What the daemon may answer to a request. -/
def Answers : Request → Reply → Prop
  | .allNames, r => ∃ ns, r = .names ns
  | .addKv .., r => (∃ c, r = .creation c) ∨ (∃ e, r = .rejected e) ∨ r = .aborted
  | .getDb _, r => (∃ b, r = .bytes b) ∨ (∃ e, r = .error e) ∨ r = .aborted
  | .getValue .., _ => True
  | _, r => Sendable r

theorem answers (env : Env) (q : Request) (d : Daemon) : Answers q (d.handle env q).1 := by
  cases q with
  | healthcheck => exact trivial
  | allNames => exact ⟨_, rfl⟩
  | getValue n k => exact trivial
  | getDb n =>
    show Answers (.getDb n) (d.getDb env n).1
    unfold Daemon.getDb
    cases AMap.get n d.cache with
    | some b => exact .inl ⟨b, rfl⟩
    | none =>
      simp only
      unfold Dbs.getDb
      cases AMap.get n d.dbs with
      | none => exact .inr (.inl ⟨_, rfl⟩)
      | some db =>
        simp only
        cases Store.ser env db with
        | ok b => exact .inl ⟨b, rfl⟩
        | err e => exact .inr (.inr rfl)
        | panic p => exact .inr (.inr rfl)
  | addDb n o =>
    show Sendable (d.newDb n o).1
    unfold Daemon.newDb
    split
    · exact trivial
    · unfold Dbs.newDb
      cases AMap.get n d.dbs <;> exact trivial
  | addDbWithContent n o b =>
    show Sendable _
    unfold Daemon.handle Request.route
    simp only
    cases Store.deser env b with
    | ok s =>
      simp only [Daemon.exec, Daemon.newDbWith, Dbs.newDbWith]
      split <;> exact trivial
    | err e => exact trivial
    | panic p => exact trivial
  | rmDb n io =>
    show Sendable (d.removeDb n io).1
    unfold Daemon.removeDb
    dsimp only
    cases Dbs.removeDb n (d.invalidate n).dbs with
    | none => exact trivial
    | some x => cases io <;> exact trivial
  | clearDb n =>
    show Sendable (d.clearDb n).1
    unfold Daemon.clearDb Dbs.clearDb
    dsimp only
    cases AMap.get n (d.invalidate n).dbs <;> exact trivial
  | addKv n k c o b =>
    show Answers (.addKv n k c o b) _
    unfold Daemon.handle Request.route
    simp only
    cases Value.deser env none (Cursor.new b) with
    | ok s => exact .inl ⟨_, rfl⟩
    | err e => exact .inr (.inl ⟨_, rfl⟩)
    | panic p => exact .inr (.inr rfl)
  | rmKv n k =>
    show Sendable (d.removeKey n k).1
    unfold Daemon.removeKey Dbs.removeKey
    dsimp only
    cases AMap.get n (d.invalidate n).dbs with
    | none => exact trivial
    | some db =>
      simp only
      cases AMap.get k db <;> exact trivial

theorem call_eq {env : Env} {L : Link} {r : Req} {q : Request} {α : Type} {read : Option Rsp → Out ClientError α}
    {read' : Reply → Out ClientError α} (h : dispatch L.texts L.io r = .inr q) (hm : r.method ≠ .head)
    (hr : ∀ reply, Answers q reply → read (respond env L.texts reply) = read' reply) :
    (L.line env).call r read = Client.request env q read' := by
  funext d
  unfold Line.call Link.line serve Client.request
  dsimp only
  rw [h]
  simp only [if_neg hm, Option.map_id']
  rw [hr _ (answers env q d)]

theorem send_eq {env : Env} {L : Link} {method : Method} {path : List Char} {query : List QueryItem} {ps : List Pair}
    {body : List UInt8} {q : Request} {α : Type} {read : Option Rsp → Out ClientError α} {read' : Reply → Out ClientError α}
    (hq : serialise query = some ps)
    (hl : ¬ maxUri < L.origin + (⟨method, path, encodePairs ps, body⟩ : Req).uriLength)
    (h : dispatch L.texts L.io ⟨method, path, encodePairs ps, body⟩ = .inr q) (hm : method ≠ .head)
    (hr : ∀ reply, Answers q reply → read (respond env L.texts reply) = read' reply) :
    (L.line env).send method path query body read = Client.request env q read' := by
  rw [← call_eq (L := L) (r := ⟨method, path, encodePairs ps, body⟩) h hm hr]
  funext d
  unfold Line.send
  rw [hq]
  exact if_neg hl

theorem dispatch_of {X : Texts} {io : IoResult} {r : Req} {route : Route} {q : Request} (hl : ¬ maxUri < r.uriLength)
    (hf : (routes io).find? (·.path = r.path) = some route) (hm : route.method.accepts r.method = true)
    (hx : route.extract (parsePairs X r.query) r.body = some q) : dispatch X io r = .inr q := by
  unfold dispatch
  rw [if_neg hl, hf]
  simp only [hm, if_true, hx]

theorem encodeByte_length (b : UInt8) : 1 ≤ (encodeByte b).length ∧ (encodeByte b).length ≤ 3 := by
  unfold encodeByte
  split
  · simp
  · split <;> simp

theorem encode_length (s : List Char) : (utf8 s).length ≤ (encode s).length ∧ (encode s).length ≤ 3 * (utf8 s).length := by
  unfold encode
  induction utf8 s with
  | nil => simp
  | cons b bs ih =>
    rw [List.flatMap_cons, List.length_append, List.length_cons]
    have := encodeByte_length b
    omega

theorem field_single (k v : List Char) : field k [(k, v)] = some v := by simp [field]

section
variable {env : Env} {L : Link}

theorem lengths : (utf8 "/v1/add_db".toList).length = 10 ∧ (utf8 "/v1/get_db".toList).length = 10 ∧
    (utf8 "/v1/add_db_with_content".toList).length = 23 ∧ (utf8 "/v1/add_kv".toList).length = 10 ∧
    (utf8 "/v1/rm_kv".toList).length = 9 ∧ (utf8 "/v1/rm_db".toList).length = 9 ∧
    (utf8 "/healthcheck".toList).length = 12 ∧ (utf8 "/v1/get_all_db_names".toList).length = 20 ∧
    (encode "db_name".toList).length = 7 ∧ (encode "key".toList).length = 3 ∧
    (encode "overwrite_existing".toList).length = 18 ∧ (encode "create_new_database".toList).length = 19 ∧
    (encode "overwrite_key".toList).length = 13 := by decide

theorem boolToString_length (b : Bool) : (encode (boolToString b)).length ≤ 5 := by cases b <;> decide

/-- The URI of a request with these parameters is within the limit. -/
theorem fits_of {words : List (List Char)} {m : Method} {path : List Char} {ps : List Pair} {b : List UInt8}
    (h : Fits L words) (hu : (utf8 path).length + 1 + (encodePairs ps).length ≤
      100 + (words.map fun w => (encode w).length).sum) :
    ¬ maxUri < L.origin + (⟨m, path, encodePairs ps, b⟩ : Req).uriLength := by
  unfold Fits at h
  unfold maxUri Req.uriLength
  simp only
  omega

theorem fits_sync {r : Req} (h : ¬ maxUri < L.origin + r.uriLength) : ¬ maxUri < r.uriLength := by omega

/-- Close a goal about the length of a URI. -/
local macro "uri_length" : tactic => `(tactic| (
  obtain ⟨h1, h2, h3, h4, h5, h6, h7, h8, h9, h10, h11, h12, h13⟩ := lengths
  simp only [encodePairs, List.length_append, List.length_cons, List.map_cons, List.map_nil, List.sum_cons, List.sum_nil,
    h1, h2, h3, h4, h5, h6, h7, h8, h9, h10, h11, h12, h13, List.length_nil]))

theorem uri_new : ¬ maxUri < (⟨.get, "/healthcheck".toList, [], []⟩ : Req).uriLength := by decide

theorem uri_names : ¬ maxUri < (⟨.get, "/v1/get_all_db_names".toList, [], []⟩ : Req).uriLength := by decide

theorem uri_add {name : List Char} (h : Fits L [name]) (o : Bool) : ¬ maxUri < L.origin + (⟨.post, "/v1/add_db".toList,
    encodePairs [("overwrite_existing".toList, boolToString o), ("db_name".toList, name)], []⟩ : Req).uriLength := by
  refine fits_of h ?_
  have := boolToString_length o
  uri_length
  omega

theorem uri_content {name : List Char} (h : Fits L [name]) (o : Bool) (b : List UInt8) :
    ¬ maxUri < L.origin + (⟨.put, "/v1/add_db_with_content".toList,
      encodePairs [("overwrite_existing".toList, boolToString o), ("db_name".toList, name)], b⟩ : Req).uriLength := by
  refine fits_of h ?_
  have := boolToString_length o
  uri_length
  omega

theorem uri_kv {name key : List Char} (h : Fits L [name, key]) (c o : Bool) (b : List UInt8) :
    ¬ maxUri < L.origin + (⟨.put, "/v1/add_kv".toList, encodePairs [("db_name".toList, name), ("key".toList, key),
      ("create_new_database".toList, boolToString c), ("overwrite_key".toList, boolToString o)], b⟩ : Req).uriLength := by
  refine fits_of h ?_
  have := boolToString_length o
  have := boolToString_length c
  uri_length
  omega

theorem uri_rmkv {name key : List Char} (h : Fits L [name, key]) :
    ¬ maxUri < L.origin + (⟨.post, "/v1/rm_kv".toList, encodePairs [("db_name".toList, name), ("key".toList, key)], []⟩ :
      Req).uriLength := by
  refine fits_of h ?_
  uri_length
  omega

theorem uri_rmdb {name : List Char} (h : Fits L [name]) :
    ¬ maxUri < L.origin + (⟨.post, "/v1/rm_db".toList, encodePairs [("db_name".toList, name)], []⟩ : Req).uriLength := by
  refine fits_of h ?_
  uri_length
  omega

theorem uri_get {name : List Char} (h : Fits L [name]) :
    ¬ maxUri < L.origin + (⟨.get, "/v1/get_db".toList, encodePairs [("db_name".toList, name)], []⟩ : Req).uriLength := by
  refine fits_of h ?_
  uri_length
  omega

/-! What the daemon makes of the clients' requests. -/

theorem at_new (X : Texts) (io : IoResult) : dispatch X io ⟨.get, "/healthcheck".toList, [], []⟩ = .inr .healthcheck := rfl

theorem at_names (X : Texts) (io : IoResult) :
    dispatch X io ⟨.get, "/v1/get_all_db_names".toList, [], []⟩ = .inr .allNames := rfl

theorem at_add (X : Texts) (io : IoResult) (name : List Char) (o : Bool) (hl : ¬ maxUri < (⟨.post, "/v1/add_db".toList,
    encodePairs [("overwrite_existing".toList, boolToString o), ("db_name".toList, name)], []⟩ : Req).uriLength) :
    dispatch X io ⟨.post, "/v1/add_db".toList,
      encodePairs [("overwrite_existing".toList, boolToString o), ("db_name".toList, name)], []⟩ = .inr (.addDb name o) := by
  refine dispatch_of hl (route := _) rfl rfl ?_
  simp only [parse_encode]
  cases o <;> rfl

theorem at_content (X : Texts) (io : IoResult) (name : List Char) (o : Bool) (b : List UInt8)
    (hl : ¬ maxUri < (⟨.put, "/v1/add_db_with_content".toList,
      encodePairs [("overwrite_existing".toList, boolToString o), ("db_name".toList, name)], b⟩ : Req).uriLength) :
    dispatch X io ⟨.put, "/v1/add_db_with_content".toList,
      encodePairs [("overwrite_existing".toList, boolToString o), ("db_name".toList, name)], b⟩ =
      .inr (.addDbWithContent name o b) := by
  refine dispatch_of hl (route := _) rfl rfl ?_
  simp only [parse_encode]
  cases o <;> rfl

theorem at_kv (X : Texts) (io : IoResult) (name key : List Char) (c o : Bool) (b : List UInt8)
    (hl : ¬ maxUri < (⟨.put, "/v1/add_kv".toList, encodePairs [("db_name".toList, name), ("key".toList, key),
      ("create_new_database".toList, boolToString c), ("overwrite_key".toList, boolToString o)], b⟩ : Req).uriLength) :
    dispatch X io ⟨.put, "/v1/add_kv".toList, encodePairs [("db_name".toList, name), ("key".toList, key),
      ("create_new_database".toList, boolToString c), ("overwrite_key".toList, boolToString o)], b⟩ =
      .inr (.addKv name key c o b) := by
  refine dispatch_of hl (route := _) rfl rfl ?_
  simp only [parse_encode]
  cases c <;> cases o <;> rfl

theorem at_rmkv (X : Texts) (io : IoResult) (name key : List Char) (hl : ¬ maxUri < (⟨.post, "/v1/rm_kv".toList,
    encodePairs [("db_name".toList, name), ("key".toList, key)], []⟩ : Req).uriLength) :
    dispatch X io ⟨.post, "/v1/rm_kv".toList, encodePairs [("db_name".toList, name), ("key".toList, key)], []⟩ =
      .inr (.rmKv name key) := by
  refine dispatch_of hl (route := _) rfl rfl ?_
  simp only [parse_encode]
  rfl

theorem at_rmdb (X : Texts) (io : IoResult) (name : List Char) (hl : ¬ maxUri < (⟨.post, "/v1/rm_db".toList,
    encodePairs [("db_name".toList, name)], []⟩ : Req).uriLength) :
    dispatch X io ⟨.post, "/v1/rm_db".toList, encodePairs [("db_name".toList, name)], []⟩ = .inr (.rmDb name io) := by
  refine dispatch_of hl (route := _) rfl rfl ?_
  simp only [parse_encode]
  rfl

theorem at_get (X : Texts) (io : IoResult) (name : List Char) (hl : ¬ maxUri < (⟨.get, "/v1/get_db".toList,
    encodePairs [("db_name".toList, name)], []⟩ : Req).uriLength) :
    dispatch X io ⟨.get, "/v1/get_db".toList, encodePairs [("db_name".toList, name)], []⟩ = .inr (.getDb name) := by
  refine dispatch_of hl (route := _) rfl rfl ?_
  simp only [parse_encode]
  rfl

/-! What the clients make of the replies. -/

theorem readAll_of {pieces : List (List UInt8)} (h : ∀ p ∈ pieces, p ≠ []) : readAll pieces = pieces.flatten := by
  induction pieces with
  | nil => rfl
  | cons p ps ih =>
    cases p with
    | nil => exact absurd rfl (h [] (by simp))
    | cons b p =>
      rw [readAll, ih fun x hx => h x (List.mem_cons_of_mem _ hx), List.flatten_cons]
      simp

theorem readAll_pieces (hr : L.Reads) (b : List UInt8) : readAll (L.pieces b) = b := by
  rw [readAll_of (hr b).2, (hr b).1]

theorem read_names (ht : TextOk env) (hl : L.Reads) (X : Texts) (r : Reply) (h : Answers .allNames r) :
    (do let p ← called (respond env X r); fromSlice env namesOfJson (readAll (L.pieces p.body))) =
      (do let _ ← Client.called r; Client.namesOf r : Out ClientError _) := by
  simp only [readAll_pieces hl]
  obtain ⟨ns, rfl⟩ := h
  exact fromSlice_of (ht.names ns) (names_json ns)

theorem read_names' (ht : TextOk env) (X : Texts) (r : Reply) (h : Answers .allNames r) :
    (do let p ← arrived (respond env X r); fromSlice env namesOfJson p.body) =
      (do let _ ← Client.sent r; Client.namesOf r : Out ClientError _) := by
  obtain ⟨ns, rfl⟩ := h
  exact fromSlice_of (ht.names ns) (names_json ns)

theorem read_creation (ht : TextOk env) (X : Texts) {n k : List Char} {c o : Bool} {b : List UInt8} (r : Reply)
    (h : Answers (.addKv n k c o b) r) :
    (do let p ← called (respond env X r); fromSlice env creationOfJson p.body) =
      (do let _ ← Client.called r; Client.creationOf r : Out ClientError _) := by
  obtain ⟨c, rfl⟩ | ⟨e, rfl⟩ | rfl := h
  · exact fromSlice_of (ht.string _) (creation_json c)
  · rfl
  · rfl

theorem read_creation' (ht : TextOk env) (X : Texts) {n k : List Char} {c o : Bool} {b : List UInt8} (r : Reply)
    (h : Answers (.addKv n k c o b) r) :
    (do let p ← checked (respond env X r); fromSlice env creationOfJson p.body) =
      (do let _ ← Client.checked r; Client.creationOf r : Out ClientError _) := by
  obtain ⟨c, rfl⟩ | ⟨e, rfl⟩ | rfl := h
  · exact fromSlice_of (ht.string _) (creation_json c)
  · rfl
  · rfl

theorem read_store (hl : L.Reads) (X : Texts) {n : List Char} (r : Reply) (h : Answers (.getDb n) r) :
    (do let p ← called (respond env X r); (Store.deser env (readAll (L.pieces p.body))).mapErr .store) =
      (do let _ ← Client.called r; Client.storeOf env r : Out ClientError _) := by
  simp only [readAll_pieces hl]
  obtain ⟨b, rfl⟩ | ⟨e, rfl⟩ | rfl := h
  · rfl
  · cases e <;> rfl
  · rfl

/-- C72: what a method of the blocking client does over HTTP is what it does in the model of C52, C53, C56 and C57, where
names, keys, flags and results are passed as they are. -/
theorem C72_sync (ht : TextOk env) (hl : L.Reads) :
    Sync.new (L.line env) env = Client.Sync.new env ∧
    Sync.getAllDbs (L.line env) env = Client.Sync.getAllDbs env ∧
    (∀ name, Fits L [name] →
      (∀ o, Sync.createNewDb (L.line env) env o name = Client.Sync.createNewDb env o name) ∧
      Sync.getStore (L.line env) env name = Client.Sync.getStore env name ∧
      (∀ o store, Sync.addDbWithContents (L.line env) env o name store = Client.Sync.addDbWithContents env o name store) ∧
      Sync.removeDb (L.line env) env name = Client.Sync.removeDb env name L.io) ∧
    ∀ name key, Fits L [name, key] →
      (∀ c o v, Sync.addEntryToDb (L.line env) env name c o key v = Client.Sync.addEntryToDb env name c o key v) ∧
      Sync.removeEntryFromDb (L.line env) env name key = Client.Sync.removeEntryFromDb env name key := by
  refine ⟨?_, ?_, fun name h => ⟨fun o => ?_, ?_, fun o store => ?_, ?_⟩, fun name key h => ⟨fun c o v => ?_, ?_⟩⟩
  · exact call_eq (at_new ..) (fun e => by cases e) fun r hr => respond_called env L.texts (r := r) hr
      fun c => if c ≠ 200 then .err (.serverNotHealthy c) else .ok ()
  · exact call_eq (at_names ..) (fun e => by cases e) fun r hr => read_names ht hl _ r hr
  · exact call_eq (at_add _ _ _ _ (fits_sync (uri_add h o))) (fun e => by cases e) fun r hr => respond_called env L.texts (r := r) hr Client.created
  · exact call_eq (at_get _ _ _ (fits_sync (uri_get h))) (fun e => by cases e) fun r hr => read_store hl _ r hr
  · refine congrArg _ (funext fun b => ?_)
    exact call_eq (at_content _ _ _ _ _ (fits_sync (uri_content h o b))) (fun e => by cases e) fun r hr =>
      respond_called env L.texts (r := r) hr Client.created
  · exact call_eq (at_rmdb _ _ _ (fits_sync (uri_rmdb h))) (fun e => by cases e) fun r hr =>
      respond_called env L.texts (r := r) hr fun _ => .ok ()
  · refine congrArg _ (funext fun b => ?_)
    exact call_eq (at_kv _ _ _ _ _ _ _ (fits_sync (uri_kv h c o b))) (fun e => by cases e) fun r hr => read_creation ht _ r hr
  · exact call_eq (at_rmkv _ _ _ _ (fits_sync (uri_rmkv h))) (fun e => by cases e) fun r hr =>
      respond_called env L.texts (r := r) hr fun _ => .ok ()

/-- C72: the same for the other client. Its `get_store` never sends anything. -/
theorem C72_async (ht : TextOk env) (h0 : Fits L []) :
    Async.new (L.line env) env = Client.Async.new env ∧
    Async.getAllDbs (L.line env) env = Client.Async.getAllDbs env ∧
    (∀ name, Async.getStore (L.line env) env name = Client.Async.getStore env name) ∧
    (∀ name, Fits L [name] →
      (∀ o, Async.createNewDb (L.line env) env o name = Client.Async.createNewDb env o name) ∧
      (∀ o store, Async.addDbWithContents (L.line env) env o name store = Client.Async.addDbWithContents env o name store) ∧
      Async.removeDb (L.line env) env name = Client.Async.removeDb env name L.io) ∧
    ∀ name key, Fits L [name, key] →
      (∀ c o v, Async.addEntryToDb (L.line env) env name c o key v = Client.Async.addEntryToDb env name c o key v) ∧
      Async.removeEntryFromDb (L.line env) env name key = Client.Async.removeEntryFromDb env name key := by
  have sent {r : Reply} (hr : Sendable r) {α : Type} (f : Nat → Out ClientError α) :
      (arrived (respond env L.texts r)).bind (fun p => f p.code) = (Client.sent r).bind f := by
    unfold Client.sent
    rw [respond_code env L.texts hr]
    cases r.code <;> rfl
  refine ⟨?_, ?_, fun name => rfl, fun name h => ⟨fun o => ?_, fun o store => ?_, ?_⟩,
    fun name key h => ⟨fun c o v => ?_, ?_⟩⟩
  · exact send_eq (ps := []) rfl (fits_of h0 (by uri_length; decide)) (at_new ..) (fun e => by cases e) fun r hr =>
      sent (r := r) hr fun c => if c ≠ 200 then .err (.serverNotHealthy c) else .ok ()
  · exact send_eq (ps := []) rfl (fits_of h0 (by uri_length; decide)) (at_names ..) (fun e => by cases e) fun r hr =>
      read_names' ht _ r hr
  · exact send_eq rfl (uri_add h o) (at_add _ _ _ _ (fits_sync (uri_add h o))) (fun e => by cases e) fun r hr =>
      respond_checked env L.texts (r := r) hr Client.created
  · refine congrArg _ (funext fun b => ?_)
    exact send_eq rfl (uri_content h o b) (at_content _ _ _ _ _ (fits_sync (uri_content h o b))) (fun e => by cases e)
      fun r hr => respond_checked env L.texts (r := r) hr Client.created
  · exact send_eq rfl (uri_rmdb h) (at_rmdb _ _ _ (fits_sync (uri_rmdb h))) (fun e => by cases e) fun r hr =>
      sent (r := r) hr fun c => if c = 410 then .ok false else if Client.isSuccess c then .ok true else .err (.httpErrorCode c)
  · refine congrArg _ (funext fun b => ?_)
    exact send_eq rfl (uri_kv h c o b) (at_kv _ _ _ _ _ _ _ (fits_sync (uri_kv h c o b))) (fun e => by cases e)
      fun r hr => read_creation' ht _ r hr
  · exact send_eq rfl (uri_rmkv h) (at_rmkv _ _ _ _ (fits_sync (uri_rmkv h))) (fun e => by cases e) fun r hr =>
      respond_checked env L.texts (r := r) hr fun _ => .ok ()

/-- C72: names and keys of up to 21000 bytes together always fit, if the address of the daemon is no longer than 2434
bytes. -/
theorem C72_fits (ho : L.origin ≤ 2434) {words : List (List Char)}
    (h : (words.map fun w => (utf8 w).length).sum ≤ 21000) : Fits L words := by
  have : (words.map fun w => (encode w).length).sum ≤ 3 * (words.map fun w => (utf8 w).length).sum := by
    clear h
    induction words with
    | nil => simp
    | cons w ws ih =>
      have := (encode_length w).2
      simp only [List.map_cons, List.sum_cons]
      omega
  unfold Fits
  omega

theorem call_long {r : Req} (hl : maxUri < r.uriLength) {α : Type} (read : Option Rsp → Out ClientError α) (d : Daemon) :
    (L.line env).call r read d = (read (some ⟨414, if r.method = .head then [] else L.texts.refusal 414⟩), d) := by
  unfold Line.call Link.line serve dispatch
  dsimp only
  rw [if_pos hl]

theorem send_long {m : Method} {path : List Char} {query : List QueryItem} {ps : List Pair} {body : List UInt8}
    (hq : serialise query = some ps) (hl : maxUri < (⟨m, path, encodePairs ps, body⟩ : Req).uriLength) {α : Type}
    (read : Option Rsp → Out ClientError α) (d : Daemon) :
    (L.line env).send m path query body read d = (.err .builder, d) := by
  unfold Line.send
  rw [hq]
  dsimp only
  rw [if_pos (by omega)]

/-- C72 fails for long keys: an entry with a key of more than 65534 bytes cannot be added with either client, whatever the
daemon, although its name is in order. -/
theorem C72_refuted_long (name key : List Char) (hk : 65534 < (utf8 key).length) (c o : Bool) (v : Value) {b : List UInt8}
    (hv : Value.ser env none v = .ok b) (d : Daemon) :
    Sync.addEntryToDb (L.line env) env name c o key v d = (.err (.httpErrorCode 414), d) ∧
    Async.addEntryToDb (L.line env) env name c o key v d = (.err .builder, d) := by
  have hlen := (encode_length key).1
  have hl : maxUri < (⟨.put, "/v1/add_kv".toList, encodePairs [("db_name".toList, name), ("key".toList, key),
      ("create_new_database".toList, boolToString c), ("overwrite_key".toList, boolToString o)], b⟩ : Req).uriLength := by
    unfold Req.uriLength encodePairs encodePairs maxUri
    simp only [List.length_append, List.length_cons]
    omega
  constructor
  · unfold Sync.addEntryToDb Client.withBody
    rw [hv]
    exact call_long hl _ d
  · unfold Async.addEntryToDb Client.withBody
    rw [hv]
    exact send_long rfl hl _ d

end

/-! An environment and a connection that meet the conditions. -/

/-- Characters with a mark before each, and another mark at the end. -/
def markedWord (s : List Char) : List Char := s.flatMap (fun c => ['c', c]) ++ ['e']

/-- Reads marked words; the word being read comes with it. -/
def readMarked (word : List Char) : List Char → Option (List (List Char))
  | [] => if word = [] then some [] else none
  | 'e' :: rest => (readMarked [] rest).map (word :: ·)
  | _ :: c :: rest => readMarked (word ++ [c]) rest
  | [_] => none

theorem readMarked_word (word s rest : List Char) :
    readMarked word (markedWord s ++ rest) = (readMarked [] rest).map ((word ++ s) :: ·) := by
  induction s generalizing word with
  | nil => simp [markedWord, readMarked]
  | cons c s ih =>
    have := ih (word ++ [c])
    simp only [markedWord, List.flatMap_cons, List.cons_append, List.append_assoc, List.nil_append] at this ⊢
    rw [← this, readMarked.eq_3]
    decide

theorem readMarked_words (ns : List (List Char)) : readMarked [] (ns.flatMap markedWord) = some ns := by
  induction ns with
  | nil => rfl
  | cons n ns ih => rw [List.flatMap_cons, readMarked_word, ih]; rfl

/-- An environment that writes strings and lists of strings in a simple format. -/
def wordsEnv : Env :=
  { sampleEnv with
    jsonPrint := fun
      | .string s => 's' :: s
      | .array a => 'a' :: (a.flatMap fun
        | .string s => markedWord s
        | _ => [])
      | _ => []
    jsonParse := fun
      | 's' :: s => some (.string s)
      | 'a' :: rest => (readMarked [] rest).map fun ns => .array (ns.map .string)
      | _ => none }

theorem wordsEnv_ok : TextOk wordsEnv where
  string _ := rfl
  names ns := by
    show (readMarked [] ((ns.map SJValue.string).flatMap _)).map _ = _
    rw [List.flatMap_map]
    exact congrArg _ (readMarked_words ns)

/-- A daemon at `http://localhost:7687`. -/
def sampleLink : Link :=
  ⟨21, ⟨fun _ => [], fun _ => [], fun _ => []⟩, .done, fun b => b.map fun x => [x]⟩

theorem sampleLink_reads : sampleLink.Reads := by
  intro b
  constructor
  · induction b with
    | nil => rfl
    | cons x b ih => simpa [sampleLink] using ih
  · intro p hp
    obtain ⟨x, _, rfl⟩ := List.mem_map.mp hp
    simp

example : Fits sampleLink [['é', '&', '='], ['%', ' ']] := by unfold Fits; decide

-- `db_name=%C3%A9+%26&key=%3D`: what both clients send for these two parameters
example : encodePairs [("db_name".toList, "é &".toList), ("key".toList, "=".toList)] =
    utf8 "db_name=%C3%A9+%26&key=%3D".toList := by decide

example : Says [("key".toList, "a b".toList)] (utf8 "key=a%20%62".toList) := by
  have h (b : UInt8) (h : b ≠ 38 ∧ b ≠ 61 ∧ b ≠ 43 ∧ b ≠ 37) {bs t} := Writes.plain (b := b) (bs := bs) (t := t) h
  exact .one (k := "key".toList) (v := "a b".toList) (t := [107, 101, 121]) (u := [97, 37, 50, 48, 37, 54, 50])
    (h 107 (by decide) (h 101 (by decide) (h 121 (by decide) .nil)))
    (h 97 (by decide) (.hex (m := 2) (n := 0) (.digit (n := 2) (by decide)) (.digit (n := 0) (by decide))
      (.hex (m := 6) (n := 2) (.digit (n := 6) (by decide)) (.digit (n := 2) (by decide)) .nil)))

/-! ## C73 -/

theorem field_iff {k v : List Char} {ps : List Pair} : field k ps = some v ↔ Once k v ps := by
  unfold field Once
  constructor
  · intro h
    split at h
    · rename_i p hp
      cases h
      have hmem : p ∈ ps.filter (·.1 = k) := by rw [hp]; simp
      obtain ⟨hm, hk⟩ := List.mem_filter.mp hmem
      have hk : p.1 = k := by simpa using hk
      obtain ⟨l, r, rfl⟩ := List.append_of_mem hm
      refine ⟨l, r, by rw [← hk], ?_⟩
      rw [List.filter_append, List.filter_cons_of_pos (by simpa using hk)] at hp
      intro x hx hxk
      have hnil : l.filter (·.1 = k) = [] ∧ r.filter (·.1 = k) = [] := by
        generalize l.filter (·.1 = k) = a, r.filter (·.1 = k) = c at hp
        cases a with
        | nil => exact ⟨rfl, by simpa only [List.nil_append, List.cons.injEq, true_and] using hp⟩
        | cons x a => simp at hp
      rcases List.mem_append.mp hx with hx | hx
      · exact absurd hxk (by simpa using List.filter_eq_nil_iff.mp hnil.1 x hx)
      · exact absurd hxk (by simpa using List.filter_eq_nil_iff.mp hnil.2 x hx)
    · cases h
  · rintro ⟨l, r, rfl, h⟩
    have hl : l.filter (·.1 = k) = [] := List.filter_eq_nil_iff.mpr fun x hx => by simpa using h x (by simp [hx])
    have hr : r.filter (·.1 = k) = [] := List.filter_eq_nil_iff.mpr fun x hx => by simpa using h x (by simp [hx])
    rw [List.filter_append, List.filter_cons_of_pos (by simp), hl, hr]
    rfl

theorem flag_iff {k : List Char} {b : Bool} {ps : List Pair} : flag k ps = some b ↔ OnceFlag k b ps := by
  unfold flag OnceFlag
  rw [← field_iff]
  cases hf : field k ps with
  | none => simp
  | some s =>
    simp only [Option.bind_some, parseBool, Option.some.injEq]
    by_cases h1 : s = "true".toList
    · subst h1
      cases b <;> simp
    · rw [if_neg h1]
      by_cases h2 : s = "false".toList
      · subst h2
        cases b <;> simp
      · rw [if_neg h2]
        cases b
        · simpa using h2
        · simpa using h1

theorem accepts_iff {m a : Method} (h : m ≠ .head) : m.accepts a = true ↔ asked a = m := by
  cases m <;> cases a <;> simp_all [Method.accepts, asked]

theorem means_route {io : IoResult} {m : Method} {path : List Char} {ps : List Pair} {b : List UInt8} {q : Request}
    (h : Means io m path ps b q) : ∃ route, (routes io).find? (·.path = path) = some route ∧ route.method = m ∧
      route.method ≠ .head ∧ route.extract ps b = some q := by
  cases h with
  | healthcheck => exact ⟨_, rfl, rfl, (fun e => by cases e), rfl⟩
  | allNames => exact ⟨_, rfl, rfl, (fun e => by cases e), rfl⟩
  | getDb hn =>
    refine ⟨_, rfl, rfl, (fun e => by cases e), ?_⟩
    simp only [field_iff.mpr hn]; rfl
  | addDb hn ho =>
    refine ⟨_, rfl, rfl, (fun e => by cases e), ?_⟩
    simp only [field_iff.mpr hn, flag_iff.mpr ho]; rfl
  | addDbWithContent hn ho =>
    refine ⟨_, rfl, rfl, (fun e => by cases e), ?_⟩
    simp only [field_iff.mpr hn, flag_iff.mpr ho]; rfl
  | rmDb hn =>
    refine ⟨_, rfl, rfl, (fun e => by cases e), ?_⟩
    simp only [field_iff.mpr hn]; rfl
  | clearDb hn =>
    refine ⟨_, rfl, rfl, (fun e => by cases e), ?_⟩
    simp only [field_iff.mpr hn]; rfl
  | addKv hn hk hc ho =>
    refine ⟨_, rfl, rfl, (fun e => by cases e), ?_⟩
    simp only [field_iff.mpr hn, field_iff.mpr hk, flag_iff.mpr hc, flag_iff.mpr ho]; rfl
  | rmKv hn hk =>
    refine ⟨_, rfl, rfl, (fun e => by cases e), ?_⟩
    simp only [field_iff.mpr hn, field_iff.mpr hk]; rfl
  | getValue hn hk =>
    refine ⟨_, rfl, rfl, (fun e => by cases e), ?_⟩
    simp only [field_iff.mpr hn, field_iff.mpr hk]; rfl

/-- C73: a request reaches a handler exactly if its URI is not too long and it means something; then it is handled as what it
means. -/
theorem C73_understood (X : Texts) (io : IoResult) (r : Req) (q : Request) :
    dispatch X io r = .inr q ↔
      r.uriLength ≤ 65534 ∧ Means io (asked r.method) r.path (parsePairs X r.query) r.body q := by
  constructor
  · intro h
    unfold dispatch at h
    split at h
    · cases h
    · rename_i hl
      refine ⟨by unfold maxUri at hl; omega, ?_⟩
      split at h
      · cases h
      · rename_i route hf
        have hp : route.path = r.path := by simpa using List.find?_some hf
        have hm := List.mem_of_find?_eq_some hf
        split at h
        · rename_i ha
          split at h
          · rename_i q' hx
            cases h
            rw [← hp]
            generalize parsePairs X r.query = ps at hx
            generalize r.body = b at hx
            clear hf hp
            simp only [routes, List.mem_cons, List.not_mem_nil, or_false] at hm
            rcases hm with rfl | rfl | rfl | rfl | rfl | rfl | rfl | rfl | rfl | rfl <;>
              rw [(accepts_iff (fun e => by cases e)).mp ha] <;>
              simp only [bind, pure, Option.bind_eq_some_iff, Option.some.injEq, field_iff, flag_iff] at hx
            · obtain ⟨n, hn, rfl⟩ := hx; exact .getDb hn
            · subst hx; exact .allNames
            · obtain ⟨n, hn, o, ho, rfl⟩ := hx; exact .addDb hn ho
            · obtain ⟨n, hn, o, ho, rfl⟩ := hx; exact .addDbWithContent hn ho
            · obtain ⟨n, hn, rfl⟩ := hx; exact .rmDb hn
            · obtain ⟨n, hn, rfl⟩ := hx; exact .clearDb hn
            · obtain ⟨n, hn, k, hk, c, hc, o, ho, rfl⟩ := hx; exact .addKv hn hk hc ho
            · obtain ⟨n, hn, k, hk, rfl⟩ := hx; exact .rmKv hn hk
            · obtain ⟨n, hn, k, hk, rfl⟩ := hx; exact .getValue hn hk
            · subst hx; exact .healthcheck
          · cases h
        · cases h
  · rintro ⟨hl, h⟩
    obtain ⟨route, hf, hm, hh, hx⟩ := means_route h
    exact dispatch_of (show ¬ maxUri < r.uriLength by unfold maxUri; omega) hf ((accepts_iff hh).mpr hm.symm) hx

/-- C73: any other request is refused with a status that says why, and changes nothing. -/
theorem C73_refused (env : Env) (X : Texts) (io : IoResult) (r : Req) (d : Daemon)
    (h : ¬ ∃ q, r.uriLength ≤ 65534 ∧ Means io (asked r.method) r.path (parsePairs X r.query) r.body q) :
    ∃ body, serve env X io r d = (some ⟨if 65534 < r.uriLength then 414
      else if r.path ∉ endpoints.map Prod.fst then 404
      else if (r.path, asked r.method) ∉ endpoints then 405 else 400, body⟩, d) := by
  have key : dispatch X io r = .inl (if 65534 < r.uriLength then 414
      else if r.path ∉ endpoints.map Prod.fst then 404
      else if (r.path, asked r.method) ∉ endpoints then 405 else 400) := by
    unfold dispatch
    by_cases hl : 65534 < r.uriLength
    · rw [if_pos (show maxUri < r.uriLength from hl), if_pos hl]
    · rw [if_neg (show ¬ maxUri < r.uriLength from hl), if_neg hl]
      cases hf : (routes io).find? (·.path = r.path) with
      | none =>
        rw [if_pos]
        intro hm
        rw [List.find?_eq_none] at hf
        have hall : ∀ p ∈ endpoints.map Prod.fst, ∃ route ∈ routes io, route.path = p := by
          simp [endpoints, routes]
        obtain ⟨route, hr, hp⟩ := hall _ hm
        exact absurd hp (by simpa using hf route hr)
      | some route =>
        have hp : route.path = r.path := by simpa using List.find?_some hf
        have hm := List.mem_of_find?_eq_some hf
        have hin : (route.path, route.method) ∈ endpoints ∧ route.method ≠ .head := by
          simp only [routes, List.mem_cons, List.not_mem_nil, or_false] at hm
          rcases hm with rfl | rfl | rfl | rfl | rfl | rfl | rfl | rfl | rfl | rfl <;> dsimp only <;> decide
        rw [hp] at hin
        rw [if_neg (not_not.mpr (List.mem_map_of_mem (f := Prod.fst) hin.1))]
        simp only
        by_cases ha : route.method.accepts r.method = true
        · rw [if_pos ha, (accepts_iff hin.2).mp ha, if_neg (not_not.mpr hin.1)]
          cases hx : route.extract (parsePairs X r.query) r.body with
          | none => rfl
          | some q => exact absurd ⟨q, (C73_understood X io r q).mp (dispatch_of (show ¬ maxUri < r.uriLength from hl) hf ha hx)⟩ h
        · rw [if_neg ha, if_pos]
          intro hin'
          have huniq : ∀ a ∈ endpoints, ∀ b ∈ endpoints, a.1 = b.1 → a.2 = b.2 := by decide
          exact ha ((accepts_iff hin.2).mpr (huniq _ hin' _ hin.1 rfl))
  unfold serve
  rw [key]
  exact ⟨_, rfl⟩

/-- C73: a request that means something is answered with what the handler replies. -/
theorem C73_answered (env : Env) (X : Texts) (io : IoResult) (r : Req) (d : Daemon) {q : Request}
    (hl : r.uriLength ≤ 65534) (h : Means io (asked r.method) r.path (parsePairs X r.query) r.body q) :
    (serve env X io r d).2 = (d.handle env q).2 ∧
      (serve env X io r d).1.map Rsp.code = (respond env X (d.handle env q).1).map Rsp.code ∧
      (r.method ≠ .head → (serve env X io r d).1 = respond env X (d.handle env q).1) := by
  unfold serve
  rw [(C73_understood X io r q).mpr ⟨hl, h⟩]
  refine ⟨rfl, ?_, fun hm => ?_⟩
  · simp only
    cases respond env X (d.handle env q).1 with
    | none => rfl
    | some p => simp only [Option.map_some]; split <;> rfl
  · simp only [if_neg hm, Option.map_id']

theorem once_perm {k v : List Char} {ps ps' : List Pair} (h : ps.Perm ps') : Once k v ps ↔ Once k v ps' := by
  have one {ps ps' : List Pair} (h : ps.Perm ps') (ho : Once k v ps) : Once k v ps' := by
    rw [← field_iff] at ho ⊢
    unfold field at ho ⊢
    have hf := h.filter (·.1 = k)
    split at ho
    · rename_i p hp
      rw [hp] at hf
      have hf : ps'.filter (·.1 = k) = [p] := (List.perm_singleton.mp hf.symm)
      rw [hf]
      exact ho
    · cases ho
  exact ⟨one h, one h.symm⟩

theorem once_extra {k v : List Char} {ps extra : List Pair} (h : ∀ p ∈ extra, p.1 ≠ k) :
    Once k v (ps ++ extra) ↔ Once k v ps := by
  rw [← field_iff, ← field_iff]
  unfold field
  have he : extra.filter (·.1 = k) = [] := List.filter_eq_nil_iff.mpr fun x hx => by simpa using h x hx
  rw [List.filter_append, he, List.append_nil]

theorem means_congr {io : IoResult} {m : Method} {path : List Char} {ps ps' : List Pair} {b : List UInt8} {q : Request}
    (h : ∀ k ∈ ["db_name".toList, "key".toList, "overwrite_existing".toList, "create_new_database".toList,
      "overwrite_key".toList], ∀ v, Once k v ps → Once k v ps')
    (hm : Means io m path ps b q) : Means io m path ps' b q := by
  have h1 {v} := h "db_name".toList (by simp) v
  have h2 {v} := h "key".toList (by simp) v
  have h3 {v} := h "overwrite_existing".toList (by simp) v
  have h4 {v} := h "create_new_database".toList (by simp) v
  have h5 {v} := h "overwrite_key".toList (by simp) v
  cases hm with
  | healthcheck => exact .healthcheck
  | allNames => exact .allNames
  | getDb hn => exact .getDb (h1 hn)
  | addDb hn ho => exact .addDb (h1 hn) (h3 ho)
  | addDbWithContent hn ho => exact .addDbWithContent (h1 hn) (h3 ho)
  | rmDb hn => exact .rmDb (h1 hn)
  | clearDb hn => exact .clearDb (h1 hn)
  | addKv hn hk hc ho => exact .addKv (h1 hn) (h2 hk) (h4 hc) (h5 ho)
  | rmKv hn hk => exact .rmKv (h1 hn) (h2 hk)
  | getValue hn hk => exact .getValue (h1 hn) (h2 hk)

/-- C73: neither the order of the parameters nor unknown ones make a difference. -/
theorem C73_order (io : IoResult) (m : Method) (path : List Char) (b : List UInt8) (q : Request) {ps ps' extra : List Pair}
    (hp : (ps ++ extra).Perm ps')
    (he : ∀ p ∈ extra, p.1 ∉ ["db_name".toList, "key".toList, "overwrite_existing".toList,
      "create_new_database".toList, "overwrite_key".toList]) :
    Means io m path ps b q ↔ Means io m path ps' b q := by
  have h (k v : List Char) (hk : k ∈ ["db_name".toList, "key".toList, "overwrite_existing".toList,
      "create_new_database".toList, "overwrite_key".toList]) : Once k v ps ↔ Once k v ps' := by
    rw [← once_perm hp]
    exact (once_extra fun p hp e => he p hp (e ▸ hk)).symm
  exact ⟨means_congr fun k hk v => (h k v hk).mp, means_congr fun k hk v => (h k v hk).mpr⟩

/-- C73: a request means at most one thing. -/
theorem C73_unambiguous {io : IoResult} {m : Method} {path : List Char} {ps : List Pair} {b : List UInt8} {q q' : Request}
    (h : Means io m path ps b q) (h' : Means io m path ps b q') : q = q' := by
  obtain ⟨route, h1, _, _, h2⟩ := means_route h
  obtain ⟨route', h1', _, _, h2'⟩ := means_route h'
  rw [h1] at h1'
  cases h1'
  rw [h2] at h2'
  exact Option.some.inj h2'

/-- C72 with C52, partial: what was written with either client over HTTP, whatever happened before and as long as nothing
touches that entry afterwards, is what anyone gets who asks for it with any query string that says so. Missing: as in C52, and
names and keys too long for a URI. -/
theorem C72_write_read_partial {env : Env} {L : Link} (ht : TextOk env) (hl : L.Reads) (hlz : env.lz.Lossless)
    (hb : HashOrder env.byteOrd) (hord : HashOrder env.mapOrd) (before : List Happening) (n k : List Char)
    (hf : Fits L [n, k]) (create overwrite : Bool) (v : Value) (hv : Faithful env none v)
    (hlen : ∀ bytes, Value.ser env none v = .ok bytes → bytes.length < 2 ^ 64)
    {call : Client.Call CreationResult}
    (hcall : call = Sync.addEntryToDb (L.line env) env n create overwrite k v ∨ call = Async.addEntryToDb (L.line env) env n create overwrite k v)
    {c : CreationResult} (e : (call (Daemon.history env {} before)).1 = .ok c) (hc : c.Wrote) (since : List Happening)
    (hno : ∀ x ∈ since, ¬ x.Touches n k) {q : List UInt8} (hq : Says [("db_name".toList, n), ("key".toList, k)] q)
    (hshort : q.length ≤ 65519) :
    ∃ bytes w cur, (serve env L.texts L.io ⟨.get, "/v1/get_value".toList, q, []⟩
        ((call (Daemon.history env {} before)).2.history env since)).1 = some ⟨200, bytes⟩ ∧
      Value.deser env none (Cursor.new bytes) = .ok (w, cur) ∧ SameAs v w := by
  have hcall : call = Client.Async.addEntryToDb env n create overwrite k v := by
    rcases hcall with h | h
    · rw [h, (((C72_sync ht hl).2.2.2) n k hf).1]
      rw [(C57_agree_partial env).2.2.2.2.1]
    · rw [h, (((C72_async ht (by unfold Fits at hf ⊢; simp at hf ⊢; omega)).2.2.2.2) n k hf).1]
  subst hcall
  obtain ⟨w, ⟨w', bytes, cur, h1, h2, h3⟩, hs⟩ :=
    C52_write_read_partial hlz hb hord before n k create overwrite v hv hlen e hc since hno
  generalize (Client.Async.addEntryToDb env n create overwrite k v (Daemon.history env {} before)).2.history env since = d
    at h1 ⊢
  have hm : Means L.io .get "/v1/get_value".toList (parsePairs L.texts q) [] (.getValue n k) := by
    rw [C72_query _ hq]
    exact .getValue ⟨[], [_], rfl, by simp⟩ ⟨[_], [], rfl, by simp⟩
  refine ⟨bytes, w, cur, ?_, h3, hs⟩
  rw [(C73_answered env L.texts L.io ⟨.get, "/v1/get_value".toList, q, []⟩ d
    (by show (utf8 "/v1/get_value".toList).length + 1 + q.length ≤ 65534
        have : (utf8 "/v1/get_value".toList).length = 13 := by decide
        omega) hm).2.2 (fun e => by cases e), h1]
  show (match Value.ser env none w' with
    | .ok b => some (⟨200, b⟩ : Rsp)
    | .panic _ => none) = _
  rw [h2]

-- a parameter given twice is refused, an unknown one is ignored
example : dispatch sampleLink.texts .done ⟨.get, "/v1/get_db".toList, utf8 "db_name=a&db_name=b".toList, []⟩ = .inl 400 := by
  rfl
example : dispatch sampleLink.texts .done ⟨.head, "/v1/get_db".toList, utf8 "x=y&&db_name=a%zz+".toList, []⟩ =
    .inr (.getDb "a%zz ".toList) := by rfl
example : Means .done .post "/v1/add_db".toList [("overwrite_existing".toList, "true".toList), ("db_name".toList, ['a'])] []
    (.addDb ['a'] true) :=
  .addDb ⟨[_], [], rfl, by simp⟩ ⟨[], [_], rfl, by simp⟩

end Souris
