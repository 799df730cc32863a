import Verif.Props.JsonUse
import Verif.Spec.AnyServer

/-! # C95: clients and whatever answers them -/

namespace Souris

open Http

namespace Http

theorem mapM_strings (a : List SJValue) (ns : List (List Char)) :
    a.mapM (fun | .string s => some s | _ => none) = some ns ↔ a = ns.map SJValue.string := by
  constructor
  · intro h
    induction a generalizing ns with
    | nil => simp at h; subst h; rfl
    | cons j a ih =>
      rw [List.mapM_cons] at h
      cases j with
      | string s =>
        cases hm : a.mapM (fun | .string s => some s | _ => none) with
        | none => rw [hm] at h; cases h
        | some ns' => rw [hm] at h; cases h; rw [ih ns' hm]; rfl
      | _ => cases h
  · rintro rfl
    induction ns with
    | nil => rfl
    | cons n ns ih => rw [List.map_cons, List.mapM_cons, ih]; rfl

theorem namesOfJson_iff (j : SJValue) (ns : List (List Char)) : namesOfJson j = some ns ↔ StandsNames j ns := by
  unfold namesOfJson StandsNames
  cases j with
  | array a => rw [SJValue.array.injEq]; exact mapM_strings a ns
  | _ => simp

theorem word_eq (c : CreationResult) : creationName c = word c := by cases c <;> rfl

theorem byName_iff (s : List Char) (c : CreationResult) :
    [CreationResult.insertedKeyIntoExistingDB, .overwroteKeyInExistingDB, .foundExistingKey,
      .insertedKeyIntoNewDB, .unableToFindDB].find? (fun c => creationName c = s) = some c ↔ s = word c := by
  constructor
  · intro h
    have := List.find?_some h
    rw [← word_eq]
    simpa using Eq.symm (by simpa using this)
  · rintro rfl
    rw [← word_eq]
    cases c <;> decide

theorem creationOfJson_iff (j : SJValue) (c : CreationResult) : creationOfJson j = some c ↔ StandsCreation j c := by
  unfold creationOfJson StandsCreation
  split
  · rename_i s
    rw [byName_iff]
    simp
  · rename_i s
    rw [byName_iff]
    simp
  · rename_i h1 h2
    simp only [reduceCtorEq, false_iff, not_or]
    exact ⟨h1 _, h2 _⟩

theorem fromSlice_says (env : Env) {α : Type} {f : SJValue → Option α} {stands : SJValue → α → Prop}
    (hf : ∀ j a, f j = some a ↔ stands j a) (r : Rsp) : SaysJson env stands r (fromSlice env f r.body) := by
  unfold fromSlice
  cases hd : utf8Decode r.body with
  | none =>
    refine .junk fun t j a hu _ => ?_
    rw [hu, utf8Decode_utf8] at hd
    cases hd
  | some t =>
    have hu := (utf8_utf8Decode hd).symm
    dsimp only
    have only {t' : List Char} (h : r.body = utf8 t') : t' = t := by
      rw [h, utf8Decode_utf8] at hd
      exact Option.some.inj hd
    cases hj : env.jsonParse t with
    | none =>
      dsimp only
      refine .junk fun t' j a hu' hj' => ?_
      rw [only hu', hj] at hj'
      cases hj'
    | some j =>
      dsimp only
      cases ha : f j with
      | none =>
        refine .junk fun t' j' a hu' hj' h => ?_
        rw [only hu', hj, Option.some.injEq] at hj'
        rw [← hj', ← hf, ha] at h
        cases h
      | some a => exact .text hu hj ((hf j a).mp ha)

variable {σ : Type} {L : Line σ} {env : Env}

theorem asks_call {α : Type} {r : Req} {read : Option Rsp → Out ClientError α} {q : Request} {ps : List Pair} {io : IoResult}
    {V : Option Rsp → Out ClientError α → Prop} (hs : Says ps r.query) (hm : Means io r.method r.path ps r.body q)
    (h : ∀ a, V a (read a)) : Asks L (L.call r read) q V :=
  ⟨r, ps, io, hs, hm, fun _ => ⟨rfl, h _⟩⟩

theorem asks_send {α : Type} {m : Method} {path : List Char} {query : List QueryItem} {ps : List Pair} {body : List UInt8}
    {read : Option Rsp → Out ClientError α} {q : Request} {io : IoResult} {V : Option Rsp → Out ClientError α → Prop}
    (hq : serialise query = some ps) (hl : ¬ maxUri < L.origin + (⟨m, path, encodePairs ps, body⟩ : Req).uriLength)
    (hm : Means io m path ps body q) (h : ∀ a, V a (read a)) : Asks L (L.send m path query body read) q V := by
  refine ⟨⟨m, path, encodePairs ps, body⟩, ps, io, C72_encode ps, hm, fun s => ?_⟩
  unfold Line.send
  rw [hq]
  dsimp only
  rw [if_neg hl]
  exact ⟨rfl, h _⟩

theorem checked_verdict {α : Type} {f : Rsp → Out ClientError α} {told : Rsp → Out ClientError α → Prop}
    (h : ∀ r, Success r.code → told r (f r)) (a : Option Rsp) :
    Verdict Success told a (do let r ← checked a; f r) := by
  cases a with
  | none => exact .lost
  | some r =>
    by_cases hc : Success r.code
    · refine .good hc ?_
      have : checked (some r) = .ok r := by
        show (if _ then _ else _) = _
        rw [if_pos]
        unfold Client.isSuccess Success at *
        simp; omega
      rw [this]
      exact h r hc
    · have : checked (some r) = .err (.httpErrorCode r.code) := by
        show (if _ then _ else _) = _
        rw [if_neg]
        unfold Client.isSuccess Success at *
        simp; omega
      rw [this]
      exact .bad hc

theorem called_verdict {α : Type} {f : Rsp → Out ClientError α} {told : Rsp → Out ClientError α → Prop}
    (h : ∀ r, r.code < 400 → told r (f r)) (a : Option Rsp) :
    Verdict (· < 400) told a (do let r ← called a; f r) := by
  cases a with
  | none => exact .lost
  | some r =>
    by_cases hc : r.code < 400
    · refine .good hc ?_
      have : called (some r) = .ok r := by
        show (if _ then _ else _) = _
        rw [if_neg (by omega)]
      rw [this]
      exact h r hc
    · have : called (some r) = .err (.httpErrorCode r.code) := by
        show (if _ then _ else _) = _
        rw [if_pos (by omega)]
      rw [this]
      exact .bad hc

theorem arrived_verdict {α : Type} {f : Rsp → Out ClientError α} {told : Rsp → Out ClientError α → Prop}
    (h : ∀ r, told r (f r)) (a : Option Rsp) : Verdict (fun _ => True) told a (do let r ← arrived a; f r) := by
  cases a with
  | none => exact .lost
  | some r => exact .good trivial (h r)

theorem created_says (r : Rsp) : SaysCreated r (Client.created r.code) := by
  unfold Client.created
  split
  · exact .found ‹_›
  · split
    · exact .created ‹_›
    · exact .other ‹_› ‹_›

theorem healthy_verdict (a : Option Rsp) : Verdict (fun _ => True) SaysHealthy a (do
    let r ← arrived a
    if r.code ≠ 200 then .err (.serverNotHealthy r.code) else .ok ()) :=
  arrived_verdict (fun r => by
    by_cases h : r.code = 200
    · rw [if_neg (fun h' => h' h)]; exact .yes h
    · rw [if_pos h]; exact .no h) a

theorem removed_verdict (a : Option Rsp) : Verdict (fun c => c = 410 ∨ Success c) SaysRemoved a (do
    let r ← arrived a
    if r.code = 410 then .ok false else if Client.isSuccess r.code then .ok true else .err (.httpErrorCode r.code)) := by
  cases a with
  | none => exact .lost
  | some r =>
    show Verdict _ _ (some r) (if r.code = 410 then _ else if _ then _ else _)
    by_cases h : r.code = 410
    · rw [if_pos h]; exact .good (.inl h) (.none h)
    · rw [if_neg h]
      by_cases hc : Success r.code
      · rw [if_pos (by unfold Client.isSuccess Success at *; simp; omega)]
        exact .good (.inr hc) (.removed hc)
      · rw [if_neg (by unfold Client.isSuccess Success at *; simp; omega)]
        exact .bad (by rintro (h' | h') <;> contradiction)

theorem once_one (k v : List Char) : Once k v [(k, v)] := ⟨[], [], rfl, by simp⟩

theorem flag_text (b : Bool) : boolToString b = if b then "true".toList else "false".toList := rfl

theorem once_get {k v : List Char} {ps : List Pair} (h : field k ps = some v) : Once k v ps := field_iff.mp h

theorem means_add (io : IoResult) (n : List Char) (o : Bool) : Means io .post "/v1/add_db".toList
    [("overwrite_existing".toList, boolToString o), ("db_name".toList, n)] [] (.addDb n o) :=
  .addDb (once_get rfl) (flag_iff.mp (by cases o <;> rfl))

theorem means_content (io : IoResult) (n : List Char) (o : Bool) (b : List UInt8) : Means io .put "/v1/add_db_with_content".toList
    [("overwrite_existing".toList, boolToString o), ("db_name".toList, n)] b (.addDbWithContent n o b) :=
  .addDbWithContent (once_get rfl) (flag_iff.mp (by cases o <;> rfl))

theorem means_kv (io : IoResult) (n k : List Char) (c o : Bool) (b : List UInt8) : Means io .put "/v1/add_kv".toList
    [("db_name".toList, n), ("key".toList, k), ("create_new_database".toList, boolToString c),
      ("overwrite_key".toList, boolToString o)] b (.addKv n k c o b) :=
  .addKv (once_get rfl) (once_get rfl) (flag_iff.mp (by cases c <;> rfl)) (flag_iff.mp (by cases o <;> rfl))

theorem means_rmkv (io : IoResult) (n k : List Char) : Means io .post "/v1/rm_kv".toList
    [("db_name".toList, n), ("key".toList, k)] [] (.rmKv n k) := .rmKv (once_get rfl) (once_get rfl)

theorem means_rmdb (io : IoResult) (n : List Char) : Means io .post "/v1/rm_db".toList [("db_name".toList, n)] [] (.rmDb n io) :=
  .rmDb (once_get rfl)

theorem means_get (io : IoResult) (n : List Char) : Means io .get "/v1/get_db".toList [("db_name".toList, n)] [] (.getDb n) :=
  .getDb (once_get rfl)

/-- A connection of the same length, to use what is known of its URIs. -/
def Line.link (L : Line σ) : Link := ⟨L.origin, ⟨fun _ => [], fun _ => [], fun _ => []⟩, .done, L.pieces⟩

theorem line_readAll (h : L.Reads) (b : List UInt8) : readAll (L.pieces b) = b := readAll_pieces (L := L.link) h b

theorem store_told (env : Env) (r : Rsp) : SaysStore env r ((Store.deser env r.body).mapErr .store) := by
  cases h : Store.deser env r.body with
  | ok s => exact .store h
  | err e => exact .junk h
  | panic p => exact .panic h

theorem withBody_ok {α : Type} {body : Out Empty (List UInt8)} {b : List UInt8} (h : body = .ok b)
    (f : List UInt8 → Client.CallOn σ α) : Client.withBody body f = f b := by
  subst h; rfl

end Http

variable {σ : Type}

/-- C95 for the asynchronous client, partial: whatever the server is and answers, a call sends one request, which says what
was asked, and what it returns is determined by the answer. A status that does not say success is reported as it is, with two
exceptions: 410 for a database that is not there, and any status at all for the list of names. Missing: `get_store`, which
asks nothing. -/
theorem C95_async_partial (L : Line σ) (env : Env) (h0 : L.Fits []) :
    Asks L (Async.new L env) .healthcheck (Verdict (fun _ => True) SaysHealthy) ∧
    Asks L (Async.getAllDbs L env) .allNames (Verdict (fun _ => True) (SaysJson env StandsNames)) ∧
    (∀ name, L.Fits [name] →
      (∀ o, Asks L (Async.createNewDb L env o name) (.addDb name o) (Verdict Success SaysCreated)) ∧
      (∀ o store b, Store.ser env store = .ok b →
        Asks L (Async.addDbWithContents L env o name store) (.addDbWithContent name o b) (Verdict Success SaysCreated)) ∧
      Asks L (Async.removeDb L env name) (.rmDb name .done) (Verdict (fun c => c = 410 ∨ Success c) SaysRemoved)) ∧
    ∀ name key, L.Fits [name, key] →
      (∀ c o v b, Value.ser env none v = .ok b → Asks L (Async.addEntryToDb L env name c o key v) (.addKv name key c o b)
        (Verdict Success (SaysJson env StandsCreation))) ∧
      Asks L (Async.removeEntryFromDb L env name key) (.rmKv name key) (Verdict Success SaysDone) := by
  refine ⟨?_, ?_, fun name h => ⟨fun o => ?_, fun o store b e => ?_, ?_⟩, fun name key h => ⟨fun c o v b e => ?_, ?_⟩⟩
  · exact asks_send (io := .done) rfl (fits_of (L := L.link) h0 (by decide)) .healthcheck healthy_verdict
  · exact asks_send (io := .done) rfl (fits_of (L := L.link) h0 (by decide)) .allNames
      (arrived_verdict fun r => fromSlice_says env namesOfJson_iff r)
  · exact asks_send (io := .done) rfl (uri_add (L := L.link) h o) (means_add _ name o) (checked_verdict fun r _ => created_says r)
  · unfold Async.addDbWithContents
    rw [withBody_ok e]
    exact asks_send (io := .done) rfl (uri_content (L := L.link) h o b) (means_content _ name o b)
      (checked_verdict fun r _ => created_says r)
  · exact asks_send (io := .done) rfl (uri_rmdb (L := L.link) h) (means_rmdb _ name) removed_verdict
  · unfold Async.addEntryToDb
    rw [withBody_ok e]
    exact asks_send (io := .done) rfl (uri_kv (L := L.link) h c o b) (means_kv _ name key c o b)
      (checked_verdict fun r _ => fromSlice_says env creationOfJson_iff r)
  · exact asks_send (io := .done) rfl (uri_rmkv (L := L.link) h) (means_rmkv _ name key) (checked_verdict fun r _ => .done)

/-- C95 for the synchronous client, partial: likewise, but every status below 400 is taken for success. -/
theorem C95_sync_partial (L : Line σ) (env : Env) (hr : L.Reads) :
    Asks L (Sync.new L env) .healthcheck (Verdict (· < 400) SaysHealthy) ∧
    Asks L (Sync.getAllDbs L env) .allNames (Verdict (· < 400) (SaysJson env StandsNames)) ∧
    (∀ name,
      (∀ o, Asks L (Sync.createNewDb L env o name) (.addDb name o) (Verdict (· < 400) SaysCreated)) ∧
      Asks L (Sync.getStore L env name) (.getDb name) (Verdict (· < 400) (SaysStore env)) ∧
      (∀ o store b, Store.ser env store = .ok b →
        Asks L (Sync.addDbWithContents L env o name store) (.addDbWithContent name o b) (Verdict (· < 400) SaysCreated)) ∧
      Asks L (Sync.removeDb L env name) (.rmDb name .done) (Verdict (· < 400) SaysDone)) ∧
    ∀ name key,
      (∀ c o v b, Value.ser env none v = .ok b → Asks L (Sync.addEntryToDb L env name c o key v) (.addKv name key c o b)
        (Verdict (· < 400) (SaysJson env StandsCreation))) ∧
      Asks L (Sync.removeEntryFromDb L env name key) (.rmKv name key) (Verdict (· < 400) SaysDone) := by
  refine ⟨?_, ?_, fun name => ⟨fun o => ?_, ?_, fun o store b e => ?_, ?_⟩, fun name key => ⟨fun c o v b e => ?_, ?_⟩⟩
  · exact asks_call (io := .done) (C72_encode []) .healthcheck (called_verdict fun r _ => by
      by_cases h : r.code = 200
      · rw [if_neg (fun h' => h' h)]; exact .yes h
      · rw [if_pos h]; exact .no h)
  · exact asks_call (io := .done) (C72_encode []) .allNames (called_verdict fun r _ => by
      rw [line_readAll hr]; exact fromSlice_says env namesOfJson_iff r)
  · exact asks_call (io := .done) (C72_encode _) (means_add _ name o) (called_verdict fun r _ => created_says r)
  · exact asks_call (io := .done) (C72_encode _) (means_get _ name) (called_verdict fun r _ => by
      rw [line_readAll hr]; exact store_told env r)
  · unfold Sync.addDbWithContents
    rw [withBody_ok e]
    exact asks_call (io := .done) (C72_encode _) (means_content _ name o b) (called_verdict fun r _ => created_says r)
  · exact asks_call (io := .done) (C72_encode _) (means_rmdb _ name) (called_verdict fun _ _ => .done)
  · unfold Sync.addEntryToDb
    rw [withBody_ok e]
    exact asks_call (io := .done) (C72_encode _) (means_kv _ name key c o b)
      (called_verdict fun r _ => fromSlice_says env creationOfJson_iff r)
  · exact asks_call (io := .done) (C72_encode _) (means_rmkv _ name key) (called_verdict fun _ _ => .done)

/-- C95: a call that succeeds was answered, with a status that it may take for success. -/
theorem C95_success {L : Line σ} {α : Type} {call : Client.CallOn σ α} {q : Request} {okay : Nat → Prop}
    {told : Rsp → Out ClientError α → Prop} (h : Asks L call q (Verdict okay told)) {s : σ} {a : α} (e : (call s).1 = .ok a) :
    ∃ r rsp, (L.answer r s).1 = some rsp ∧ okay rsp.code ∧ told rsp (.ok a) := by
  obtain ⟨r, ps, io, -, -, h⟩ := h
  have hv := (h s).2
  rw [e] at hv
  generalize ha : (L.answer r s).1 = x at hv
  cases hv with
  | good hc hs => exact ⟨r, _, ha, hc, hs⟩

/-- C95: a status that is not taken for success is what the caller is told, whichever it is. -/
theorem C95_reported {L : Line σ} {α : Type} {call : Client.CallOn σ α} {q : Request} {okay : Nat → Prop}
    {told : Rsp → Out ClientError α → Prop} (h : Asks L call q (Verdict okay told)) {s : σ} {rsp : Rsp}
    (e : ∀ r, (L.answer r s).1 = some rsp) (hc : ¬ okay rsp.code) : (call s).1 = .err (.httpErrorCode rsp.code) := by
  obtain ⟨r, ps, io, -, -, h⟩ := h
  have hv := (h s).2
  rw [e r] at hv
  generalize (call s).1 = x at hv ⊢
  cases hv with
  | bad _ => rfl
  | good hc' _ => exact absurd hc' hc

namespace Http

theorem Asks.quiet {L : Line σ} {α : Type} {call : Client.CallOn σ α} {q : Request} {okay : Nat → Prop}
    {told : Rsp → Out ClientError α → Prop} (h : Asks L call q (Verdict okay told)) (ht : ∀ r p, ¬ told r (.panic p)) (s : σ)
    (p : Panic) : (call s).1 ≠ .panic p := by
  intro e
  obtain ⟨r, ps, io, -, -, h⟩ := h
  have hv := (h s).2
  rw [e] at hv
  generalize (L.answer r s).1 = x at hv
  cases hv with
  | good hc hs => exact ht _ _ hs

theorem Asks.created {L : Line σ} {call : Client.CallOn σ Bool} {q : Request} {okay : Nat → Prop}
    (h : Asks L call q (Verdict okay SaysCreated)) {s : σ} {p : Panic} (e : (call s).1 = .panic p) :
    ∃ r rsp, (L.answer r s).1 = some rsp ∧ okay rsp.code ∧ rsp.code ≠ 200 ∧ rsp.code ≠ 201 := by
  obtain ⟨r, ps, io, -, -, h⟩ := h
  have hv := (h s).2
  rw [e] at hv
  generalize ha : (L.answer r s).1 = x at hv
  cases hv with
  | good hc hs =>
    cases hs with
    | other h1 h2 => exact ⟨r, _, ha, hc, h1, h2⟩

theorem json_quiet {env : Env} {α : Type} {stands : SJValue → α → Prop} (r : Rsp) (p : Panic) : ¬ SaysJson env stands r (.panic p) := by
  rintro ⟨⟩

end Http

/-- C95, partial: no answer makes these calls panic. -/
theorem C95_survives_partial (L : Line σ) (env : Env) (h0 : L.Fits []) (hr : L.Reads) (s : σ) (p : Panic) :
    (Async.new L env s).1 ≠ .panic p ∧ (Sync.new L env s).1 ≠ .panic p ∧
    (Async.getAllDbs L env s).1 ≠ .panic p ∧ (Sync.getAllDbs L env s).1 ≠ .panic p ∧
    (∀ name, L.Fits [name] → (Async.removeDb L env name s).1 ≠ .panic p) ∧
    (∀ name, (Sync.removeDb L env name s).1 ≠ .panic p) ∧
    (∀ name key c o v b, Value.ser env none v = .ok b → L.Fits [name, key] →
      (Async.addEntryToDb L env name c o key v s).1 ≠ .panic p ∧ (Async.removeEntryFromDb L env name key s).1 ≠ .panic p) ∧
    ∀ name key c o v b, Value.ser env none v = .ok b →
      (Sync.addEntryToDb L env name c o key v s).1 ≠ .panic p ∧ (Sync.removeEntryFromDb L env name key s).1 ≠ .panic p := by
  obtain ⟨a1, a2, a3, a4⟩ := C95_async_partial L env h0
  obtain ⟨s1, s2, s3, s4⟩ := C95_sync_partial L env hr
  refine ⟨a1.quiet (by rintro r p ⟨⟩) s p, s1.quiet (by rintro r p ⟨⟩) s p, a2.quiet json_quiet s p, s2.quiet json_quiet s p,
    fun n h => ((a3 n h).2.2).quiet (by rintro r p ⟨⟩) s p, fun n => ((s3 n).2.2.2).quiet (by rintro r p ⟨⟩) s p,
    fun n k c o v b e h => ⟨((a4 n k h).1 c o v b e).quiet json_quiet s p, ((a4 n k h).2).quiet (by rintro r p ⟨⟩) s p⟩,
    fun n k c o v b e => ⟨((s4 n k).1 c o v b e).quiet json_quiet s p, ((s4 n k).2).quiet (by rintro r p ⟨⟩) s p⟩⟩

/-- C95: the calls that create a database panic only for a status that says success but is neither 200 nor 201; with the
synchronous client, for one below 400. -/
theorem C95_created (L : Line σ) (env : Env) (name : List Char) (o : Bool) (s : σ) (p : Panic) :
    (L.Fits [name] → (Async.createNewDb L env o name s).1 = .panic p →
      ∃ r rsp, (L.answer r s).1 = some rsp ∧ Success rsp.code ∧ rsp.code ≠ 200 ∧ rsp.code ≠ 201) ∧
    (L.Reads → (Sync.createNewDb L env o name s).1 = .panic p →
      ∃ r rsp, (L.answer r s).1 = some rsp ∧ rsp.code < 400 ∧ rsp.code ≠ 200 ∧ rsp.code ≠ 201) :=
  ⟨fun h e => (((C95_async_partial L env (by unfold Line.Fits at *; simp at *; omega)).2.2.1 name h).1 o).created e,
   fun h e => (((C95_sync_partial L env h).2.2.1 name).1 o).created e⟩

/-- A server that gives the same answer to everything. -/
def always (r : Rsp) : Line Unit := ⟨21, fun b => b.map fun x => [x], fun _ s => (some r, s)⟩

theorem always_reads (r : Rsp) : (always r).Reads := sampleLink_reads

theorem always_fits (r : Rsp) : (always r).Fits [] ∧ (always r).Fits [['d', 'b']] ∧ (always r).Fits [['d', 'b'], ['k']] := by
  have h : (encode ['d', 'b']).length = 2 ∧ (encode ['k']).length = 1 := by decide
  unfold Line.Fits
  simp [always, h.1, h.2]

/-- What a server that refuses everything and one that says nonsense amount to. -/
example (env : Env) (c o : Bool) : (Sync.createNewDb (always ⟨503, []⟩) env o ['d', 'b'] ()).1 = .err (.httpErrorCode 503) ∧
    (Async.addEntryToDb (always ⟨200, [0xFF]⟩) env ['d', 'b'] c o ['k'] .null ()).1 = .err .json := by
  refine ⟨C95_reported (((C95_sync_partial _ env (always_reads _)).2.2.1 _).1 o) (fun _ => rfl) (by decide), ?_⟩
  obtain ⟨r, ps, io, -, -, h⟩ := ((C95_async_partial (always ⟨200, [0xFF]⟩) env (always_fits _).1).2.2.2 ['d', 'b'] ['k']
    (always_fits _).2.2).1 c o .null _ rfl
  have hv := (h ()).2
  change Verdict _ _ (some ⟨200, [0xFF]⟩) _ at hv
  generalize (Async.addEntryToDb (always ⟨200, [0xFF]⟩) env ['d', 'b'] c o ['k'] .null ()).1 = x at hv
  cases hv with
  | bad h => exact absurd ⟨by decide, by decide⟩ h
  | good _ hs =>
    cases hs with
    | junk _ => rfl
    | text hu _ _ =>
      have := utf8Decode_utf8 ‹List Char›
      rw [← hu] at this
      cases this

/-- C95 is violated by the calls that create a database: an answer without content, such as a proxy may give, makes both
clients panic. -/
theorem C95_refuted_panic (env : Env) (o : Bool) (store : Store) {b : List UInt8} (e : Store.ser env store = .ok b) :
    Success 204 ∧
    (Async.createNewDb (always ⟨204, []⟩) env o ['d', 'b'] ()).1 = .panic .unreachable ∧
    (Sync.createNewDb (always ⟨204, []⟩) env o ['d', 'b'] ()).1 = .panic .unreachable ∧
    (Async.addDbWithContents (always ⟨204, []⟩) env o ['d', 'b'] store ()).1 = .panic .unreachable ∧
    (Sync.addDbWithContents (always ⟨204, []⟩) env o ['d', 'b'] store ()).1 = .panic .unreachable := by
  have key {L : Line Unit} {call : Client.CallOn Unit Bool} {q : Request} {okay : Nat → Prop} (h : Asks L call q (Verdict okay SaysCreated))
      (hL : ∀ r, (L.answer r ()).1 = some ⟨204, []⟩) (ho : okay 204) : (call ()).1 = .panic .unreachable := by
    obtain ⟨r, ps, io, -, -, h⟩ := h
    have hv := (h ()).2
    rw [hL r] at hv
    generalize (call ()).1 = x at hv
    cases hv with
    | bad h => exact absurd ho h
    | good _ hs =>
      cases hs with
      | found h => exact absurd h (by decide)
      | created h => exact absurd h (by decide)
      | other _ _ => rfl
  have ha := (C95_async_partial (always ⟨204, []⟩) env (always_fits _).1).2.2.1 ['d', 'b'] (always_fits _).2.1
  have hs := (C95_sync_partial (always ⟨204, []⟩) env (always_reads _)).2.2.1 ['d', 'b']
  have h204 : Success 204 := by unfold Success; decide
  exact ⟨h204, key (ha.1 o) (fun _ => rfl) h204, key (hs.1 o) (fun _ => rfl) (by decide),
    key (ha.2.1 o store b e) (fun _ => rfl) h204, key (hs.2.2.1 o store b e) (fun _ => rfl) (by decide)⟩

/-- C95 is violated by the asynchronous list of names, for which a failure with a list in its body is a list; and by the
synchronous client, for which a removal that was redirected elsewhere has succeeded. -/
theorem C95_refuted_status {env : Env} (he : env.Serde) : ¬ Success 500 ∧ ¬ Success 304 ∧
    (Async.getAllDbs (always ⟨500, utf8 ['[', ']']⟩) env ()).1 = .ok [] ∧
    (Sync.removeDb (always ⟨304, []⟩) env ['d', 'b'] ()).1 = .ok () ∧
    (Sync.removeEntryFromDb (always ⟨304, []⟩) env ['d', 'b'] ['k'] ()).1 = .ok () := by
  refine ⟨by unfold Success; decide, by unfold Success; decide, ?_, rfl, rfl⟩
  show (fromSlice env namesOfJson (utf8 ['[', ']'])) = _
  unfold fromSlice
  rw [utf8Decode_utf8, he.parse]
  rfl

end Souris
