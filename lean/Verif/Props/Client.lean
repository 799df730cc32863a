import Verif.Spec.Client
import Verif.Props.Daemon
import Verif.Props.ValueFails

/-! # Clients: C52 (write and read back), C53 (presence), C56 (reports), C57 (agreement) -/

namespace Souris

open Value Client

/-! ## C52 -/

theorem untouched {env : Env} (n k : List Char) (v : Value) :
    ∀ (hs : List Happening) (a : Abs), (∀ x ∈ hs, ¬ x.Touches n k) → (a n).bind (· k) = some v →
      (Abs.afterAll env a hs n).bind (· k) = some v := by
  intro hs
  induction hs with
  | nil => intro a _ h; exact h
  | cons x hs ih =>
    intro a hno h
    have hx := hno x (by simp)
    have hrest := fun y hy => hno y (List.mem_cons_of_mem x hy)
    cases x with
    | evict m => exact ih a hrest h
    | request r =>
      simp only [Abs.afterAll]
      cases e : r.route env with
      | inl _ => exact ih a hrest h
      | inr op =>
        refine ih _ hrest ?_
        obtain ⟨m, hm, hmk⟩ := Option.bind_eq_some_iff.mp h
        cases r <;> simp only [Request.route] at e
        case healthcheck => cases e
        case getDb => cases e; exact h
        case allNames => cases e; exact h
        case getValue => cases e; exact h
        case addDb m' o =>
          cases e
          simp only [Happening.Touches] at hx
          simp only [Abs.after]
          split
          · by_cases hmn : n = m'
            · subst hmn
              cases o with
              | true => exact absurd ⟨rfl, rfl⟩ hx
              | false => simp [Abs.put, hm, hmk]
            · simp [Abs.put, hmn, hm, hmk]
          · exact h
        case addDbWithContent m' o body =>
          simp only [Happening.Touches] at hx
          split at e
          · cases e
            simp [Abs.after, Abs.put, Ne.symm hx, hm, hmk]
          · cases e
          · cases e
        case rmDb m' io =>
          cases e
          simp only [Happening.Touches] at hx
          simp [Abs.after, Abs.put, Ne.symm hx, hm, hmk]
        case clearDb m' =>
          cases e
          simp only [Happening.Touches] at hx
          simp only [Abs.after]
          cases ha : a m' with
          | some _ => simp [Abs.put, Ne.symm hx, hm, hmk]
          | none => exact h
        case addKv m' k' c o body =>
          simp only [Happening.Touches] at hx
          split at e
          · cases e
            simp only [Abs.after]
            by_cases hmn : m' = n
            · subst hmn
              simp only [hm]
              split
              · exact h
              · rename_i hw
                by_cases hk : k = k'
                · subst hk
                  cases o with
                  | true => exact absurd ⟨rfl, rfl, rfl⟩ hx
                  | false => simp [hmk] at hw
                · simp [Abs.put, hk, hmk]
            · cases ha : a m' with
              | some m2 =>
                simp only
                split
                · exact h
                · simp [Abs.put, Ne.symm hmn, hm, hmk]
              | none =>
                simp only
                split
                · simp [Abs.put, Ne.symm hmn, hm, hmk]
                · exact h
          · cases e
          · cases e
        case rmKv m' k' =>
          cases e
          simp only [Happening.Touches] at hx
          simp only [Abs.after]
          by_cases hmn : m' = n
          · subst hmn
            have hk : k ≠ k' := fun hk => hx ⟨rfl, hk.symm⟩
            simp [hm, Abs.put, hk, hmk]
          · cases ha : a m' with
            | some m2 => simp [Abs.put, Ne.symm hmn, hm, hmk]
            | none => exact h

/-- A client that is told of a write has had its value accepted, in the form that is now stored. -/
theorem add_entry_ok {env : Env} {n k : List Char} {create overwrite : Bool} {v : Value} {d : Daemon}
    {c : CreationResult} (e : (Async.addEntryToDb env n create overwrite k v d).1 = .ok c) :
    ∃ bytes v' c', Value.ser env none v = .ok bytes ∧ Value.deser env none (Cursor.new bytes) = .ok (v', c') ∧
      (d.exec env (.addKv n k create overwrite v')).1 = .creation c ∧
      (Async.addEntryToDb env n create overwrite k v d).2 = (d.exec env (.addKv n k create overwrite v')).2 := by
  unfold Async.addEntryToDb withBody at e ⊢
  cases hb : Value.ser env none v with
  | err x => exact x.elim
  | panic p => rw [hb] at e; cases e
  | ok bytes =>
    rw [hb] at e
    simp only [request, Daemon.handle, Request.route] at e ⊢
    cases hd : Value.deser env none (Cursor.new bytes) with
    | err x => rw [hd] at e; cases e
    | panic p => rw [hd] at e; cases e
    | ok x =>
      obtain ⟨v', c'⟩ := x
      rw [hd] at e
      refine ⟨bytes, v', c', rfl, hd, ?_, by simp only⟩
      simp only [Daemon.exec, Daemon.addKv] at e ⊢
      have : ∀ x : CreationResult, (checked (.creation x) >>= fun _ => creationOf (.creation x)) = .ok c → x = c := by
        intro x hx
        cases hx
        rfl
      rw [this _ e]

/-- When the client is told that a value was written, the daemon has read the value from the bytes of the client and
holds it until the key is written or removed. -/
theorem write_stored {env : Env} (hord : HashOrder env.mapOrd) (before : List Happening) (n k : List Char)
    (create overwrite : Bool) (v : Value) {c : CreationResult}
    (e : (Async.addEntryToDb env n create overwrite k v (Daemon.history env {} before)).1 = .ok c) (hc : c.Wrote)
    (since : List Happening) (hno : ∀ x ∈ since, ¬ x.Touches n k) :
    ∃ bytes v' c', ser env none v = .ok bytes ∧ deser env none (Cursor.new bytes) = .ok (v', c') ∧
      (((Async.addEntryToDb env n create overwrite k v (Daemon.history env {} before)).2.history env since).handle env
        (.getValue n k)).1 = .value v' := by
  obtain ⟨bytes, v', c', e1, e2, e3, e4⟩ := add_entry_ok e
  rw [e4]
  obtain ⟨h1, h2, _⟩ := history_sim hord before {} DbsOk.nil (by intro n b h; cases h)
  generalize hd0 : Daemon.history env {} before = d0 at h1 h2 e3
  generalize hd1 : (d0.exec env (.addKv n k create overwrite v')).2 = d1
  have hview : d1.view = d0.view.after (.addKv n k create overwrite v') := by
    rw [← hd1]; exact (exec_dbs hord h1 (op := .addKv n k create overwrite v') trivial).2
  obtain ⟨c2, e5, hc1, hc2, hc3, hc4, hc5⟩ := C41_codes hord h1 n k create overwrite v'
  rw [e3] at e5
  simp only [Reply.creation.injEq] at e5
  subst e5
  have hstored : (d1.view n).bind (· k) = some v' := by
    rw [hview]
    simp only [Abs.after]
    cases hn : d0.view n with
    | none =>
      cases create with
      | true => simp [Abs.put]
      | false =>
        have := hc1.mpr ⟨hn, rfl⟩
        subst this
        exact hc.elim
    | some m =>
      simp only
      split
      · rename_i hw
        obtain ⟨w, hw1⟩ := Option.isSome_iff_exists.mp hw.1
        have := hc4.mpr ⟨by simpa using hw.2, m, w, hn, hw1⟩
        subst this
        exact hc.elim
      · simp [Abs.put]
  have hd1ok : DbsOk d1.dbs := by
    rw [← hd1]; exact (exec_dbs hord h1 (op := .addKv n k create overwrite v') trivial).1
  have hd1cache : CacheOk env d1 := by
    rw [← hd1]; exact exec_cache h2 (.addKv n k create overwrite v')
  obtain ⟨g1, g2, g3⟩ := history_sim hord since d1 hd1ok hd1cache
  have hend := untouched (env := env) n k v' since d1.view hno hstored
  rw [← g3] at hend
  refine ⟨bytes, v', c', e1, e2, ?_⟩
  obtain ⟨m, hm, hmk⟩ := Option.bind_eq_some_iff.mp hend
  simp only [Daemon.handle, Request.route, Daemon.exec, Dbs.getValue]
  simp only [Daemon.view] at hm
  cases hs : AMap.get n (d1.history env since).dbs with
  | none => rw [hs] at hm; cases hm
  | some s =>
    rw [hs] at hm
    simp only [Option.map_some, Option.some.injEq] at hm
    subst hm
    simp only [hmk]

/-- C52, partial: when the client is told that a value was written, every later `get_value` fetches a value
of the same contents, whatever else was requested of the daemon before and since, until the key is written
or removed. This holds for all values, whether or not they survive being sent (those that do not are
refused, C26). Missing: binary data whose code has one of the lengths that C15 tells
(`C26_binary_exact`) and JSON that its own text form does not preserve;
what the clients offer for reading (see C53: `get_store` never works, and there is no `get_value`). -/
theorem C52_write_read_partial {env : Env} (hlz : env.lz.Lossless) (hb : HashOrder env.byteOrd)
    (hord : HashOrder env.mapOrd) (before : List Happening) (n k : List Char) (create overwrite : Bool) (v : Value)
    (hv : Faithful env none v) (hlen : ∀ bytes, Value.ser env none v = .ok bytes → bytes.length < 2 ^ 64)
    {c : CreationResult}
    (e : (Async.addEntryToDb env n create overwrite k v (Daemon.history env {} before)).1 = .ok c) (hc : c.Wrote)
    (since : List Happening) (hno : ∀ x ∈ since, ¬ x.Touches n k) :
    ∃ w, ((Async.addEntryToDb env n create overwrite k v (Daemon.history env {} before)).2.history env since).Fetches
      env n k w ∧ SameAs v w := by
  obtain ⟨bytes, v', c', e1, e2, e3⟩ := write_stored hord before n k create overwrite v e hc since hno
  obtain ⟨hsame, _, hser⟩ := (C26_never_wrong_partial hlz hb hv e1 (hlen _ e1)).2 v' c' e2
  exact ⟨v', ⟨v', bytes, c', e3, hser, e2⟩, hsame⟩

-- A write, followed by a request for another key.
example : ∃ w, ((Async.addEntryToDb sampleEnv ['d'] true false ['k'] (.array [.null, .string ['a']]) {}).2.history sampleEnv
    [.request (.addKv ['d'] ['j'] true true [0x90]), .request (.addKv ['d'] ['k'] true false [0x90])]).Fetches
      sampleEnv ['d'] ['k'] w ∧ SameAs (.array [.null, .string ['a']]) w := by
  refine C52_write_read_partial (env := sampleEnv) (fun b _ => rfl) (fun _ => .refl _) (fun _ => .refl _) []
    ['d'] ['k'] true false (.array [.null, .string ['a']]) ?_ ?_ (c := .insertedKeyIntoNewDB) rfl trivial _ ?_
  · refine .array fun v hv => ?_
    simp only [List.mem_cons, List.not_mem_nil, or_false] at hv
    rcases hv with rfl | rfl
    · exact .null
    · exact .string ⟨by decide, by simp⟩
  · intro bytes e
    have : bytes = [0xB4, 0x90, 0x10, 1, 97] := (Out.ok.inj e).symm
    rw [this]; decide
  · intro x hx
    simp only [List.mem_cons, List.not_mem_nil, or_false] at hx
    rcases hx with rfl | rfl <;> simp [Happening.Touches]

/-! ## Replies -/

/-- The statuses of the daemon. -/
theorem handle_code (env : Env) (r : Request) (d : Daemon) (c : Nat) (h : (d.handle env r).1.code = some c) :
    c = 200 ∨ c = 201 ∨ c = 400 ∨ c = 410 ∨ c = 500 := by
  have herr : ∀ e : SourisError, e.code = 400 ∨ e.code = 410 ∨ e.code = 500 := by
    intro e; cases e <;> simp [SourisError.code]
  have key : ∀ reply : Reply, (∀ s, reply = .status s → s = 200 ∨ s = 201) → reply.code = some c →
      c = 200 ∨ c = 201 ∨ c = 400 ∨ c = 410 ∨ c = 500 := by
    intro reply hs hc
    cases reply with
    | status s => simp only [Reply.code, Option.some.injEq] at hc; have := hs s rfl; omega
    | error e => simp only [Reply.code, Option.some.injEq] at hc; have := herr e; omega
    | aborted => cases hc
    | _ => simp only [Reply.code, Option.some.injEq] at hc; omega
  refine key _ ?_ h
  intro s hs
  unfold Daemon.handle at hs
  cases hr : r.route env with
  | inl reply =>
    rw [hr] at hs
    simp only at hs
    subst hs
    cases r <;> simp only [Request.route] at hr
    case healthcheck => cases hr; exact .inl rfl
    case addDbWithContent => split at hr <;> cases hr
    case addKv => split at hr <;> cases hr
    all_goals cases hr
  | inr op =>
    rw [hr] at hs
    simp only at hs
    cases op <;> simp only [Daemon.exec] at hs
    case newDb n o =>
      unfold Daemon.newDb at hs
      split at hs
      · cases hs
      · simp only [Dbs.newDb] at hs
        split at hs <;> cases hs <;> simp
    case newDbWith n o st =>
      simp only [Daemon.newDbWith, Dbs.newDbWith] at hs
      split at hs <;> cases hs <;> simp
    case clearDb n =>
      simp only [Daemon.clearDb, Dbs.clearDb] at hs
      split at hs <;> cases hs; simp
    case removeDb n io =>
      simp only [Daemon.removeDb] at hs
      split at hs
      · cases hs
      · cases io <;> cases hs <;> simp
    case getDb n =>
      simp only [Daemon.getDb] at hs
      split at hs
      · cases hs
      · split at hs
        · cases hs
        · rename_i hnb
          simp only at hs
          simp only [Dbs.getDb] at hs
          split at hs
          · cases hs
          · split at hs <;> cases hs
    case addKv => cases hs
    case getValue n k =>
      simp only [Dbs.getValue] at hs
      split at hs
      · cases hs
      · split at hs <;> cases hs
    case removeKey n k =>
      simp only [Daemon.removeKey, Dbs.removeKey] at hs
      split at hs
      · cases hs
      · split at hs <;> cases hs; simp
    case allNames => cases hs

theorem checked_eq_called {r : Reply} (h : ∀ c, r.code = some c → c = 200 ∨ c = 201 ∨ c = 400 ∨ c = 410 ∨ c = 500) :
    checked r = called r := by
  unfold checked called sent
  cases hc : r.code with
  | none => rfl
  | some c =>
    rcases h c hc with rfl | rfl | rfl | rfl | rfl <;> rfl

/-! ## C53 -/

/-- C53, partial: the async client's `remove_db` returns whether the database existed, and afterwards it
does not, provided that the file system does not refuse to delete. Missing: see `C53_refuted_*`. -/
theorem C53_remove_db_partial {env : Env} (d : Daemon) (n : List Char) (io : IoResult) (hio : io ≠ .failed) :
    ((Async.removeDb env n io d).1 = .ok true ↔ d.view n ≠ none) ∧
    ((Async.removeDb env n io d).1 = .ok false ↔ d.view n = none) ∧
    (Async.removeDb env n io d).2.view n = none := by
  simp only [Async.removeDb, request, Daemon.handle, Request.route, Daemon.exec, Daemon.removeDb, Daemon.invalidate,
    Dbs.removeDb, Daemon.view]
  cases hn : AMap.get n d.dbs with
  | none =>
    refine ⟨⟨(fun h => by cases h), (fun h => by simp at h)⟩, ⟨fun _ => rfl, fun _ => rfl⟩, by simp [hn]⟩
  | some s =>
    cases io with
    | failed => exact absurd rfl hio
    | done => exact ⟨⟨(fun _ => by simp), fun _ => rfl⟩, ⟨(fun h => by cases h), (fun h => by simp at h)⟩, by
        simp [AMap.get_erase]⟩
    | notFound => exact ⟨⟨(fun _ => by simp), fun _ => rfl⟩, ⟨(fun h => by cases h), (fun h => by simp at h)⟩, by
        simp [AMap.get_erase]⟩

/-- C53 is violated: when the file cannot be deleted the client is told of an error, and the database is
gone from the daemon. -/
theorem C53_refuted_remove_db (env : Env) (d : Daemon) (n : List Char) (h : d.view n ≠ none) :
    (Async.removeDb env n .failed d).1 = .err (.httpErrorCode 500) ∧
    (Async.removeDb env n .failed d).2.view n = none := by
  simp only [Daemon.view] at h
  simp only [Async.removeDb, request, Daemon.handle, Request.route, Daemon.exec, Daemon.removeDb, Daemon.invalidate,
    Dbs.removeDb, Daemon.view]
  cases hn : AMap.get n d.dbs with
  | none => rw [hn] at h; exact absurd rfl h
  | some s => exact ⟨rfl, by simp [AMap.get_erase]⟩

/-- C53 is violated: the async client's `get_store` fails for every database, existing or not, without
sending anything. -/
theorem C53_refuted_get_store (env : Env) (d : Daemon) (n : List Char) :
    Async.getStore env n d = (.err .builder, d) := rfl

/-- C53 is violated: the sync client's `get_store` returns no store either, whatever is in the database. -/
theorem C53_refuted_get_store_sync (env : Env) (d : Daemon) (n : List Char) (s : Store) :
    (Sync.getStore env n d).1 ≠ .ok s := by
  simp only [Sync.getStore, request]
  generalize (d.handle env (.getDb n)).1 = r
  intro h
  rw [Out.bind_eq_ok] at h
  obtain ⟨c, _, h⟩ := h
  cases r with
  | bytes b =>
    simp only [storeOf] at h
    cases e : Store.deser env b with
    | ok s' => exact C33_refuted env b s' e
    | err x => rw [e] at h; cases h
    | panic x => rw [e] at h; cases h
  | _ => cases h

/-- C53 is violated: `remove_entry_from_db` fails when there is nothing to remove, although its
documentation says that it does not. -/
theorem C53_refuted_remove_entry (env : Env) (d : Daemon) (n k : List Char) :
    (d.view n = none → (Async.removeEntryFromDb env n k d).1 = .err (.httpErrorCode 410)) ∧
    (∀ m, d.view n = some m → m k = none → (Async.removeEntryFromDb env n k d).1 = .err (.httpErrorCode 400)) := by
  simp only [Async.removeEntryFromDb, request, Daemon.handle, Request.route, Daemon.exec, Daemon.removeKey,
    Daemon.invalidate, Dbs.removeKey, Daemon.view]
  cases hn : AMap.get n d.dbs with
  | none => exact ⟨fun _ => rfl, fun m h => by simp at h⟩
  | some s =>
    refine ⟨(fun h => by simp at h), fun m hm hk => ?_⟩
    simp only [Option.map_some, Option.some.injEq] at hm
    subst hm
    simp only [hk]
    rfl

/-- C53, partial: `remove_entry_from_db` succeeds exactly when the key was there, and in any case it is not
there afterwards. -/
theorem C53_remove_entry_partial {env : Env} {d : Daemon} (n k : List Char) :
    ((Async.removeEntryFromDb env n k d).1 = .ok () ↔ (d.view n).bind (· k) ≠ none) ∧
    ((Async.removeEntryFromDb env n k d).2.view n).bind (· k) = none := by
  simp only [Async.removeEntryFromDb, request, Daemon.handle, Request.route, Daemon.exec, Daemon.removeKey,
    Daemon.invalidate, Dbs.removeKey, Daemon.view]
  cases hn : AMap.get n d.dbs with
  | none => exact ⟨⟨(fun h => by cases h), (fun h => by simp at h)⟩, by simp [hn]⟩
  | some s =>
    simp only [Option.map_some, Option.bind_some]
    cases hk : AMap.get k s with
    | none => exact ⟨⟨(fun h => by cases h), fun h => absurd rfl h⟩, by simp [hn, hk]⟩
    | some w => exact ⟨⟨(fun _ => by simp), fun _ => rfl⟩, by simp [AMap.get_insert, AMap.get_erase]⟩

example : (Async.removeDb sampleEnv ['d'] .done (Daemon.history sampleEnv {} sampleHistory)).1 = .ok true ∧
    (Async.removeDb sampleEnv ['e'] .done (Daemon.history sampleEnv {} sampleHistory)).1 = .ok false := ⟨rfl, rfl⟩
example : (Async.removeEntryFromDb sampleEnv ['d'] ['k'] (Daemon.history sampleEnv {} sampleHistory)).1 = .ok () ∧
    (Async.removeEntryFromDb sampleEnv ['d'] ['j'] (Daemon.history sampleEnv {} sampleHistory)).1
      = .err (.httpErrorCode 400) := ⟨rfl, rfl⟩

/-! ## C56 -/

/-- C56: `create_new_db` returns whether the database had to be created, or status 400 for a name that may
not be used; afterwards it exists, empty if it is new or was to be overwritten, otherwise as before. -/
theorem C56_create_new_db {env : Env} (hord : HashOrder env.mapOrd) {d : Daemon} (h : DbsOk d.dbs) (n : List Char)
    (overwrite : Bool) :
    (Abs.GoodName n →
      ((Async.createNewDb env overwrite n d).1 = .ok true ↔ d.view n = none) ∧
      ((Async.createNewDb env overwrite n d).1 = .ok false ↔ d.view n ≠ none) ∧
      (Async.createNewDb env overwrite n d).2.view n =
        some (if overwrite then fun _ => none else (d.view n).getD fun _ => none)) ∧
    (¬ Abs.GoodName n → (Async.createNewDb env overwrite n d).1 = .err (.httpErrorCode 400) ∧
      (Async.createNewDb env overwrite n d).2.view = d.view) := by
  have hafter : (Async.createNewDb env overwrite n d).2.view = d.view.after (.newDb n overwrite) :=
    (exec_dbs hord h (op := .newDb n overwrite) trivial).2
  rw [hafter]
  simp only [Abs.after]
  have hbad := badName_iff n
  constructor
  · intro hg
    have hb : ¬ badName n := fun h => hbad.mp h hg
    rw [if_pos hg]
    refine ⟨?_, ?_, by simp [Abs.put]; rfl⟩
    all_goals
      simp only [Async.createNewDb, request, Daemon.handle, Request.route, Daemon.exec, Daemon.newDb, if_neg hb,
        Dbs.newDb, Daemon.view]
      cases hn : AMap.get n d.dbs with
      | none =>
        simp only [Option.map_none]
        first
          | exact ⟨fun _ => trivial, fun _ => rfl⟩
          | exact ⟨(fun h => by cases h), fun h => by simp at h⟩
      | some s =>
        simp only [Option.map_some]
        first
          | exact ⟨(fun h => by cases h), (fun h => by cases h)⟩
          | exact ⟨(fun _ => by simp), fun _ => rfl⟩
  · intro hg
    have hb : badName n := hbad.mpr hg
    rw [if_neg hg]
    refine ⟨?_, rfl⟩
    simp only [Async.createNewDb, request, Daemon.handle, Request.route, Daemon.exec, Daemon.newDb, if_pos hb]
    rfl

/-- C56: `get_all_dbs` returns each database exactly once, and nothing else. -/
theorem C56_get_all_dbs {env : Env} {d : Daemon} (h : DbsOk d.dbs) :
    ∃ ns, (Async.getAllDbs env d).1 = .ok ns ∧ ns.Nodup ∧ ∀ n, n ∈ ns ↔ d.view n ≠ none := by
  refine ⟨d.dbs.map Prod.fst, rfl, h.names, fun n => ?_⟩
  simp only [Daemon.view, ne_eq, Option.map_eq_none_iff]
  rw [← AMap.get_isSome, ← Option.ne_none_iff_isSome]

/-- C56 is violated: `add_db_with_contents` never succeeds, and nothing is added. -/
theorem C56_refuted_contents (env : Env) (hb : HashOrder env.byteOrd) (hc : HashOrder env.charOrd) (d : Daemon)
    (overwrite : Bool) (n : List Char) (s : Store) :
    (∃ e, (Async.addDbWithContents env overwrite n s d).1 = .err e) ∧
    (Async.addDbWithContents env overwrite n s d).2 = d := by
  obtain ⟨b, hser⟩ := Store.ser_total env hb hc s
  simp only [Async.addDbWithContents, withBody, hser, request, Daemon.handle, Request.route]
  cases e : Store.deser env b with
  | ok s' => exact absurd e (C33_refuted env b s')
  | err x => exact ⟨⟨_, rfl⟩, rfl⟩
  | panic x => exact ⟨⟨_, rfl⟩, rfl⟩

example : (Async.createNewDb sampleEnv false ['d'] (Daemon.history sampleEnv {} sampleHistory)).1 = .ok false ∧
    (Async.createNewDb sampleEnv false ['e'] (Daemon.history sampleEnv {} sampleHistory)).1 = .ok true ∧
    (Async.createNewDb sampleEnv true "meta".toList (Daemon.history sampleEnv {} sampleHistory)).1
      = .err (.httpErrorCode 400) := ⟨rfl, rfl, rfl⟩
example : (Async.getAllDbs sampleEnv (Daemon.history sampleEnv {} sampleHistory)).1 = .ok [['d']] := rfl

theorem created_ok {r : Reply} {c : Nat} (h : called r = .ok c)
    (hr : ∀ c, r.code = some c → c = 200 ∨ c = 201 ∨ c = 400 ∨ c = 410 ∨ c = 500) (p : Panic) :
    created c ≠ .panic p := by
  unfold called sent at h
  cases hc : r.code with
  | none => rw [hc] at h; cases h
  | some c' =>
    rw [hc] at h
    rcases hr c' hc with rfl | rfl | rfl | rfl | rfl <;> cases h <;> intro h <;> cases h

/-- C56: with this daemon the clients do not reach their `unreachable!`. -/
theorem C56_no_panic {env : Env} (hb : HashOrder env.byteOrd) (hc : HashOrder env.charOrd) (d : Daemon)
    (overwrite : Bool) (n : List Char) (s : Store) (p : Panic) :
    (Async.createNewDb env overwrite n d).1 ≠ .panic p ∧ (Sync.createNewDb env overwrite n d).1 ≠ .panic p ∧
    (Async.addDbWithContents env overwrite n s d).1 ≠ .panic p ∧
    (Sync.addDbWithContents env overwrite n s d).1 ≠ .panic p := by
  have key : ∀ r : Request, (called (d.handle env r).1 >>= fun c => created c) ≠ .panic p := by
    intro r h
    cases e : called (d.handle env r).1 with
    | ok c => rw [e] at h; exact created_ok e (handle_code env r d) p h
    | err x => rw [e] at h; cases h
    | panic x =>
      unfold called sent at e
      split at e
      · simp only [Out.ok_bind] at e
        split at e <;> cases e
      · cases e
  obtain ⟨b, hser⟩ := Store.ser_total env hb hc s
  have keyA : ∀ r : Request, (checked (d.handle env r).1 >>= fun c => created c) ≠ .panic p := by
    intro r
    rw [checked_eq_called (handle_code env r d)]
    exact key r
  refine ⟨keyA (.addDb n overwrite), key (.addDb n overwrite), ?_, ?_⟩
  · simp only [Async.addDbWithContents, withBody, hser]
    exact keyA _
  · simp only [Sync.addDbWithContents, withBody, hser]
    exact key _

/-! ## C57 -/

/-- C57, partial: on every daemon the two clients do the same to it and report the same. Missing:
`remove_db` and `get_store`, see `C57_refuted_*`. -/
theorem C57_agree_partial (env : Env) :
    Async.new env = Sync.new env ∧
    Async.getAllDbs env = Sync.getAllDbs env ∧
    Async.createNewDb env = Sync.createNewDb env ∧
    Async.addDbWithContents env = Sync.addDbWithContents env ∧
    Async.addEntryToDb env = Sync.addEntryToDb env ∧
    Async.removeEntryFromDb env = Sync.removeEntryFromDb env := by
  have key : ∀ {α : Type} (r : Request) (f : Reply → Nat → Out ClientError α),
      request env r (fun reply => checked reply >>= f reply) = request env r (fun reply => called reply >>= f reply) := by
    intro α r f
    funext d
    simp only [request, checked_eq_called (handle_code env r d)]
  refine ⟨rfl, rfl, ?_, ?_, ?_, ?_⟩
  · funext o n
    exact key _ fun _ c => created c
  · funext o n s
    unfold Async.addDbWithContents Sync.addDbWithContents
    congr 1
    funext b
    exact key _ fun _ c => created c
  · funext n c o k v
    unfold Async.addEntryToDb Sync.addEntryToDb
    congr 1
    funext b
    exact key _ fun r _ => creationOf r
  · funext n k
    exact key _ fun _ _ => .ok ()

/-- C57 is violated: for a database that does not exist the async `remove_db` succeeds and the sync one
fails. -/
theorem C57_refuted_remove_db (env : Env) (d : Daemon) (n : List Char) (io : IoResult) (h : d.view n = none) :
    (Async.removeDb env n io d).1 = .ok false ∧ (Sync.removeDb env n io d).1 = .err (.httpErrorCode 410) := by
  simp only [Daemon.view, Option.map_eq_none_iff] at h
  simp only [Async.removeDb, Sync.removeDb, request, Daemon.handle, Request.route, Daemon.exec, Daemon.removeDb,
    Daemon.invalidate, Dbs.removeDb, h]
  exact ⟨rfl, rfl⟩

/-- C57 is violated: `get_store` for a database that does not exist gives different errors, and only the
sync client asks the daemon. -/
theorem C57_refuted_get_store (env : Env) (n : List Char) :
    (Async.getStore env n {}).1 = .err .builder ∧ (Sync.getStore env n {}).1 = .err (.httpErrorCode 410) :=
  ⟨rfl, rfl⟩

/-- C52 for the sync client. -/
theorem C52_write_read_sync_partial {env : Env} (hlz : env.lz.Lossless) (hb : HashOrder env.byteOrd)
    (hord : HashOrder env.mapOrd) (before : List Happening) (n k : List Char) (create overwrite : Bool) (v : Value)
    (hv : Faithful env none v) (hlen : ∀ bytes, Value.ser env none v = .ok bytes → bytes.length < 2 ^ 64)
    {c : CreationResult}
    (e : (Sync.addEntryToDb env n create overwrite k v (Daemon.history env {} before)).1 = .ok c) (hc : c.Wrote)
    (since : List Happening) (hno : ∀ x ∈ since, ¬ x.Touches n k) :
    ∃ w, ((Sync.addEntryToDb env n create overwrite k v (Daemon.history env {} before)).2.history env since).Fetches
      env n k w ∧ SameAs v w := by
  rw [← (C57_agree_partial env).2.2.2.2.1] at e ⊢
  exact C52_write_read_partial hlz hb hord before n k create overwrite v hv hlen e hc since hno

end Souris
