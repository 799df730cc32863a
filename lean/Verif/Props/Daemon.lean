import Verif.Lemmas.Daemon
import Verif.Props.Store

/-! # The daemon: C37 (map of maps), C41-C44 (results, statuses, names, isolation), C50 (statuses) -/

namespace Souris

/-! ## C37 -/

theorem Store.ser_total (env : Env) (hb : HashOrder env.byteOrd) (hc : HashOrder env.charOrd) (s : Store) :
    ∃ b, Store.ser env s = .ok b := by
  obtain ⟨h, mb, ct, comp, e1, _⟩ := ser_shape env hb hc s
  exact ⟨_, e1⟩

/-- C37, for a single operation: in a daemon whose cache agrees with its databases the reply is that of
the map of maps. -/
theorem exec_answers {env : Env} (hb : HashOrder env.byteOrd) (hc : HashOrder env.charOrd) {d : Daemon}
    (h : DbsOk d.dbs) (hcache : CacheOk env d) (op : Op) : d.view.Answers env op (d.exec env op).1 := by
  have hview : d.view = absDbs d.dbs := rfl
  rw [hview]
  cases op with
  | newDb n o =>
    simp only [Abs.Answers, Daemon.exec, Daemon.newDb]
    by_cases hbad : badName n
    · rw [if_pos hbad, if_neg ((badName_iff n).mp hbad)]
    · have hg : Abs.GoodName n := by
        by_contra hg
        exact hbad ((badName_iff n).mpr hg)
      rw [if_neg hbad, if_pos hg]
      simp only [Dbs.newDb]
      cases hn : AMap.get n d.dbs with
      | none => simp [absDbs, hn]
      | some s => simp [absDbs, hn]
  | newDbWith n o c =>
    simp only [Abs.Answers, Daemon.exec, Daemon.newDbWith, Dbs.newDbWith]
    split
    · exact .inr rfl
    · exact .inl rfl
  | clearDb n =>
    simp only [Abs.Answers, Daemon.exec, Daemon.clearDb, Daemon.invalidate, Dbs.clearDb]
    cases hn : AMap.get n d.dbs with
    | none => simp [absDbs, hn]
    | some s => simp [absDbs, hn]
  | removeDb n io =>
    simp only [Abs.Answers, Daemon.exec, Daemon.removeDb, Daemon.invalidate, Dbs.removeDb]
    cases hn : AMap.get n d.dbs with
    | none => simp [absDbs, hn]
    | some s => cases io <;> simp [absDbs, hn, afterUnlink]
  | getDb n =>
    simp only [Abs.Answers, Daemon.exec, Daemon.getDb, absDbs]
    cases hx : AMap.get n d.cache with
    | some b =>
      obtain ⟨s, hs, e⟩ := hcache n b hx
      simp only [hs, Option.map_some]
      exact ⟨s, b, rfl, e, absDb_lists (h.store hs)⟩
    | none =>
      cases hs : AMap.get n d.dbs with
      | none => simp [Dbs.getDb, hs]
      | some s =>
        obtain ⟨b, e⟩ := Store.ser_total env hb hc s
        simp only [Option.map_some, Dbs.getDb, hs, e]
        exact ⟨s, b, rfl, e, absDb_lists (h.store hs)⟩
  | addKv n k c o v =>
    simp only [Abs.Answers, Daemon.exec, Daemon.addKv, Daemon.invalidate, Dbs.addKv, absDbs]
    cases AMap.get n d.dbs with
    | none => cases c <;> rfl
    | some s =>
      simp only [Option.map_some]
      have hk : absDb s k = AMap.get k s := rfl
      rw [hk]
      cases AMap.get k s with
      | none => rfl
      | some w => cases o <;> rfl
  | getValue n k =>
    simp only [Abs.Answers, Daemon.exec, Dbs.getValue, absDbs]
    cases AMap.get n d.dbs with
    | none => rfl
    | some s =>
      simp only [Option.map_some]
      have hk : absDb s k = AMap.get k s := rfl
      rw [hk]
      cases AMap.get k s <;> rfl
  | removeKey n k =>
    simp only [Abs.Answers, Daemon.exec, Daemon.removeKey, Daemon.invalidate, Dbs.removeKey, absDbs]
    cases AMap.get n d.dbs with
    | none => rfl
    | some s =>
      simp only [Option.map_some]
      have hk : absDb s k = AMap.get k s := rfl
      rw [hk]
      cases AMap.get k s <;> rfl
  | allNames =>
    refine ⟨_, rfl, h.names, fun n => ?_⟩
    rw [← AMap.get_isSome]
    simp [absDbs]

/-- Routed operations are well formed. -/
theorem route_ok (env : Env) (r : Request) (op : Op) (e : r.route env = .inr op) : op.Ok := by
  cases r with
  | addDbWithContent n o body =>
    simp only [Request.route] at e
    split at e
    · next s hs => exact absurd hs (C33_refuted env body s)
    · cases e
    · cases e
  | addKv n k c o body =>
    simp only [Request.route] at e
    split at e
    · cases e; trivial
    · cases e
    · cases e
  | healthcheck => cases e
  | _ => cases e; trivial

/-- What every history of the daemon satisfies. -/
theorem history_sim {env : Env} (hord : HashOrder env.mapOrd) (hs : List Happening) :
    ∀ d : Daemon, DbsOk d.dbs → CacheOk env d →
      DbsOk (d.history env hs).dbs ∧ CacheOk env (d.history env hs) ∧
      (d.history env hs).view = Abs.afterAll env d.view hs := by
  induction hs with
  | nil => intro d h1 h2; exact ⟨h1, h2, rfl⟩
  | cons x hs ih =>
    intro d h1 h2
    cases x with
    | evict n =>
      have := ih (d.evict n) h1 (fun x b hb => by
        simp only [Daemon.evict, AMap.get_erase] at hb
        split at hb
        · cases hb
        · exact h2 x b hb)
      exact this
    | request r =>
      have hstep : (d.history env (.request r :: hs)) = (d.handle env r).2.history env hs := rfl
      rw [hstep]
      simp only [Abs.afterAll]
      unfold Daemon.handle
      cases e : r.route env with
      | inl reply => exact ih d h1 h2
      | inr op =>
        obtain ⟨h3, h4⟩ := exec_dbs hord h1 (route_ok env r op e)
        have h4' : (d.exec env op).2.view = d.view.after op := h4
        have := ih _ h3 (exec_cache h2 op)
        rw [h4'] at this
        exact this

/-- C37, partial: after any history of requests and evictions, starting from no databases, every
operation gets the reply, and has the effect, that it has on a map of maps. Missing: the status of
`newDbWith` (C42), and that `add_db_with_content` ever gets as far as an operation (it does not,
`C37_refuted_content`). -/
theorem C37_operations_partial {env : Env} (hb : HashOrder env.byteOrd) (hc : HashOrder env.charOrd)
    (hord : HashOrder env.mapOrd) (hs : List Happening) (op : Op) (hop : op.Ok) :
    ((Abs.afterAll env (fun _ => none) hs).Answers env op ((Daemon.history env {} hs).exec env op).1) ∧
    ((Daemon.history env {} hs).exec env op).2.view = (Abs.afterAll env (fun _ => none) hs).after op := by
  obtain ⟨h1, h2, h3⟩ := history_sim hord hs {} DbsOk.nil (by intro n b h; cases h)
  have h3' : (Daemon.history env {} hs).view = Abs.afterAll env (fun _ => none) hs := h3
  rw [← h3']
  exact ⟨exec_answers hb hc h1 h2 op, (exec_dbs hord h1 hop).2⟩

/-- C37, partial: the same for HTTP requests. -/
theorem C37_requests_partial {env : Env} (hb : HashOrder env.byteOrd) (hc : HashOrder env.charOrd)
    (hord : HashOrder env.mapOrd) (hs : List Happening) (r : Request) :
    match r.route env with
    | .inl reply => (Daemon.history env {} hs).handle env r = (reply, Daemon.history env {} hs)
    | .inr op => ((Abs.afterAll env (fun _ => none) hs).Answers env op ((Daemon.history env {} hs).handle env r).1) ∧
      ((Daemon.history env {} hs).handle env r).2.view = (Abs.afterAll env (fun _ => none) hs).after op := by
  cases e : r.route env with
  | inl reply => simp only [Daemon.handle, e]
  | inr op =>
    simp only [Daemon.handle, e]
    exact C37_operations_partial hb hc hord hs op (route_ok env r op e)

/-- C37 is violated: whatever the body of `add_db_with_content`, in particular the bytes of a store, the
reply is an error (or none at all) and no database is created. -/
theorem C37_refuted_content (env : Env) (d : Daemon) (n : List Char) (o : Bool) (body : List UInt8) :
    (d.handle env (.addDbWithContent n o body)).2 = d ∧
    (d.handle env (.addDbWithContent n o body)).1.code ≠ some 200 ∧
    (d.handle env (.addDbWithContent n o body)).1.code ≠ some 201 := by
  unfold Daemon.handle
  simp only [Request.route]
  cases e : Store.deser env body with
  | ok s => exact absurd e (C33_refuted env body s)
  | err e => simp [Reply.code, SourisError.code]
  | panic p => simp [Reply.code]

/-- A history that creates a database, writes a key, loses the cache and writes again. -/
def sampleHistory : List Happening :=
  [.request (.addDb ['d'] false), .request (.addKv ['d'] ['k'] false false [0x90]), .evict ['d'],
   .request (.addKv ['d'] ['k'] false true [0x31])]

-- after it, the key holds `true`, and the database that is read is the new one
example : (((Daemon.history sampleEnv {} sampleHistory).exec sampleEnv (.getValue ['d'] ['k'])).1
    = .value (.boolean true)) := rfl
-- read twice, the second time from the cache
example : ∃ s b, ((Daemon.history sampleEnv {} (sampleHistory ++ [.request (.getDb ['d'])])).exec sampleEnv
    (.getDb ['d'])).1 = .bytes b ∧ Store.ser sampleEnv s = .ok b ∧
    Abs.Lists s (fun k => if k = ['k'] then some (.boolean true) else none) := by
  have h := (C37_operations_partial (env := sampleEnv) (fun _ => .refl _) (fun _ => .refl _) (fun _ => .refl _)
    (sampleHistory ++ [.request (.getDb ['d'])]) (.getDb ['d']) trivial).1
  have e : Abs.afterAll sampleEnv (fun _ => none) (sampleHistory ++ [.request (.getDb ['d'])]) ['d']
      = some (fun k => if k = ['k'] then some (.boolean true) else none) := by
    show some _ = some _
    congr 1
    funext k
    by_cases hk : k = ['k']
    · subst hk; rfl
    · have : ∀ (x : AbsDb) v, Abs.put x ['k'] v k = x k := fun x v => if_neg hk
      show Abs.put _ _ _ k = _
      rw [this]
      show Abs.put _ _ _ k = _
      rw [this, if_neg hk]
      rfl
  simp only [Abs.Answers] at h
  rw [e] at h
  exact h

/-! ## C41 -/

/-- C41: each `CreationResult` tells exactly which situation held; in the three writing cases the key
holds the value afterwards, in the other two nothing has changed. -/
theorem C41_codes {env : Env} (hord : HashOrder env.mapOrd) {d : Daemon} (h : DbsOk d.dbs) (n k : List Char)
    (create overwrite : Bool) (v : Value) :
    ∃ c, (d.exec env (.addKv n k create overwrite v)).1 = .creation c ∧
      (c = .unableToFindDB ↔ d.view n = none ∧ create = false) ∧
      (c = .insertedKeyIntoNewDB ↔ d.view n = none ∧ create = true) ∧
      (c = .insertedKeyIntoExistingDB ↔ ∃ m, d.view n = some m ∧ m k = none) ∧
      (c = .foundExistingKey ↔ overwrite = false ∧ ∃ m w, d.view n = some m ∧ m k = some w) ∧
      (c = .overwroteKeyInExistingDB ↔ overwrite = true ∧ ∃ m w, d.view n = some m ∧ m k = some w) ∧
      (if c = .unableToFindDB ∨ c = .foundExistingKey then
        (d.exec env (.addKv n k create overwrite v)).2.view = d.view
       else (∃ m, (d.exec env (.addKv n k create overwrite v)).2.view n = some m ∧ m k = some v ∧
          ∀ k', k' ≠ k → m k' = (d.view n).bind (· k')) ∧
        ∀ n', n' ≠ n → (d.exec env (.addKv n k create overwrite v)).2.view n' = d.view n') := by
  have hafter : (d.exec env (.addKv n k create overwrite v)).2.view = d.view.after (.addKv n k create overwrite v) :=
    (exec_dbs hord h (op := .addKv n k create overwrite v) trivial).2
  rw [hafter]
  have hview : d.view n = (AMap.get n d.dbs).map absDb := rfl
  simp only [Daemon.exec, Daemon.addKv, Daemon.invalidate, Dbs.addKv, Abs.after, hview]
  cases hn : AMap.get n d.dbs with
  | none =>
    simp only [Option.map_none]
    cases create with
    | false => exact ⟨_, rfl, by simp, by simp, by simp, by simp, by simp, by simp⟩
    | true =>
      refine ⟨_, rfl, by simp, by simp, by simp, by simp, by simp, ?_⟩
      rw [if_neg (by simp)]
      refine ⟨⟨_, by simp only [if_true, Abs.put]; rfl, by simp [Abs.put], fun k' hk' => by simp [Abs.put, hk', Abs.empty]⟩, fun n' hn' => ?_⟩
      simp [Abs.put, hn']
  | some s =>
    simp only [Option.map_some]
    have hk : absDb s k = AMap.get k s := rfl
    cases hv : AMap.get k s with
    | none =>
      have hnone : absDb s k = none := hv
      refine ⟨_, rfl, by simp, by simp, ?_, ?_, ?_, ?_⟩
      · exact ⟨fun _ => ⟨_, rfl, hnone⟩, fun _ => rfl⟩
      · simp [hnone]
      · simp [hnone]
      · rw [if_neg (by simp), hnone, if_neg (by simp)]
        refine ⟨⟨_, by simp only [Abs.put, if_true]; rfl, by simp [Abs.put], fun k' hk' => by simp [Abs.put, hk']⟩, fun n' hn' => ?_⟩
        simp [Abs.put, hn']
    | some w =>
      have hsome : absDb s k = some w := hv
      cases overwrite with
      | false =>
        refine ⟨_, rfl, by simp, by simp, ?_, ?_, ?_, ?_⟩
        · simp [hsome]
        · simp [hsome]
        · simp
        · rw [if_pos (by simp), hsome, if_pos (by simp)]
      | true =>
        refine ⟨_, rfl, by simp, by simp, ?_, ?_, ?_, ?_⟩
        · simp [hsome]
        · simp
        · simp [hsome]
        · rw [if_neg (by simp), hsome, if_neg (by simp)]
          refine ⟨⟨_, by simp only [Abs.put, if_true]; rfl, by simp [Abs.put], fun k' hk' => by simp [Abs.put, hk']⟩, fun n' hn' => ?_⟩
          simp [Abs.put, hn']

-- all five results, from the empty daemon
example : ((Daemon.exec sampleEnv (.addKv ['d'] ['k'] false false .null) {}).1 = .creation .unableToFindDB) ∧
    ((Daemon.exec sampleEnv (.addKv ['d'] ['k'] true false .null) {}).1 = .creation .insertedKeyIntoNewDB) ∧
    ((Daemon.exec sampleEnv (.addKv ['d'] ['j'] false false .null)
      (Daemon.history sampleEnv {} sampleHistory)).1 = .creation .insertedKeyIntoExistingDB) ∧
    ((Daemon.exec sampleEnv (.addKv ['d'] ['k'] false false .null)
      (Daemon.history sampleEnv {} sampleHistory)).1 = .creation .foundExistingKey) ∧
    ((Daemon.exec sampleEnv (.addKv ['d'] ['k'] false true .null)
      (Daemon.history sampleEnv {} sampleHistory)).1 = .creation .overwroteKeyInExistingDB) :=
  ⟨rfl, rfl, rfl, rfl, rfl⟩

/-! ## C42 -/

/-- C42, partial: `add_db` answers 201 exactly when it created the database, 200 exactly when the
database existed, and the database exists afterwards; a name that is refused is answered 400. Missing:
`add_db_with_content`, whose statuses are the wrong way round (`C42_refuted_contents`). -/
theorem C42_add_db_partial (env : Env) (d : Daemon) (n : List Char) (o : Bool) :
    ((d.exec env (.newDb n o)).1.code = some 201 ↔ Abs.GoodName n ∧ d.view n = none) ∧
    ((d.exec env (.newDb n o)).1.code = some 200 ↔ Abs.GoodName n ∧ d.view n ≠ none) ∧
    ((d.exec env (.newDb n o)).1.code = some 400 ↔ ¬ Abs.GoodName n) ∧
    (Abs.GoodName n → (d.exec env (.newDb n o)).2.view n ≠ none) := by
  simp only [Daemon.exec, Daemon.newDb, Daemon.view]
  by_cases hbad : badName n
  · have hg := (badName_iff n).mp hbad
    simp [hbad, hg, Reply.code, SourisError.code]
  · have hg : Abs.GoodName n := by
      by_contra hg
      exact hbad ((badName_iff n).mpr hg)
    rw [if_neg hbad]
    simp only [Daemon.invalidate, Dbs.newDb]
    cases hn : AMap.get n d.dbs with
    | none => simp [hg, Reply.code, AMap.get_insert]
    | some s => cases o <;> simp [hg, Reply.code, AMap.get_insert, hn]

/-- C42 is violated by every call of `new_db_with_contents`: it answers 201 when the database existed and
200 when it had to be created. -/
theorem C42_refuted_contents (env : Env) (d : Daemon) (n : List Char) (o : Bool) (c : Store) :
    (d.exec env (.newDbWith n o c)).1 = .status (if d.view n = none then 200 else 201) ∧
    (d.exec env (.newDbWith n o c)).2.view n ≠ none := by
  simp only [Daemon.exec, Daemon.newDbWith, Daemon.invalidate, Dbs.newDbWith]
  rcases Option.eq_none_or_eq_some (AMap.get n d.dbs) with hn | ⟨s, hn⟩ <;>
    simp [Daemon.view, hn, AMap.get_insert]

/-! ## C43 -/

/-- The requests that ask `add_kv` to create databases. -/
def Request.creates : Request → Prop
  | .addKv _ _ c _ _ => c = true
  | _ => False

/-- C43, partial: in histories without `create_new_database=true` every database has a good name.
Missing: with that flag any name at all is accepted, `C43_refuted_*`. -/
theorem C43_names_partial {env : Env} (hord : HashOrder env.mapOrd) (hs : List Happening)
    (hno : ∀ r, .request r ∈ hs → ¬ r.creates) (n : List Char)
    (h : (Daemon.history env {} hs).view n ≠ none) : Abs.GoodName n := by
  obtain ⟨_, _, h3⟩ := history_sim hord hs {} DbsOk.nil (by intro n b h; cases h)
  rw [h3] at h
  have key : ∀ (hs : List Happening) (a : Abs), (∀ r, .request r ∈ hs → ¬ r.creates) →
      (∀ n, a n ≠ none → Abs.GoodName n) → ∀ n, Abs.afterAll env a hs n ≠ none → Abs.GoodName n := by
    intro hs
    induction hs with
    | nil => intro a _ ha n; exact ha n
    | cons x hs ih =>
      intro a hno ha
      have hno' : ∀ r, .request r ∈ hs → ¬ r.creates := fun r hr => hno r (List.mem_cons_of_mem _ hr)
      cases x with
      | evict m => exact ih a hno' ha
      | request r =>
        simp only [Abs.afterAll]
        cases e : r.route env with
        | inl reply => exact ih a hno' ha
        | inr op =>
          refine ih _ hno' (fun n hn => ?_)
          cases r with
          | healthcheck => cases e
          | getDb m => cases e; exact ha n hn
          | allNames => cases e; exact ha n hn
          | addDb m o =>
            cases e
            simp only [Abs.after] at hn
            split at hn
            · next hg =>
              simp only [Abs.put] at hn
              split at hn
              · next e => rw [e]; exact hg
              · exact ha n hn
            · exact ha n hn
          | addDbWithContent m o body =>
            simp only [Request.route] at e
            split at e
            · next s hs => exact absurd hs (C33_refuted env body s)
            · cases e
            · cases e
          | rmDb m io =>
            cases e
            simp only [Abs.after, Abs.put] at hn
            split at hn
            · exact absurd rfl hn
            · exact ha n hn
          | clearDb m =>
            cases e
            simp only [Abs.after] at hn
            cases hm : a m with
            | some mm =>
              rw [hm] at hn
              simp only [Abs.put] at hn
              split at hn
              · next e => rw [e]; exact ha m (by rw [hm]; simp)
              · exact ha n hn
            | none => rw [hm] at hn; exact ha n hn
          | addKv m k c o body =>
            have hc : c = false := by
              have := hno (.addKv m k c o body) (by simp)
              simpa [Request.creates] using this
            subst hc
            simp only [Request.route] at e
            split at e
            · cases e
              simp only [Abs.after] at hn
              cases hm : a m with
              | some mm =>
                rw [hm] at hn
                simp only at hn
                split at hn
                · exact ha n hn
                · simp only [Abs.put] at hn
                  split at hn
                  · next e => rw [e]; exact ha m (by rw [hm]; simp)
                  · exact ha n hn
              | none =>
                rw [hm] at hn
                simp only [Bool.false_eq_true, if_false] at hn
                exact ha n hn
            · cases e
            · cases e
          | rmKv m k =>
            cases e
            simp only [Abs.after] at hn
            cases hm : a m with
            | some mm =>
              rw [hm] at hn
              simp only [Abs.put] at hn
              split at hn
              · next e => rw [e]; exact ha m (by rw [hm]; simp)
              · exact ha n hn
            | none => rw [hm] at hn; exact ha n hn
          | getValue m k => cases e; exact ha n hn
  exact key hs _ hno (fun n hn => absurd rfl hn) n h

/-- C43 is violated: one `add_kv` creates a database of any name, `meta` for example. -/
theorem C43_refuted_any_name (env : Env) (n k : List Char) :
    (Daemon.history env {} [.request (.addKv n k true false [0x90])]).view n ≠ none := by
  have : (Daemon.history env {} [.request (.addKv n k true false [0x90])]).dbs
      = [(n, Dbs.storeInsert env [] (k, .null))] := rfl
  simp [Daemon.view, this, AMap.get]

theorem C43_refuted_meta (env : Env) :
    (Daemon.history env {} [.request (.addKv "meta".toList ['k'] true false [0x90])]).view "meta".toList ≠ none :=
  C43_refuted_any_name env _ _

example : ¬ Abs.GoodName ['é'] := by simp [Abs.GoodName]
example : Abs.GoodName ['d'] := by decide
example : ∀ r, .request r ∈ sampleHistory → ¬ r.creates := by
  intro r hr
  simp only [sampleHistory, List.mem_cons, Happening.request.injEq, List.not_mem_nil, or_false, reduceCtorEq,
    false_or] at hr
  rcases hr with rfl | rfl | rfl <;> simp [Request.creates]

/-! ## C44 -/

/-- C44: an operation leaves every database that it does not name unchanged. -/
theorem C44_other_databases {env : Env} (hord : HashOrder env.mapOrd) {d : Daemon} (h : DbsOk d.dbs) {op : Op}
    (hop : op.Ok) (n : List Char) (hn : ¬ op.names n) : (d.exec env op).2.view n = d.view n := by
  have hafter : (d.exec env op).2.view = d.view.after op := (exec_dbs hord h hop).2
  rw [hafter]
  cases op <;> simp only [Op.names] at hn <;> simp only [Abs.after]
  case newDb m o => split <;> simp [Abs.put, hn]
  case newDbWith m o c => simp [Abs.put, hn]
  case clearDb m => cases hm : d.view m <;> simp [Abs.put, hn]
  case removeDb m io => simp [Abs.put, hn]
  case addKv m k c o v =>
    cases hm : d.view m with
    | none => simp only; split <;> simp [Abs.put, hn]
    | some mm => simp only; split <;> simp [Abs.put, hn]
  case removeKey m k => cases hm : d.view m <;> simp [Abs.put, hn]

/-- C44: an operation on a key leaves the other keys of the database unchanged. -/
theorem C44_other_keys {env : Env} (hord : HashOrder env.mapOrd) {d : Daemon} (h : DbsOk d.dbs) {op : Op}
    (hop : op.Ok) (n k k' : List Char) (hk : op.onKey k) (hk' : k' ≠ k) :
    ((d.exec env op).2.view n).bind (· k') = (d.view n).bind (· k') := by
  have hafter : (d.exec env op).2.view = d.view.after op := (exec_dbs hord h hop).2
  rw [hafter]
  cases op <;> simp only [Op.onKey] at hk
  case addKv m k2 c o v =>
    subst hk
    simp only [Abs.after]
    cases hm : d.view m with
    | some mm =>
      simp only
      split
      · rfl
      · by_cases hn : n = m
        · subst hn; simp [Abs.put, hk', hm]
        · simp [Abs.put, hn]
    | none =>
      simp only
      split
      · by_cases hn : n = m
        · subst hn; simp [Abs.put, hk', hm, Abs.empty]
        · simp [Abs.put, hn]
      · rfl
  case getValue m k2 => rfl
  case removeKey m k2 =>
    subst hk
    simp only [Abs.after]
    cases hm : d.view m with
    | some mm =>
      by_cases hn : n = m
      · subst hn; simp [Abs.put, hk', hm]
      · simp [Abs.put, hn]
    | none => rfl

/-- C44, partial: a failed operation changes nothing, unless it is `rm_db` and the file system refused to
delete the file. Missing: in that case the database is gone all the same, `C44_refuted_remove`. -/
theorem C44_failed_partial {env : Env} (hb : HashOrder env.byteOrd) (hc : HashOrder env.charOrd)
    (hord : HashOrder env.mapOrd) {d : Daemon} (h : DbsOk d.dbs) (hcache : CacheOk env d) {op : Op} (hop : op.Ok)
    (hio : ∀ n, op ≠ .removeDb n .failed) (hf : (d.exec env op).1.Failed) :
    (d.exec env op).2.view = d.view := by
  have hafter : (d.exec env op).2.view = d.view.after op := (exec_dbs hord h hop).2
  have hans := exec_answers hb hc h hcache op
  rw [hafter]
  generalize (d.exec env op).1 = r at hans hf
  cases op <;> simp only [Abs.Answers] at hans <;> simp only [Abs.after]
  case newDb n o =>
    split
    · next hg =>
      rw [if_pos hg] at hans
      subst hans
      simp only [Reply.Failed] at hf
      split at hf <;> omega
    · rfl
  case newDbWith n o c =>
    exfalso
    rcases hans with rfl | rfl <;> simp [Reply.Failed] at hf
  case clearDb n =>
    cases hn : d.view n with
    | none => rfl
    | some m =>
      rw [hn] at hans
      simp at hans
      subst hans
      simp [Reply.Failed] at hf
  case removeDb n io =>
    cases hn : d.view n with
    | none => rw [put_self _ _ _ hn]
    | some m =>
      rw [hn] at hans
      have : io ≠ .failed := by rintro rfl; exact hio n rfl
      simp [this] at hans
      subst hans
      simp [Reply.Failed] at hf
  case addKv n k c o v =>
    cases hn : d.view n with
    | none =>
      rw [hn] at hans
      cases c with
      | false => rfl
      | true => simp at hans; subst hans; simp [Reply.Failed] at hf
    | some m =>
      rw [hn] at hans
      simp only at hans
      cases hk : m k with
      | none => rw [hk] at hans; simp at hans; subst hans; simp [Reply.Failed] at hf
      | some w =>
        rw [hk] at hans
        cases o with
        | false => simp [hk]
        | true => simp at hans; subst hans; simp [Reply.Failed] at hf
  case removeKey n k =>
    cases hn : d.view n with
    | none => rfl
    | some m =>
      rw [hn] at hans
      simp only at hans
      cases hk : m k with
      | none =>
        simp only
        rw [put_self m _ _ hk, put_self _ _ _ hn]
      | some w => rw [hk] at hans; simp at hans; subst hans; simp [Reply.Failed] at hf

/-- C44 is violated: when the file cannot be deleted, `rm_db` fails with status 500, but the database is
gone. -/
theorem C44_refuted_remove (env : Env) (d : Daemon) (n : List Char) (h : d.view n ≠ none) :
    (d.exec env (.removeDb n .failed)).1.code = some 500 ∧ (d.exec env (.removeDb n .failed)).2.view n = none := by
  simp only [Daemon.exec, Daemon.removeDb, Daemon.invalidate, Dbs.removeDb]
  simp only [Daemon.view] at h
  cases hn : AMap.get n d.dbs with
  | none => rw [hn] at h; simp at h
  | some s =>
    refine ⟨rfl, ?_⟩
    simp [Daemon.view, AMap.get_erase]

-- an operation on `['k']` in a database with that key, and another database
example : let d := Daemon.history sampleEnv {} (sampleHistory ++ [.request (.addDb ['e'] false)])
    (d.exec sampleEnv (.removeKey ['d'] ['k'])).2.view ['e'] = d.view ['e'] ∧
    ¬ (Op.removeKey ['d'] ['k']).names ['e'] ∧ d.view ['e'] ≠ none := by
  refine ⟨rfl, by simp [Op.names], ?_⟩
  intro h; cases h

/-! ## C50 -/

/-- C50: the statuses of errors. -/
theorem C50_table : (Reply.error .databaseNotFound).code = some 410 ∧ (Reply.error .keyNotFound).code = some 400 ∧
    (Reply.error .invalidDatabaseName).code = some 400 ∧ (∀ e, (Reply.error (.storeError e)).code = some 400) ∧
    (∀ e, (Reply.rejected e).code = some 400) ∧ (Reply.error .io).code = some 500 :=
  ⟨rfl, rfl, rfl, fun _ => rfl, fun _ => rfl, rfl⟩

/-- C50, partial: exactly when each error status is answered, for operations other than `add_kv`. Missing:
`add_kv` never answers an error status (`C50_refuted_add_kv`), and `rm_db` may answer 500 though it has
removed the database (`C44_refuted_remove`). -/
theorem C50_statuses_partial {env : Env} (hb : HashOrder env.byteOrd) (hc : HashOrder env.charOrd) {d : Daemon}
    (h : DbsOk d.dbs) (hcache : CacheOk env d) (op : Op) (hop : ∀ n k c o v, op ≠ .addKv n k c o v) :
    ((d.exec env op).1.code = some 410 ↔
      ∃ n, op.names n ∧ d.view n = none ∧ (∀ o, op ≠ .newDb n o) ∧ ∀ o c, op ≠ .newDbWith n o c) ∧
    ((d.exec env op).1.code = some 400 ↔
      (∃ n o, op = .newDb n o ∧ ¬ Abs.GoodName n) ∨
      ∃ n k m, (op = .getValue n k ∨ op = .removeKey n k) ∧ d.view n = some m ∧ m k = none) ∧
    ((d.exec env op).1.code = some 500 ↔ ∃ n, op = .removeDb n .failed ∧ d.view n ≠ none) ∧
    ((d.exec env op).1.code = some 200 ∨ (d.exec env op).1.code = some 201 ∨ (d.exec env op).1.code = some 410 ∨
      (d.exec env op).1.code = some 400 ∨ (d.exec env op).1.code = some 500) := by
  have hans := exec_answers hb hc h hcache op
  generalize (d.exec env op).1 = r at hans
  cases op <;> simp only [Abs.Answers] at hans
  case newDb n o =>
    split at hans
    · next hg =>
      subst hans
      cases d.view n <;> simp [Reply.code, Op.names, hg]
    · next hg => subst hans; simp [Reply.code, SourisError.code, Op.names, hg]
  case newDbWith n o c =>
    rcases hans with rfl | rfl <;> simp [Reply.code, Op.names]
  case clearDb n =>
    cases hn : d.view n with
    | none => rw [hn] at hans; simp at hans; subst hans; simp [Reply.code, SourisError.code, Op.names, hn]
    | some m => rw [hn] at hans; simp at hans; subst hans; simp [Reply.code, Op.names, hn]
  case removeDb n io =>
    cases hn : d.view n with
    | none =>
      rw [hn] at hans
      simp at hans
      subst hans
      simp only [Reply.code, SourisError.code, Op.names]
      refine ⟨⟨fun _ => ⟨n, rfl, hn, by simp, by simp⟩, fun _ => trivial⟩, by simp, ?_, by simp⟩
      constructor
      · simp
      · rintro ⟨m, hm, hne⟩; cases hm; exact absurd hn hne
    | some m =>
      rw [hn] at hans
      cases io <;> simp at hans <;> subst hans <;> simp [Reply.code, SourisError.code, Op.names, hn]
  case getDb n =>
    cases hn : d.view n with
    | none => rw [hn] at hans; simp at hans; subst hans; simp [Reply.code, SourisError.code, Op.names, hn]
    | some m =>
      rw [hn] at hans
      obtain ⟨s, b, rfl, _⟩ := hans
      simp [Reply.code, Op.names, hn]
  case addKv n k c o v => exact absurd rfl (hop n k c o v)
  case getValue n k =>
    cases hn : d.view n with
    | none => rw [hn] at hans; simp at hans; subst hans; simp [Reply.code, SourisError.code, Op.names, hn]
    | some m =>
      rw [hn] at hans
      simp only at hans
      cases hk : m k with
      | none =>
        rw [hk] at hans; simp at hans; subst hans
        simp only [Reply.code, SourisError.code, Op.names]
        refine ⟨by simp [hn], ⟨fun _ => .inr ⟨n, k, m, .inl rfl, hn, hk⟩, fun _ => trivial⟩, by simp, by simp⟩
      | some w =>
        rw [hk] at hans; simp at hans; subst hans
        simp only [Reply.code, Op.names]
        refine ⟨by simp [hn], ⟨by simp, ?_⟩, by simp, by simp⟩
        rintro (⟨_, _, h, _⟩ | ⟨n', k', m', h, h1, h2⟩)
        · cases h
        · rcases h with h | h
          · cases h; rw [hn] at h1; cases h1; rw [hk] at h2; cases h2
          · cases h
  case removeKey n k =>
    cases hn : d.view n with
    | none => rw [hn] at hans; simp at hans; subst hans; simp [Reply.code, SourisError.code, Op.names, hn]
    | some m =>
      rw [hn] at hans
      simp only at hans
      cases hk : m k with
      | none =>
        rw [hk] at hans; simp at hans; subst hans
        simp only [Reply.code, SourisError.code, Op.names]
        refine ⟨by simp [hn], ⟨fun _ => .inr ⟨n, k, m, .inr rfl, hn, hk⟩, fun _ => trivial⟩, by simp, by simp⟩
      | some w =>
        rw [hk] at hans; simp at hans; subst hans
        simp only [Reply.code, Op.names]
        refine ⟨by simp [hn], ⟨by simp, ?_⟩, by simp, by simp⟩
        rintro (⟨_, _, h, _⟩ | ⟨n', k', m', h, h1, h2⟩)
        · cases h
        · rcases h with h | h
          · cases h
          · cases h; rw [hn] at h1; cases h1; rw [hk] at h2; cases h2
  case allNames =>
    obtain ⟨ns, rfl, _⟩ := hans
    simp [Reply.code, Op.names]

/-- C50 is violated: `add_kv` answers 200 whatever happened, even when it found no database. -/
theorem C50_refuted_add_kv (env : Env) (d : Daemon) (n k : List Char) (c o : Bool) (v : Value) :
    (d.exec env (.addKv n k c o v)).1.code = some 200 := rfl

example : ((Daemon.exec sampleEnv (.addKv ['d'] ['k'] false false .null) {}).1.Failed) := .inr rfl

end Souris
