import Verif.Spec.Forward
import Verif.Props.Concurrent

/-! # C110: whole-database reads do not go back in time -/

namespace Souris

/-- What a task that reads the database `n` with the lock knows is the present. -/
structure Fresh (env : Env) (n : List Char) (c : Conf) : Prop where
  acted : ∀ t r, c.tasks t = some (.getDb n, .acted r) → Dbs.getDb env n c.dbs = r
  cached : ∀ t r, c.tasks t = some (.getDb n, .cached r) → Dbs.getDb env n c.dbs = r ∧
    ∀ b, AMap.get n c.cache = some b → r = .bytes b

/-- While a task holds the lock, the others change no database and put nothing into the cache. -/
theorem Step.others {env : Env} {c c' : Conf} {e : Ev} {evs : List Ev} (hs : Step env c e c') (ti : TaskInv c evs)
    {t : Nat} {op : Op} {pc : Pc} (ht : c'.tasks t = some (op, pc)) (hp : pc.holds) (he : e.task ≠ some t) :
    c.tasks t = some (op, pc) ∧ c'.dbs = c.dbs ∧
      ∀ n b, AMap.get n c'.cache = some b → AMap.get n c.cache = some b := by
  have herase : ∀ m n b, AMap.get n (AMap.erase m c.cache) = some b → AMap.get n c.cache = some b := by
    intro m n b hb
    rw [AMap.get_erase] at hb
    split at hb
    · cases hb
    · exact hb
  have htask : c.tasks t = some (op, pc) := by
    rcases hs.moves with ⟨-, h1, -⟩ | ⟨u, op', pc', h1, h2, -⟩
    · rw [← h1]; exact ht
    · rw [h1] at he
      have hne : t ≠ u := fun e => he (by rw [e])
      rw [h2] at ht
      simpa [hne] using ht
  have hlock := ti.exclusive t op pc htask hp
  have hno : ∀ u op' pc', c.tasks u = some (op', pc') → pc'.holds → u = t := by
    intro u op' pc' h1 h2
    have := ti.exclusive u op' pc' h1 h2
    rw [hlock] at this
    exact (Option.some.inj this).symm
  refine ⟨htask, ?_⟩
  cases hs with
  | act h => exact absurd (hno _ _ _ h trivial) (fun e => he (by rw [← e]; rfl))
  | fill h => exact absurd (hno _ _ _ h trivial) (fun e => he (by rw [← e]; rfl))
  | invalidate h hi => exact ⟨rfl, herase _⟩
  | uncache h => exact ⟨rfl, herase _⟩
  | evict m => exact ⟨rfl, herase _⟩
  | _ => exact ⟨rfl, fun _ _ h => h⟩

theorem Fresh.step {env : Env} {n : List Char} {c c' : Conf} {e : Ev} {evs : List Ev} (h : Fresh env n c)
    (ti : TaskInv c evs) (hs : Step env c e c') : Fresh env n c' where
  acted := by
    intro t r ht
    by_cases he : e.task = some t
    · cases hs with
      | act h1 =>
        cases he
        simp only [Conf.set, if_true, Option.some.injEq, Prod.mk.injEq, Pc.acted.injEq] at ht
        obtain ⟨rfl, rfl⟩ := ht
        rfl
      | evict m => cases he
      | _ => cases he; simp [Conf.set] at ht
    · obtain ⟨h1, h2, -⟩ := hs.others ti ht trivial he
      rw [h2]
      exact h.acted t r h1
  cached := by
    intro t r ht
    by_cases he : e.task = some t
    · cases hs with
      | @fill _ m b h1 =>
        cases he
        simp only [Conf.set, if_true, Option.some.injEq, Prod.mk.injEq, Op.getDb.injEq, Pc.cached.injEq] at ht
        obtain ⟨rfl, rfl⟩ := ht
        refine ⟨h.acted t _ h1, ?_⟩
        intro b' hb'
        have hb' : AMap.get m (AMap.insert m b c.cache) = some b' := hb'
        rw [AMap.get_insert] at hb'
        simpa using hb'
      | evict m => cases he
      | _ => cases he; simp [Conf.set] at ht
    · obtain ⟨h1, h2, h3⟩ := hs.others ti ht trivial he
      obtain ⟨h4, h5⟩ := h.cached t r h1
      rw [h2]
      exact ⟨h4, fun b hb => h5 b (h3 n b hb)⟩

theorem Run.fresh {env : Env} {dbs : Dbs} {tr : Trace} (h : Run env (Conf.init dbs) tr) (n : List Char) :
    Fresh env n (Trace.last (Conf.init dbs) tr) := by
  induction h with
  | nil => exact ⟨fun t r ht => (by cases ht), fun t r ht => (by cases ht)⟩
  | @snoc tr e c' h hs ih =>
    rw [Trace.last_snoc]
    exact ih.step h.taskInv hs

theorem Conf.Writes.of {env : Env} {n : List Char} {b : List UInt8} {c : Conf} (h : Dbs.getDb env n c.dbs = .bytes b) :
    c.Writes env n b := by
  unfold Dbs.getDb at h
  cases hn : AMap.get n c.dbs with
  | none => simp [hn] at h
  | some s =>
    simp only [hn] at h
    cases hs : Store.ser env s with
    | ok b' => simp only [hs, Reply.bytes.injEq] at h; subst h; exact ⟨s, hn, hs⟩
    | err _ => simp [hs] at h
    | panic _ => simp [hs] at h

/-- What comes into the cache is the present. -/
theorem Step.cacheNow {env : Env} {n : List Char} {c c' : Conf} {e : Ev} (h : Fresh env n c) (hs : Step env c e c')
    {b : List UInt8} (hb : AMap.get n c'.cache = some b) : AMap.get n c.cache = some b ∨ c.Writes env n b := by
  have herase : ∀ m, AMap.get n (AMap.erase m c.cache) = some b → AMap.get n c.cache = some b := by
    intro m hb
    rw [AMap.get_erase] at hb
    split at hb
    · cases hb
    · exact hb
  cases hs with
  | @fill t m b' h1 =>
    have hb : AMap.get n (AMap.insert m b' c.cache) = some b := hb
    rw [AMap.get_insert] at hb
    split at hb
    · next hm => cases hb; subst hm; exact .inr (.of (h.acted t _ h1))
    · exact .inl hb
  | invalidate h hi => exact .inl (herase _ hb)
  | uncache h => exact .inl (herase _ hb)
  | evict m => exact .inl (herase _ hb)
  | _ => exact .inl hb

/-- An answer is what is in the cache, or the present, and then nothing older is in the cache. -/
theorem Step.givesNow {env : Env} {n : List Char} {c c' : Conf} {t : Nat} {b : List UInt8} {pc : Pc} (h : Fresh env n c)
    (hs : Step env c (.ret t (.bytes b)) c') (ht : c.tasks t = some (.getDb n, pc)) :
    c'.cache = c.cache ∧ (AMap.get n c.cache = some b ∨
      (c.Writes env n b ∧ ∀ b', AMap.get n c.cache = some b' → b' = b)) := by
  generalize he : Ev.ret t (.bytes b) = e at hs
  cases hs with
  | hit h1 hc =>
    cases he
    rw [ht] at h1
    cases h1
    exact ⟨rfl, .inl hc⟩
  | ret h1 hr =>
    cases he
    rw [ht] at h1
    cases h1
    refine ⟨rfl, .inr ?_⟩
    rcases hr with rfl | ⟨-, hr⟩
    · obtain ⟨h2, h3⟩ := h.cached t _ ht
      exact ⟨.of h2, fun b' hb' => (Reply.bytes.inj (h3 b' hb')).symm⟩
    · exact absurd rfl (hr b)
  | unlink h1 =>
    rw [Ev.ret.injEq] at he
    rw [← he.1, ht] at h1
    cases h1
  | _ => cases he

theorem Trace.confs_length (c : Conf) (tr : Trace) : (confs c tr).length = tr.length + 1 := by simp [confs]

theorem Trace.confs_last (c : Conf) (tr : Trace) : (confs c tr)[tr.length]? = some (last c tr) := by
  rcases List.eq_nil_or_concat tr with rfl | ⟨tr', ⟨e, c'⟩, rfl⟩
  · rfl
  · rw [List.concat_eq_append, Trace.last_snoc, Trace.confs_snoc]
    rw [List.getElem?_append_right (by simp [confs])]
    simp [confs]

/-- C110, for the answers with contents: under every interleaving the answers to `get_db` of one database, in the order in
which they are given, are its contents at moments that do not go back, each one not later than the answer. -/
theorem C110_forward_partial {env : Env} {dbs : Dbs} {tr : Trace} (h : Run env (Conf.init dbs) tr) (n : List Char) :
    ∃ moment : Nat → Nat,
      (∀ i b, tr.Gives n i b → moment i ≤ i ∧
        ∃ y, (Trace.confs (Conf.init dbs) tr)[moment i]? = some y ∧ y.Writes env n b) ∧
      ∀ i j b b', i ≤ j → tr.Gives n i b → tr.Gives n j b' → moment i ≤ moment j := by
  suffices hh : ∃ (moment : Nat → Nat) (low : Nat), low ≤ tr.length ∧
      (∀ i b, tr.Gives n i b → moment i ≤ low ∧ moment i ≤ i ∧
        ∃ y, (Trace.confs (Conf.init dbs) tr)[moment i]? = some y ∧ y.Writes env n b) ∧
      (∀ i j b b', i ≤ j → tr.Gives n i b → tr.Gives n j b' → moment i ≤ moment j) ∧
      ∀ b, AMap.get n (Trace.last (Conf.init dbs) tr).cache = some b → ∃ v, low ≤ v ∧ v ≤ tr.length ∧
        ∃ y, (Trace.confs (Conf.init dbs) tr)[v]? = some y ∧ y.Writes env n b by
    obtain ⟨f, low, -, h1, h2, -⟩ := hh
    exact ⟨f, fun i b hi => (h1 i b hi).2, h2⟩
  induction h with
  | nil =>
    refine ⟨fun _ => 0, 0, Nat.le_refl _, ?_, ?_, ?_⟩
    · rintro i b ⟨t, ht, -⟩; simp [Trace.events] at ht
    · intros; exact Nat.le_refl _
    · intro b hb; cases hb
  | @snoc tr e c' hrun hs ih =>
    obtain ⟨f, low, hlow, ih1, ih2, ih3⟩ := ih
    have hlast := Trace.confs_last (Conf.init dbs) tr
    have ti := hrun.taskInv
    have hfr := hrun.fresh n
    rw [Trace.last_snoc, Trace.confs_snoc]
    have hkeep : ∀ v b, v ≤ tr.length → (∃ y, (Trace.confs (Conf.init dbs) tr)[v]? = some y ∧ y.Writes env n b) →
        ∃ y, (Trace.confs (Conf.init dbs) tr ++ [c'])[v]? = some y ∧ y.Writes env n b := by
      rintro v b hv ⟨y, hy, hw⟩
      refine ⟨y, ?_, hw⟩
      rw [List.getElem?_append_left (by rw [Trace.confs_length]; omega)]
      exact hy
    have hlen : tr.events.length = tr.length := by simp [Trace.events]
    have hold : ∀ i b, (tr ++ [(e, c')]).Gives n i b → i < tr.length → tr.Gives n i b := by
      rintro i b ⟨t, ht, hc⟩ hi
      rw [Trace.events_snoc, List.getElem?_append_left (by omega)] at ht
      rw [Trace.events_snoc] at hc
      refine ⟨t, ht, (List.mem_append.mp hc).resolve_right ?_⟩
      intro he
      rw [List.mem_singleton] at he
      obtain ⟨op, h1⟩ := ti.returned t _ (List.mem_of_getElem? ht)
      rw [← he] at hs
      cases hs with
      | call _ h2 => rw [h1] at h2; cases h2
    have hnew : ∀ i b, (tr ++ [(e, c')]).Gives n i b → ¬ i < tr.length → i = tr.length ∧
        ∃ t pc, e = .ret t (.bytes b) ∧ (Trace.last (Conf.init dbs) tr).tasks t = some (.getDb n, pc) := by
      rintro i b ⟨t, ht, hc⟩ hi
      rw [Trace.events_snoc, List.getElem?_append_right (by omega)] at ht
      have hi0 : i - tr.events.length = 0 := by
        by_contra hne
        rw [List.getElem?_eq_none (by simp; omega)] at ht
        cases ht
      rw [hi0] at ht
      simp only [List.getElem?_cons_zero, Option.some.injEq] at ht
      rw [Trace.events_snoc] at hc
      have hc' : .call t (.getDb n) ∈ tr.events := (List.mem_append.mp hc).resolve_right (by simp [ht])
      obtain ⟨pc, hpc⟩ := ti.running t _ hc'
      exact ⟨by omega, t, pc, ht, hpc⟩
    -- the moment of a new answer, if there is one
    have hval : ∃ low', low ≤ low' ∧ low' ≤ tr.length ∧
        (∀ i b, (tr ++ [(e, c')]).Gives n i b → ¬ i < tr.length →
          ∃ y, (Trace.confs (Conf.init dbs) tr)[low']? = some y ∧ y.Writes env n b) ∧
        ∀ b, AMap.get n c'.cache = some b → ∃ v, low' ≤ v ∧ v ≤ tr.length ∧
          ∃ y, (Trace.confs (Conf.init dbs) tr)[v]? = some y ∧ y.Writes env n b := by
      by_cases hg : ∃ b t pc, e = .ret t (.bytes b) ∧ (Trace.last (Conf.init dbs) tr).tasks t = some (.getDb n, pc)
      · obtain ⟨b, t, pc, rfl, ht⟩ := hg
        obtain ⟨hc, h1⟩ := hs.givesNow hfr ht
        have hb : ∀ i b', (tr ++ [(Ev.ret t (.bytes b), c')]).Gives n i b' → ¬ i < tr.length → b' = b := by
          intro i b' hi hlt
          obtain ⟨-, t', pc', he, -⟩ := hnew i b' hi hlt
          cases he; rfl
        rcases h1 with h1 | ⟨h1, h2⟩
        · obtain ⟨v, hv1, hv2, hv3⟩ := ih3 b h1
          refine ⟨v, hv1, hv2, fun i b' hi hlt => by rw [hb i b' hi hlt]; exact hv3, ?_⟩
          intro b' hb'
          rw [hc, h1] at hb'
          cases hb'
          exact ⟨v, Nat.le_refl _, hv2, hv3⟩
        · refine ⟨tr.length, hlow, Nat.le_refl _, fun i b' hi hlt => by rw [hb i b' hi hlt]; exact ⟨_, hlast, h1⟩, ?_⟩
          intro b' hb'
          rw [hc] at hb'
          rw [h2 b' hb']
          exact ⟨tr.length, Nat.le_refl _, Nat.le_refl _, _, hlast, h1⟩
      · refine ⟨low, Nat.le_refl _, hlow, ?_, ?_⟩
        · intro i b hi hlt
          obtain ⟨-, t, pc, he, ht⟩ := hnew i b hi hlt
          exact absurd ⟨b, t, pc, he, ht⟩ hg
        · intro b hb
          rcases hs.cacheNow hfr hb with h1 | h1
          · exact ih3 b h1
          · exact ⟨tr.length, hlow, Nat.le_refl _, _, hlast, h1⟩
    obtain ⟨low', hl1, hl2, hl3, hl4⟩ := hval
    refine ⟨fun i => if i < tr.length then f i else low', low', by simp; omega, ?_, ?_, ?_⟩
    · intro i b hi
      by_cases hlt : i < tr.length
      · obtain ⟨h1, h2, h3⟩ := ih1 i b (hold i b hi hlt)
        simp only [hlt, if_true]
        exact ⟨by omega, h2, hkeep _ _ (by omega) h3⟩
      · simp only [hlt, if_false]
        exact ⟨Nat.le_refl _, by omega, hkeep _ _ hl2 (hl3 i b hi hlt)⟩
    · intro i j b b' hij hi hj
      by_cases hlt : j < tr.length
      · have hlt' : i < tr.length := by omega
        simp only [hlt, hlt', if_true]
        exact ih2 i j b b' hij (hold i b hi hlt') (hold j b' hj hlt)
      · by_cases hlt' : i < tr.length
        · simp only [hlt, hlt', if_true, if_false]
          exact Nat.le_trans (ih1 i b (hold i b hi hlt')).1 hl1
        · simp only [hlt, hlt', if_false]
          exact Nat.le_refl _
    · intro b hb
      obtain ⟨v, h1, h2, h3⟩ := hl4 b hb
      exact ⟨v, h1, by simp; omega, hkeep _ _ h2 h3⟩

/-- C110 is violated when an answer says that there is no such database: whatever a database `n` holds, `rm_db` of it can be
answered, then `get_db` with the answer that there is none, and a `get_db` that is called after both, while the database is
still gone, with all that was in it. -/
theorem C110_refuted_gone {env : Env} (n : List Char) {s : Store} {b : List UInt8} (hb : Store.ser env s = .ok b) :
    ∃ (trA trB : Trace) (x : Conf),
      Run env (Conf.init [(n, s)]) (trA ++ (.ret 0 (.error .databaseNotFound), x) :: trB) ∧
      .call 0 (.getDb n) ∈ trA.events ∧ .call 1 (.removeDb n .done) ∈ trA.events ∧ .ret 1 (.status 200) ∈ trA.events ∧
      trB.events = [.call 3 (.getDb n), .ret 3 (.bytes b)] ∧
      ∀ c ∈ Trace.confs x trB, c.dbs = [] := by
  have hget : AMap.get n [(n, s)] = some s := by simp [AMap.get]
  have hg : Dbs.getDb env n [(n, s)] = .bytes b := by simp only [Dbs.getDb, hget, hb]
  have hrm : Op.act env (.removeDb n .done) [(n, s)] = (.status 200, []) := by
    simp [Op.act, Dbs.removeDb, AMap.get, AMap.erase]
  have hins : AMap.get n (AMap.insert n b []) = some b := by simp [AMap.get, AMap.insert]
  refine ⟨[(.call 0 (.getDb n), _), (.miss 0, _), (.call 1 (.removeDb n .done), _), (.invalidate 1, _),
      (.call 2 (.getDb n), _), (.miss 2, _), (.acquire 2, _), (.act 2, _), (.fill 2 n, _), (.ret 2 (.bytes b), _),
      (.acquire 1, _), (.act 1, _), (.drop 1, _), (.ret 1 (.status 200), _), (.acquire 0, _), (.act 0, _)],
    [(.call 3 (.getDb n), _), (.ret 3 (.bytes b), _)], _,
    .cons (.call (.getDb n) rfl) (.cons (.miss rfl rfl) (.cons (.call (.removeDb n .done) rfl)
      (.cons (.invalidate rfl rfl) (.cons (.call (.getDb n) rfl) (.cons (.miss rfl rfl)
      (.cons (.acquire (t := 2) (op := .getDb n) (pc := .missed) rfl rfl rfl) (.cons (.act (t := 2) (op := .getDb n) rfl)
      (.cons (.fill (t := 2) (b := b) ?_) (.cons (.ret (t := 2) (op := .getDb n) (pc := .cached (.bytes b)) rfl (.inl rfl))
      (.cons (.acquire (t := 1) (op := .removeDb n .done) (pc := .invalidated) rfl rfl rfl)
      (.cons (.act (t := 1) (op := .removeDb n .done) rfl) (.cons (.drop (t := 1) (n := n) (io := .done) ?_)
      (.cons (.unlink (t := 1) (n := n) (io := .done) rfl)
      (.cons (.acquire (t := 0) (op := .getDb n) (pc := .missed) rfl rfl rfl) (.cons (.act (t := 0) (op := .getDb n) rfl)
      (.cons (.ret (t := 0) (op := .getDb n) (pc := .acted (.error .databaseNotFound)) ?_ (.inr ⟨rfl, by simp⟩))
      (.cons (.call (.getDb n) rfl) (.cons (.hit (t := 3) (n := n) (b := b) rfl ?_) .nil)))))))))))))))))),
    ?_, ?_, ?_, rfl, ?_⟩
  · show some (Op.getDb n, Pc.acted (Dbs.getDb env n [(n, s)])) = _
    rw [hg]
  · show some (Op.removeDb n .done, Pc.acted (Op.act env (.removeDb n .done) [(n, s)]).1) = _
    rw [hrm]
  · show some (Op.getDb n, Pc.acted (Dbs.getDb env n (Op.act env (.removeDb n .done) [(n, s)]).2)) = _
    rw [hrm]
    rfl
  · exact hins
  · simp [Trace.events]
  · simp [Trace.events]
  · simp [Trace.events]
  · intro c hc
    simp only [Trace.confs, List.map_cons, List.map_nil, List.mem_cons, List.not_mem_nil, or_false] at hc
    rcases hc with rfl | rfl | rfl <;> exact congrArg Prod.snd hrm

/-- Two answers, the second one from the cache, after a key was added that the cached copy does not have: the moment of the
second is that of the first. -/
example {env : Env} (n k : List Char) {s : Store} {b : List UInt8} (hb : Store.ser env s = .ok b) :
    ∃ tr : Trace, Run env (Conf.init [(n, s)]) tr ∧ tr.Gives n 7 b ∧ tr.Gives n 12 b := by
  have hget : AMap.get n [(n, s)] = some s := by simp [AMap.get]
  have hg : Dbs.getDb env n [(n, s)] = .bytes b := by simp only [Dbs.getDb, hget, hb]
  have hins : AMap.get n (AMap.insert n b []) = some b := by simp [AMap.get, AMap.insert]
  refine ⟨[(.call 0 (.getDb n), _), (.call 1 (.addKv n k false true .null), _), (.invalidate 1, _), (.miss 0, _),
      (.acquire 0, _), (.act 0, _), (.fill 0 n, _), (.ret 0 (.bytes b), _), (.acquire 1, _), (.act 1, _),
      (.ret 1 (Op.act env (.addKv n k false true .null) [(n, s)]).1, _), (.call 2 (.getDb n), _), (.ret 2 (.bytes b), _)],
    .cons (.call (.getDb n) rfl) (.cons (.call (.addKv n k false true .null) rfl) (.cons (.invalidate rfl rfl)
      (.cons (.miss (t := 0) (n := n) rfl rfl) (.cons (.acquire (t := 0) (op := .getDb n) (pc := .missed) rfl rfl rfl)
      (.cons (.act (t := 0) (op := .getDb n) rfl) (.cons (.fill (t := 0) (b := b) ?_)
      (.cons (.ret (t := 0) (op := .getDb n) (pc := .cached (.bytes b)) rfl (.inl rfl))
      (.cons (.acquire (t := 1) (op := .addKv n k false true .null) (pc := .invalidated) rfl rfl rfl)
      (.cons (.act (t := 1) (op := .addKv n k false true .null) rfl)
      (.cons (.ret (t := 1) (op := .addKv n k false true .null)
        (pc := .acted (Op.act env (.addKv n k false true .null) [(n, s)]).1) rfl rfl)
      (.cons (.call (.getDb n) rfl) (.cons (.hit (t := 2) (n := n) (b := b) rfl ?_) .nil)))))))))))), ?_, ?_⟩
  · show some (Op.getDb n, Pc.acted (Dbs.getDb env n [(n, s)])) = _
    rw [hg]
  · exact hins
  · exact ⟨0, rfl, by simp [Trace.events]⟩
  · exact ⟨2, rfl, by simp [Trace.events]⟩

end Souris
