import Verif.Props.Concurrent
import Verif.Props.Names
import Verif.Props.Nesting
import Verif.Props.Lz4Use

/-! # Claims about histories, under concurrency

The claims about histories of requests (one after another) carry over to all interleavings, for every interleaving has
the databases and the replies of such a history. -/

namespace Souris

/-- The requests that the tasks of a run handle. -/
def Asks (env : Env) (tr : Trace) (rs : Nat → Request) : Prop :=
  ∀ t op, .call t op ∈ tr.events → (rs t).route env = .inr op

/-- The tasks whose method was called, in order. -/
def Trace.callers (tr : Trace) : List Nat :=
  tr.events.filterMap fun
    | .call t _ => some t
    | _ => none

/-- The requests of some tasks, one after another. -/
def inOrder (rs : Nat → Request) (ts : List Nat) : List Happening := ts.map fun t => .request (rs t)

theorem mem_callers {tr : Trace} {t : Nat} {op : Op} (h : .call t op ∈ tr.events) : t ∈ tr.callers :=
  List.mem_filterMap.mpr ⟨_, h, rfl⟩

theorem callers_mem {tr : Trace} {t : Nat} (h : t ∈ tr.callers) : ∃ op, .call t op ∈ tr.events := by
  obtain ⟨e, he, h⟩ := List.mem_filterMap.mp h
  cases e with
  | call t' op => cases h; exact ⟨op, he⟩
  | _ => cases h

/-- Only `get_db` sees the cache. -/
theorem exec_uncached (env : Env) {op : Op} (h : op.isGetDb = false) (d : Daemon) :
    (d.exec env op).1 = (Daemon.exec env op ⟨d.dbs, []⟩).1 ∧
    (d.exec env op).2.dbs = (Daemon.exec env op ⟨d.dbs, []⟩).2.dbs := by
  cases op with
  | newDb n o =>
    simp only [Daemon.exec, Daemon.newDb]
    split <;> exact ⟨rfl, rfl⟩
  | removeDb n io =>
    simp only [Daemon.exec, Daemon.removeDb, Daemon.invalidate]
    split <;> exact ⟨rfl, rfl⟩
  | getDb n => cases h
  | _ => exact ⟨rfl, rfl⟩

theorem replay_history {env : Env} {rs : Nat → Request} (S : List (Nat × Op × Reply)) {d : Daemon} {dbs' : Dbs}
    (hops : ∀ x ∈ S, (rs x.1).route env = .inr x.2.1 ∧ x.2.1.isGetDb = false)
    (hr : replay env d.dbs (S.map fun x => x.2.1) = (S.map fun x => x.2.2, dbs')) :
    (Daemon.history env d (inOrder rs (S.map Prod.fst))).dbs = dbs' ∧
    ∀ S₁ x S₂, S = S₁ ++ x :: S₂ →
      ((Daemon.history env d (inOrder rs (S₁.map Prod.fst))).handle env (rs x.1)).1 = x.2.2 := by
  induction S generalizing d with
  | nil =>
    simp only [List.map_nil, replay, Prod.mk.injEq, true_and] at hr
    refine ⟨hr, ?_⟩
    intro S₁ x S₂ e
    simp at e
  | cons y S ih =>
    simp only [List.map_cons, replay, Prod.mk.injEq, List.cons.injEq] at hr
    obtain ⟨⟨h1, h2⟩, h3⟩ := hr
    obtain ⟨e1, e2⟩ := hops y (by simp)
    obtain ⟨c1, c2⟩ := exec_uncached env e2 d
    have hd : d.handle env (rs y.1) = d.exec env y.2.1 := by unfold Daemon.handle; rw [e1]
    have := ih (d := (d.handle env (rs y.1)).2) (fun x hx => hops x (List.mem_cons_of_mem _ hx))
      (by rw [hd, c2, ← h2, ← h3])
    refine ⟨this.1, ?_⟩
    intro S₁ x S₂ e
    cases S₁ with
    | nil =>
      simp only [List.nil_append, List.cons.injEq] at e
      obtain ⟨rfl, rfl⟩ := e
      show (d.handle env (rs y.1)).1 = y.2.2
      rw [hd, c1, h1]
    | cons z S₁ =>
      simp only [List.cons_append, List.cons.injEq] at e
      obtain ⟨rfl, rfl⟩ := e
      exact this.2 S₁ x S₂ rfl

/-- C39, with requests: however the requests to a daemon overlap, some order of them handled one after another gives the
same databases, and to each request that was answered the same answer (except `get_db`); a request that was answered
before another one came is earlier in it. -/
theorem C39_requests {env : Env} {tr : Trace} (h : Run env (Conf.init []) tr) {rs : Nat → Request} (ha : Asks env tr rs) :
    ∃ ts : List Nat, ts.Nodup ∧ ts ⊆ tr.callers ∧
      (Daemon.history env {} (inOrder rs ts)).dbs = (Trace.last (Conf.init []) tr).dbs ∧
      (∀ t r, .ret t r ∈ tr.events → (∀ n, rs t ≠ .getDb n) →
        ∃ ts₁ ts₂, ts = ts₁ ++ t :: ts₂ ∧ ((Daemon.history env {} (inOrder rs ts₁)).handle env (rs t)).1 = r) ∧
      ∀ t r t' op', Before tr.events (.ret t r) (.call t' op') → ∀ ts₁ ts₂, ts = ts₁ ++ t :: ts₂ → t' ∉ ts₁ := by
  obtain ⟨S, hS⟩ := C39_linearizable h
  obtain ⟨h1, h2⟩ := replay_history (rs := rs) S (d := {}) (fun x hx => ⟨ha _ _ (hS.called x hx).1, (hS.called x hx).2⟩)
    hS.legal
  refine ⟨S.map Prod.fst, hS.once, ?_, h1, ?_, ?_⟩
  · intro t ht
    obtain ⟨x, hx, rfl⟩ := List.mem_map.mp ht
    exact mem_callers (hS.called x hx).1
  · intro t r hret hg
    obtain ⟨op, hop⟩ := (Run.taskInv h).returned t r hret
    have hcall := (Run.taskInv h).called t op _ hop
    have hroute := ha t op hcall
    have hgd : op.isGetDb = false := by
      cases op with
      | getDb n =>
        exfalso
        cases hq : rs t with
        | getDb m => exact hg m hq
        | addDbWithContent n o body =>
          rw [hq] at hroute
          simp only [Request.route] at hroute
          split at hroute <;> cases hroute
        | addKv n k c o body =>
          rw [hq] at hroute
          simp only [Request.route] at hroute
          split at hroute <;> cases hroute
        | _ => rw [hq] at hroute; cases hroute
      | _ => rfl
    obtain ⟨S₁, S₂, e⟩ := List.append_of_mem (hS.complete t op r hcall hgd hret)
    exact ⟨S₁.map Prod.fst, S₂.map Prod.fst, by rw [e]; simp, h2 S₁ _ S₂ e⟩
  · intro t r t' op' hb ts₁ ts₂ e
    obtain ⟨S₁, S', e', e1, e2⟩ := List.map_eq_append_iff.mp e
    obtain ⟨x, S₂, e3, e4, e5⟩ := List.map_eq_cons_iff.mp e2
    subst e1
    intro hm
    obtain ⟨y, hy, hyt⟩ := List.mem_map.mp hm
    exact hS.realTime t r t' op' hb S₁ x S₂ (by rw [e', e3]) e4 y hy hyt

/-- The part of a run up to an event. -/
theorem Run.until {env : Env} {c : Conf} {tr : Trace} {e : Ev} (h : Run env c tr) (he : e ∈ tr.events) :
    ∃ tr₁ x tr₂, tr = tr₁ ++ (e, x) :: tr₂ ∧ Run env c (tr₁ ++ [(e, x)]) := by
  obtain ⟨⟨e', x⟩, hm, rfl⟩ := List.mem_map.mp he
  obtain ⟨tr₁, tr₂, rfl⟩ := List.append_of_mem hm
  refine ⟨tr₁, x, tr₂, rfl, ?_⟩
  have : tr₁ ++ (e', x) :: tr₂ = (tr₁ ++ [(e', x)]) ++ tr₂ := by simp
  rw [this] at h
  exact (Run.split _ _ h).1

theorem mem_inOrder {rs : Nat → Request} {ts : List Nat} {r : Request} (h : .request r ∈ inOrder rs ts) :
    ∃ t ∈ ts, rs t = r := by
  obtain ⟨t, ht, e⟩ := List.mem_map.mp h
  exact ⟨t, ht, by cases e; rfl⟩

/-- C59 under concurrency: a value that is served was sent by a request that came before the answer, for this key of
this database. -/
theorem C59_concurrent {env : Env} (hord : HashOrder env.mapOrd) {tr : Trace} (h : Run env (Conf.init []) tr)
    {rs : Nat → Request} (ha : Asks env tr rs) {t : Nat} {n k : List Char} {v : Value} (hq : rs t = .getValue n k)
    (hret : .ret t (.value v) ∈ tr.events) :
    ∃ t' op create overwrite body c', Before tr.events (.call t' op) (.ret t (.value v)) ∧
      rs t' = .addKv n k create overwrite body ∧ Value.deser env none (Cursor.new body) = .ok (v, c') := by
  obtain ⟨tr₁, x, tr₂, e, hrun⟩ := Run.until h hret
  have ha' : Asks env (tr₁ ++ [(.ret t (.value v), x)]) rs := by
    intro t' op hc
    refine ha t' op ?_
    rw [e]
    simp only [Trace.events, List.map_append, List.map_cons, List.map_nil, List.mem_append,
      List.mem_cons] at hc ⊢
    rcases hc with hc | hc | hc
    · exact .inl hc
    · exact .inr (.inl hc)
    · cases hc
  obtain ⟨ts, -, hsub, -, hans, -⟩ := C39_requests hrun ha'
  obtain ⟨ts₁, ts₂, e', hr⟩ := hans t (.value v) (by simp [Trace.events]) (by intro m; rw [hq]; simp)
  rw [hq] at hr
  obtain ⟨create, overwrite, body, c', hm, hd⟩ := C59_served_was_sent hord _ hr
  obtain ⟨t', ht', hq'⟩ := mem_inOrder hm
  obtain ⟨op, hop⟩ := callers_mem (hsub (e' ▸ List.mem_append_left _ ht'))
  refine ⟨t', op, create, overwrite, body, c', ?_, hq', hd⟩
  refine ⟨tr₁.map Prod.fst, .ret t (.value v) :: tr₂.map Prod.fst, by rw [e]; simp [Trace.events], ?_, by simp⟩
  simp only [Trace.events, List.map_append, List.map_cons, List.map_nil, List.mem_append, List.mem_singleton] at hop
  rcases hop with hop | hop
  · exact hop
  · cases hop

/-- C93 under concurrency: a value that is served is nested less deep than the body of a request has bytes that came
before the answer. -/
theorem C93_concurrent_partial {env : Env} (hord : HashOrder env.mapOrd) {tr : Trace} (h : Run env (Conf.init []) tr)
    {rs : Nat → Request} (ha : Asks env tr rs) {t : Nat} {name k : List Char} {v : Value} (hq : rs t = .getValue name k)
    (hret : .ret t (.value v) ∈ tr.events) {n : Nat} (hn : Value.Nested n v) :
    ∃ t' op create overwrite body, Before tr.events (.call t' op) (.ret t (.value v)) ∧
      rs t' = .addKv name k create overwrite body ∧ n < body.length := by
  obtain ⟨t', op, create, overwrite, body, c', hb, hq', e⟩ := C59_concurrent hord h ha hq hret
  refine ⟨t', op, create, overwrite, body, hb, hq', ?_⟩
  have h1 := C93_depth_partial hord e hn
  have h2 := (C27_progress e).2.2
  simp only [Cursor.new] at h1 h2
  omega

/-- C43 under concurrency: a database that is there at any moment was made by an `add_db` with a proper name, or by an
`add_kv` with `create_new_database`. -/
theorem C43_concurrent_partial {env : Env} (hord : HashOrder env.mapOrd) {tr : Trace} (h : Run env (Conf.init []) tr)
    {rs : Nat → Request} (ha : Asks env tr rs) (n : List Char)
    (hn : AMap.get n (Trace.last (Conf.init []) tr).dbs ≠ none) :
    (∃ t ∈ tr.callers, ∃ o, rs t = .addDb n o ∧ Abs.GoodName n) ∨
    ∃ t ∈ tr.callers, ∃ k o body, rs t = .addKv n k true o body := by
  obtain ⟨ts, -, hsub, hdbs, -⟩ := C39_requests h ha
  rcases C43_origin_partial hord (inOrder rs ts) n (by
    intro hv
    apply hn
    rw [← hdbs]
    simpa [Daemon.view] using hv) with ⟨o, hm, hg⟩ | ⟨k, o, body, hm⟩
  · obtain ⟨t, ht, e⟩ := mem_inOrder hm
    exact .inl ⟨t, hsub ht, o, e, hg⟩
  · obtain ⟨t, ht, e⟩ := mem_inOrder hm
    exact .inr ⟨t, hsub ht, k, o, body, e⟩

theorem requests_inOrder (rs : Nat → Request) (ts : List Nat) :
    (inOrder rs ts).filterMap Happening.request? = ts.map rs := by
  induction ts with
  | nil => rfl
  | cons t ts ih => simpa [inOrder, Happening.request?] using ih

theorem sum_subset {f : Nat → Nat} {l l' : List Nat} (hd : l.Nodup) (h : l ⊆ l') : (l.map f).sum ≤ (l'.map f).sum := by
  obtain ⟨m, hp, hs⟩ := List.subperm_of_subset hd h
  rw [← (hp.map f).sum_eq]
  exact (hs.map f).sum_le_sum (by simp)

/-- C80 under concurrency: at any moment what is stored is bounded by what was sent. -/
theorem C80_concurrent_partial {env : Env} (hz : env.lz.Bounded) (hj : env.JsonBounded) (hm : HashOrder env.mapOrd)
    {tr : Trace} (h : Run env (Conf.init []) tr) {rs : Nat → Request} (ha : Asks env tr rs)
    (hr : (Trace.last (Conf.init []) tr).dbs.NoLongRun) :
    Dbs.size env (Trace.last (Conf.init []) tr).dbs ≤
      (tr.callers.map fun t => 2 + (rs t).named + 255 * (rs t).bytes).sum := by
  obtain ⟨ts, hd, hsub, hdbs, -⟩ := C39_requests h ha
  rw [← hdbs] at hr ⊢
  refine (C80_daemon_partial hz hj hm (inOrder rs ts) hr).trans ?_
  rw [requests_inOrder, List.map_map]
  exact sum_subset hd hsub

/-- C80 under concurrency, with the models of serde_json and lz4_flex. -/
theorem C80_lz4_concurrent_partial {env : Env} (hs : env.Serde) (hz : env.Lz4) (hm : HashOrder env.mapOrd)
    {tr : Trace} (h : Run env (Conf.init []) tr) {rs : Nat → Request} (ha : Asks env tr rs)
    (hr : (Trace.last (Conf.init []) tr).dbs.NoLongRun) :
    Dbs.size env (Trace.last (Conf.init []) tr).dbs ≤
      (tr.callers.map fun t => 2 + (rs t).named + 255 * (rs t).bytes).sum :=
  C80_concurrent_partial hz.bounded (serde_bounded hs) hm h ha hr

namespace Overlap

def W : Op := .addKv ['d'] ['k'] true true (.array [.null])
def R : Op := .getValue ['d'] ['k']

/-! Task 0 reads and task 1 writes; the reader comes first but gets the lock second. -/

def c0 : Conf := Conf.init []
def c1 : Conf := c0.set 0 R .start
def c2 : Conf := c1.set 1 W .start
def c3 : Conf := { c2 with cache := AMap.erase ['d'] c2.cache }.set 1 W .invalidated
def c4 : Conf := { c3 with lock := some 1 }.set 1 W .locked
def c5 (env : Env) : Conf := { c4 with dbs := (W.act env c4.dbs).2 }.set 1 W (.acted (W.act env c4.dbs).1)
def c6 (env : Env) : Conf := { c5 env with lock := none }.set 1 W (.done (W.act env c4.dbs).1)
def c7 (env : Env) : Conf := { c6 env with lock := some 0 }.set 0 R .locked
def c8 (env : Env) : Conf :=
  { c7 env with dbs := (R.act env (c7 env).dbs).2 }.set 0 R (.acted (R.act env (c7 env).dbs).1)
def c9 (env : Env) : Conf := { c8 env with lock := none }.set 0 R (.done (R.act env (c7 env).dbs).1)

def tr (env : Env) : Trace :=
  [(.call 0 R, c1), (.call 1 W, c2), (.invalidate 1, c3), (.acquire 1, c4), (.act 1, c5 env),
    (.ret 1 (W.act env c4.dbs).1, c6 env), (.acquire 0, c7 env), (.act 0, c8 env),
    (.ret 0 (R.act env (c7 env).dbs).1, c9 env)]

theorem run (env : Env) : Run env (Conf.init []) (tr env) :=
  .cons (.call R rfl) (.cons (.call W rfl) (.cons (.invalidate rfl rfl) (.cons (.acquire rfl rfl rfl) (.cons (.act rfl)
    (.cons (.ret (pc := .acted _) rfl rfl) (.cons (.acquire rfl rfl rfl) (.cons (.act rfl)
    (.cons (.ret (pc := .acted _) rfl rfl) .nil))))))))

def rs : Nat → Request
  | 0 => .getValue ['d'] ['k']
  | _ => .addKv ['d'] ['k'] true true [0xB2, 0x90]

end Overlap

/-- Two requests that overlap; the value of the later one is served to the earlier one. -/
example : Run sampleEnv (Conf.init []) (Overlap.tr sampleEnv) ∧ Asks sampleEnv (Overlap.tr sampleEnv) Overlap.rs ∧
    .ret 0 (.value (.array [.null])) ∈ (Overlap.tr sampleEnv).events ∧ (Overlap.tr sampleEnv).callers = [0, 1] := by
  refine ⟨Overlap.run sampleEnv, ?_, List.mem_map.mpr ⟨_, List.mem_of_getLast? (l := Overlap.tr sampleEnv) rfl, rfl⟩, rfl⟩
  intro t op h
  simp only [Trace.events, Overlap.tr, List.map_cons, List.map_nil, List.mem_cons, List.not_mem_nil, or_false] at h
  rcases h with h | h | h | h | h | h | h | h | h <;> cases h
  · rfl
  · rfl

end Souris
