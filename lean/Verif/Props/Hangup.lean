import Verif.Spec.Hangup
import Verif.Props.Concurrent

/-! # C108: clients that go away -/

namespace Souris

/-- The databases have not been worked on. -/
def Pc.before : Pc → Prop
  | .start | .missed | .invalidated | .locked => True
  | _ => False

structure WorkInv (env : Env) (dbs : Dbs) (c : Conf) (evs : List Ev) (reqs : List (Nat × Op)) : Prop where
  order : reqs.map Prod.fst = evs.filterMap Ev.worked
  called : ∀ x ∈ reqs, ∃ pc, c.tasks x.1 = some (x.2, pc) ∧ ¬ pc.before
  once : (reqs.map Prod.fst).Nodup
  gone : ∀ x ∈ reqs, c.tasks x.1 = some (x.2, .cancelled) → x.2.waitsAfter
  whole : c.dbs = afterAll env dbs reqs

/-- A step that works on no database. -/
theorem WorkInv.silent {env : Env} {dbs : Dbs} {c c' : Conf} {e : Ev} {evs : List Ev} {reqs : List (Nat × Op)}
    (h : WorkInv env dbs c evs reqs) (t : Nat) (op : Op) (pc' : Pc) (he : e.worked = none) (hdbs : c'.dbs = c.dbs)
    (hget : ∀ i, c'.tasks i = if i = t then some (op, pc') else c.tasks i)
    (hold : c.tasks t = none ∨ ∃ pc, c.tasks t = some (op, pc) ∧ (pc.before ∨ (¬ pc'.before ∧ (pc' = .cancelled → op.waitsAfter)))) :
    WorkInv env dbs c' (evs ++ [e]) reqs := by
  have hne : ∀ x ∈ reqs, x.1 = t → x.2 = op ∧ ¬ pc'.before ∧ (pc' = .cancelled → op.waitsAfter) := by
    intro x hx hxt
    obtain ⟨pc, h1, h2⟩ := h.called x hx
    rw [hxt] at h1
    rcases hold with ho | ⟨pc2, ho, ho'⟩
    · rw [ho] at h1; cases h1
    · rw [ho, Option.some.injEq, Prod.mk.injEq] at h1
      obtain ⟨h3, rfl⟩ := h1
      exact ⟨h3.symm, (ho'.resolve_left h2).1, (ho'.resolve_left h2).2⟩
  refine ⟨?_, ?_, h.once, ?_, hdbs.trans h.whole⟩
  · rw [List.filterMap_append, h.order]
    simp [he]
  · intro x hx
    rw [hget]
    by_cases hxt : x.1 = t
    · obtain ⟨h1, h2, _⟩ := hne x hx hxt
      rw [if_pos hxt, h1]
      exact ⟨pc', rfl, h2⟩
    · rw [if_neg hxt]
      exact h.called x hx
  · intro x hx hc
    rw [hget] at hc
    by_cases hxt : x.1 = t
    · obtain ⟨h1, _, h3⟩ := hne x hx hxt
      rw [if_pos hxt, Option.some.injEq, Prod.mk.injEq] at hc
      rw [h1]
      exact h3 hc.2
    · rw [if_neg hxt] at hc
      exact h.gone x hx hc

theorem WorkInv.step {env : Env} {dbs : Dbs} {c c' : Conf} {e : Ev} {evs : List Ev} {reqs : List (Nat × Op)}
    (h : WorkInv env dbs c evs reqs) (hn : ∀ t n o pc, c.tasks t = some (.newDb n o, pc) → pc.holds → badName n = false)
    (hsh : ShapeInv c) (hs : Step env c e c') : ∃ reqs', WorkInv env dbs c' (evs ++ [e]) reqs' := by
  cases hs with
  | @call t op h0 => exact ⟨_, h.silent t op .start rfl rfl (fun _ => rfl) (.inl h0)⟩
  | refuse h0 hb => exact ⟨_, h.silent _ _ _ rfl rfl (fun _ => rfl) (.inr ⟨_, h0, .inl trivial⟩)⟩
  | invalidate h0 hi => exact ⟨_, h.silent _ _ _ rfl rfl (fun _ => rfl) (.inr ⟨_, h0, .inl trivial⟩)⟩
  | hit h0 hc => exact ⟨_, h.silent _ _ _ rfl rfl (fun _ => rfl) (.inr ⟨_, h0, .inl trivial⟩)⟩
  | miss h0 hc => exact ⟨_, h.silent _ _ _ rfl rfl (fun _ => rfl) (.inr ⟨_, h0, .inl trivial⟩)⟩
  | @acquire t op pc h0 ha hl =>
    have he : pc.before := by cases op <;> simp only [Op.asks] at ha <;> simp [ha, Pc.before]
    exact ⟨_, h.silent _ _ _ rfl rfl (fun _ => rfl) (.inr ⟨_, h0, .inl he⟩)⟩
  | @act t op h0 =>
    have hfresh : ∀ x ∈ reqs, x.1 ≠ t := by
      rintro x hx rfl
      obtain ⟨pc, h1, h2⟩ := h.called x hx
      rw [h0, Option.some.injEq, Prod.mk.injEq] at h1
      exact h2 (h1.2 ▸ trivial)
    refine ⟨reqs ++ [(t, op)], ?_, ?_, ?_, ?_, ?_⟩
    · rw [List.map_append, List.filterMap_append, h.order]
      rfl
    · intro x hx
      rcases List.mem_append.mp hx with hx | hx
      · show ∃ pc, (if x.1 = t then _ else c.tasks x.1) = _ ∧ _
        rw [if_neg (hfresh x hx)]
        exact h.called x hx
      · simp only [List.mem_singleton] at hx
        subst hx
        exact ⟨_, if_pos rfl, id⟩
    · rw [List.map_append, List.nodup_append]
      refine ⟨h.once, by simp, ?_⟩
      rintro a ha b hb rfl
      obtain ⟨x, hx, rfl⟩ := List.mem_map.mp ha
      simp only [List.map_cons, List.map_nil, List.mem_singleton] at hb
      exact hfresh x hx hb
    · intro x hx hc
      rcases List.mem_append.mp hx with hx | hx
      · change (if x.1 = t then _ else c.tasks x.1) = _ at hc
        rw [if_neg (hfresh x hx)] at hc
        exact h.gone x hx hc
      · simp only [List.mem_singleton] at hx
        subst hx
        change (if t = t then _ else c.tasks t) = _ at hc
        rw [if_pos rfl] at hc
        cases hc
    · show (op.act env c.dbs).2 = _
      unfold afterAll
      rw [List.foldl_append]
      simp only [List.foldl_cons, List.foldl_nil]
      rw [show List.foldl _ dbs reqs = c.dbs from h.whole.symm]
      cases hg : op.isGetDb with
      | false =>
        exact (exec_act env op hg (fun n o e => hn t n o .locked (e ▸ h0) trivial) c.dbs).2.symm
      | true =>
        cases op <;> simp only [Op.isGetDb] at hg <;> try cases hg
        rename_i n
        simp only [Op.act, Daemon.exec, Daemon.getDb]
        split
        · rfl
        · split <;> rfl
  | uncache h0 => exact ⟨_, h.silent _ _ _ rfl rfl (fun _ => rfl) (.inr ⟨_, h0, .inr ⟨id, by intro e; cases e⟩⟩)⟩
  | fill h0 => exact ⟨_, h.silent _ _ _ rfl rfl (fun _ => rfl) (.inr ⟨_, h0, .inr ⟨id, by intro e; cases e⟩⟩)⟩
  | ret h0 hr => exact ⟨_, h.silent _ _ _ rfl rfl (fun _ => rfl) (.inr ⟨_, h0, .inr ⟨id, by intro e; cases e⟩⟩)⟩
  | drop h0 => exact ⟨_, h.silent _ _ _ rfl rfl (fun _ => rfl) (.inr ⟨_, h0, .inr ⟨id, by intro e; cases e⟩⟩)⟩
  | unlink h0 => exact ⟨_, h.silent _ _ _ rfl rfl (fun _ => rfl) (.inr ⟨_, h0, .inr ⟨id, by intro e; cases e⟩⟩)⟩
  | @cancel t op pc h0 ha =>
    refine ⟨_, h.silent _ _ _ rfl rfl (fun _ => rfl) (.inr ⟨_, h0, ?_⟩)⟩
    cases pc with
    | unlinking =>
      refine .inr ⟨id, fun _ => ?_⟩
      have := hsh.at_ t op _ h0 (by simp)
      cases op <;> simp [Op.At] at this
      trivial
    | start => exact .inl trivial
    | missed => exact .inl trivial
    | invalidated => exact .inl trivial
    | _ => exact ha.elim
  | @cancelLocked t op r h0 ha =>
    refine ⟨_, h.silent _ _ _ rfl rfl (fun _ => rfl) (.inr ⟨_, h0, .inr ⟨id, fun _ => ?_⟩⟩)⟩
    cases op <;> trivial
  | evict n =>
    refine ⟨reqs, ?_, h.called, h.once, h.gone, h.whole⟩
    rw [List.filterMap_append, h.order]
    simp [Ev.worked]

theorem Run.workInv {env : Env} {dbs : Dbs} {tr : Trace} (h : Run env (Conf.init dbs) tr) :
    ∃ reqs, WorkInv env dbs (Trace.last (Conf.init dbs) tr) tr.events reqs := by
  induction h with
  | nil => exact ⟨[], rfl, by simp, by simp, by simp, rfl⟩
  | @snoc tr e c' h hs ih =>
    obtain ⟨reqs, ih⟩ := ih
    obtain ⟨S, hS⟩ := h.linInv
    rw [Trace.last_snoc, Trace.events_snoc]
    exact ih.step hS.names h.shapeInv hs

/-- C108, nothing half done: whichever requests run side by side and whichever clients go away, and when, the databases are
what they are after whole requests one after another, each at most once, in the order in which they worked on the
databases. -/
theorem C108_whole {env : Env} {dbs : Dbs} {tr : Trace} (h : Run env (Conf.init dbs) tr) :
    ∃ reqs : List (Nat × Op), reqs.map Prod.fst = tr.events.filterMap Ev.worked ∧ (reqs.map Prod.fst).Nodup ∧
      (∀ x ∈ reqs, .call x.1 x.2 ∈ tr.events) ∧
      (Trace.last (Conf.init dbs) tr).dbs = afterAll env dbs reqs := by
  obtain ⟨reqs, hw⟩ := h.workInv
  refine ⟨reqs, hw.order, hw.once, fun x hx => ?_, hw.whole⟩
  obtain ⟨pc, h1, _⟩ := hw.called x hx
  exact h.taskInv.called _ _ _ h1

/-- A request that was cancelled stays so. -/
theorem Run.stays_cancelled {env : Env} {dbs : Dbs} {tr : Trace} (h : Run env (Conf.init dbs) tr) {t : Nat} {op : Op}
    (hc : .cancel t ∈ tr.events) (ho : .call t op ∈ tr.events) :
    (Trace.last (Conf.init dbs) tr).tasks t = some (op, .cancelled) := by
  induction h with
  | nil => simp [Trace.events] at hc
  | @snoc tr e c' h hs ih =>
    rw [Trace.last_snoc]
    rw [Trace.events_snoc] at hc ho
    have hrun : ∃ pc, c'.tasks t = some (op, pc) := by
      have := (Run.snoc h hs).taskInv.running t op (by rw [Trace.events_snoc]; exact ho)
      rwa [Trace.last_snoc] at this
    rcases List.mem_append.mp hc with hc | hc
    · have hcall : ∃ op', .call t op' ∈ tr.events := by
        by_contra hno
        push Not at hno
        have : (Trace.last (Conf.init dbs) tr).tasks t = none := by
          cases e1 : (Trace.last (Conf.init dbs) tr).tasks t with
          | none => rfl
          | some y => exact absurd (h.taskInv.called t y.1 y.2 e1) (hno _)
        exact h.taskInv.fresh t this _ hc rfl
      obtain ⟨op', ho'⟩ := hcall
      obtain ⟨pc0, e0⟩ := h.taskInv.running t op' ho'
      have hsame : op' = op := by
        rcases List.mem_append.mp ho with ho | ho
        · obtain ⟨pc1, e1⟩ := h.taskInv.running t op ho
          rw [e0] at e1
          cases e1
          rfl
        · simp only [List.mem_singleton] at ho
          subst ho
          cases hs with
          | call _ hn => rw [e0] at hn; cases hn
      subst hsame
      exact hs.cancelled (ih hc ho')
    · simp only [List.mem_singleton] at hc
      subst hc
      obtain ⟨pc, hp⟩ := hrun
      rw [hp]
      cases hs with
      | cancel h0 ha =>
        change (if t = t then _ else _) = _ at hp
        rw [if_pos rfl] at hp
        cases hp
        rfl
      | cancelLocked h0 ha =>
        change (if t = t then _ else _) = _ at hp
        rw [if_pos rfl] at hp
        cases hp
        rfl

/-- C108, not done at all: if the client of `add_kv`, `rm_kv`, `clear_db`, `add_db_with_content`, `get_value` or `get_dbs` goes
away before the answer, the request never works on the databases, neither before nor after: they are those of the other
requests. -/
theorem C108_nothing {env : Env} {dbs : Dbs} {tr : Trace} (h : Run env (Conf.init dbs) tr) {t : Nat} {op : Op}
    (hc : .cancel t ∈ tr.events) (ho : .call t op ∈ tr.events) (hw : ¬ op.waitsAfter) : .act t ∉ tr.events := by
  intro ha
  obtain ⟨reqs, hi⟩ := h.workInv
  have hm : t ∈ reqs.map Prod.fst := by
    rw [hi.order, List.mem_filterMap]
    exact ⟨_, ha, rfl⟩
  obtain ⟨x, hx, rfl⟩ := List.mem_map.mp hm
  have hs := h.stays_cancelled hc ho
  obtain ⟨pc, h1, _⟩ := hi.called x hx
  rw [hs, Option.some.injEq, Prod.mk.injEq] at h1
  exact hw (h1.1 ▸ hi.gone x hx (h1.1 ▸ hs))

/-- C108, nobody waits for it: the lock is not with a request whose client went away. -/
theorem C108_lock {env : Env} {dbs : Dbs} {tr : Trace} (h : Run env (Conf.init dbs) tr) {t : Nat} {op : Op}
    (hc : .cancel t ∈ tr.events) (ho : .call t op ∈ tr.events) : (Trace.last (Conf.init dbs) tr).lock ≠ some t :=
  C55_released h (h.stays_cancelled hc ho) (.inr rfl)

/-- C108, and there is no answer. -/
theorem C108_silent {env : Env} {dbs : Dbs} {tr : Trace} (h : Run env (Conf.init dbs) tr) {t : Nat} {op : Op} {r : Reply}
    (hc : .cancel t ∈ tr.events) (ho : .call t op ∈ tr.events) : .ret t r ∉ tr.events := by
  intro hr
  obtain ⟨op', h1⟩ := h.taskInv.returned t r hr
  rw [h.stays_cancelled hc ho] at h1
  cases h1

/-- C108 is violated for whole-database reads: whatever a database `n` holds, when the client of the `add_db` that empties it
goes away at L77, the database is empty from then on, and a `get_db` that is called afterwards, alone, is answered with
all that was in it. -/
theorem C108_refuted_cache {env : Env} (n : List Char) (hn : badName n = false) {s : Store} {b : List UInt8}
    (hb : Store.ser env s = .ok b) :
    ∃ (trA trB : Trace) (x : Conf), Run env (Conf.init [(n, s)]) (trA ++ (.cancel 1, x) :: trB) ∧
      .call 1 (.newDb n true) ∈ trA.events ∧ .act 1 ∈ trA.events ∧
      trB.events = [.call 2 (.getDb n), .ret 2 (.bytes b)] ∧
      ∀ c ∈ Trace.confs x trB, c.dbs = [(n, [])] := by
  have hget : ∀ y : Store, AMap.get n [(n, y)] = some y := by intro y; simp [AMap.get]
  have hg : Dbs.getDb env n [(n, s)] = .bytes b := by
    simp only [Dbs.getDb, hget, hb]
  have hnew : (Op.act env (.newDb n true) [(n, s)]).2 = [(n, [])] := by
    simp [Op.act, Dbs.newDb, AMap.get, AMap.insert]
  have hins : AMap.get n (AMap.insert n b []) = some b := by simp [AMap.get, AMap.insert]
  refine ⟨[(.call 0 (.getDb n), _), (.miss 0, _), (.acquire 0, _), (.act 0, _), (.fill 0 n, _), (.ret 0 (.bytes b), _),
      (.call 1 (.newDb n true), _), (.acquire 1, _), (.act 1, _)], [(.call 2 (.getDb n), _), (.ret 2 (.bytes b), _)], _,
    .cons (.call (.getDb n) rfl) (.cons (.miss rfl rfl) (.cons (.acquire rfl rfl rfl) (.cons (.act rfl)
      (.cons (.fill (b := b) ?_) (.cons (.ret rfl (.inl rfl))
      (.cons (.call (.newDb n true) rfl) (.cons (.acquire rfl ⟨rfl, hn⟩ rfl) (.cons (.act rfl)
      (.cons (.cancelLocked rfl trivial) (.cons (.call (.getDb n) rfl) (.cons (.hit rfl hins) .nil))))))))))),
    ?_, ?_, rfl, ?_⟩
  · show some (Op.getDb n, Pc.acted (Dbs.getDb env n [(n, s)])) = _
    rw [hg]
  · simp [Trace.events]
  · simp [Trace.events]
  · intro c hc
    simp only [Trace.confs, List.map_cons, List.map_nil, List.mem_cons, List.not_mem_nil, or_false] at hc
    rcases hc with rfl | rfl | rfl <;> exact hnew

/-- The client of an `add_kv` goes away while it waits for the lock, which a `clear_db` holds; only that is carried out. -/
example : ∃ tr : Trace, Run sampleEnv (Conf.init [(['d'], [(['k'], .null)])]) tr ∧
    .call 0 (.addKv ['d'] ['j'] true true .null) ∈ tr.events ∧ .cancel 0 ∈ tr.events ∧ .act 0 ∉ tr.events ∧
    (Trace.last (Conf.init [(['d'], [(['k'], .null)])]) tr).dbs = [(['d'], [])] := by
  have h : Run sampleEnv (Conf.init [(['d'], [(['k'], .null)])])
      [(.call 0 (.addKv ['d'] ['j'] true true .null), _), (.invalidate 0, _), (.call 1 (.clearDb ['d']), _), (.invalidate 1, _),
        (.acquire 1, _), (.cancel 0, _), (.act 1, _), (.ret 1 (.status 200), _)] :=
    .cons (.call _ rfl) (.cons (.invalidate rfl rfl) (.cons (.call (.clearDb ['d']) rfl) (.cons (.invalidate rfl rfl)
      (.cons (.acquire rfl rfl rfl) (.cons (.cancel (pc := .invalidated) rfl trivial) (.cons (.act rfl)
      (.cons (.ret (pc := .acted (.status 200)) rfl rfl) .nil)))))))
  exact ⟨_, h, by simp [Trace.events], by simp [Trace.events],
    C108_nothing h (op := .addKv ['d'] ['j'] true true .null) (by simp [Trace.events]) (by simp [Trace.events]) id, rfl⟩

end Souris
