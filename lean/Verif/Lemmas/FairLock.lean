import Verif.Props.Saver
import Verif.Spec.FairLock

/-! # Lemmas: the queue in front of the lock -/

namespace Souris

/-! ## Single steps -/

theorem SStep.running {env : Env} {base : Path} {s s' : Sys} {e : SEv} (h : SStep env base s e s') : s.exited = false := by
  cases h <;> assumption

theorem SStep.saver_same {env : Env} {base : Path} {s s' : Sys} {e : SEv} (h : SStep env base s e s') (he : e.ofSaver = false) :
    s'.saver = s.saver := by
  cases h <;> first | rfl | cases he

/-- What the saver's steps do. -/
theorem SStep.saver_moves {env : Env} {base : Path} {s s' : Sys} {e : SEv} (h : SStep env base s e s') (he : e.ofSaver = true) :
    s'.conf = s.conf ∧
    ((s.saver = .idle ∧ e.obtains = some .saver ∧ s.conf.lock = none) ∨
     (e.obtains = none ∧ s'.saver.rank < s.saver.rank ∧ s.saver ≠ .idle ∧ (s'.saver.holds → s.saver.holds))) := by
  cases h with
  | req _ _ _ _ | delete _ _ _ | abandon _ _ _ | lateDelete _ _ | signal _ _ | exit _ _ _ => cases he
  | begin _ h1 h2 _ _ => exact ⟨rfl, .inl ⟨h1, rfl, h2⟩⟩
  | beginLast _ h1 h2 _ _ => exact ⟨rfl, .inl ⟨h1, rfl, h2⟩⟩
  | write f _ h1 =>
    refine ⟨rfl, .inr ⟨rfl, ?_, by rw [h1]; simp, by rw [h1]; exact fun _ => trivial⟩⟩
    rw [h1]; simp [SPc.rank]
  | release _ h1 =>
    refine ⟨rfl, .inr ⟨rfl, ?_, by rw [h1]; simp, by rw [h1]; exact fun _ => trivial⟩⟩
    rw [h1]; simp [SPc.rank]
  | @list last names f _ h1 =>
    refine ⟨rfl, .inr ⟨rfl, ?_, by rw [h1]; simp, ?_⟩⟩
    · rw [h1]; cases last <;> simp [SPc.rank]
    · cases last <;> exact fun h => h.elim

/-- A task that is about to ask for the lock, or waits for it, can only obtain it or be cancelled. -/
theorem Step.of_asks {env : Env} {c c' : Conf} {e : Ev} {t : Nat} {op : Op} {pc : Pc} (hs : Step env c e c')
    (he : e.task = some t) (ht : c.tasks t = some (op, pc)) (ha : op.asks pc) : e = .acquire t ∨ e = .cancel t := by
  cases hs with
  | call _ h => cases he; rw [ht] at h; cases h
  | refuse h hb => cases he; rw [ht] at h; cases h; simp [Op.asks, hb] at ha
  | invalidate h hi => cases he; rw [ht] at h; cases h; cases op <;> simp [Op.asks, Op.invalidates] at ha hi
  | hit h hc => cases he; rw [ht] at h; cases h; simp [Op.asks] at ha
  | miss h hc => cases he; rw [ht] at h; cases h; simp [Op.asks] at ha
  | acquire h _ _ => cases he; exact .inl rfl
  | act h => cases he; rw [ht] at h; cases h; cases op <;> simp [Op.asks] at ha
  | uncache h => cases he; rw [ht] at h; cases h; simp [Op.asks] at ha
  | fill h => cases he; rw [ht] at h; cases h; simp [Op.asks] at ha
  | ret h hr => cases he; rw [ht] at h; cases h; cases op <;> simp [Op.asks, Op.returns] at ha hr <;> simp_all
  | drop h => cases he; rw [ht] at h; cases h; simp [Op.asks] at ha
  | unlink h => cases he; rw [ht] at h; cases h; simp [Op.asks] at ha
  | cancel h _ => cases he; exact .inr rfl
  | cancelLocked h _ => cases he; exact .inr rfl
  | evict n => cases he

theorem Op.asks_early {op : Op} {pc : Pc} (ha : op.asks pc) : pc.early := by
  cases op <;> simp only [Op.asks] at ha <;> simp [ha, Pc.early]

/-- A task that is neither at the end nor about to ask for the lock can take a step. -/
theorem ShapeInv.task_step {env : Env} {c : Conf} (si : ShapeInv c) {t : Nat} {op : Op} {pc : Pc}
    (ht : c.tasks t = some (op, pc)) (hpc : ¬ pc.ended) (hna : ¬ op.asks pc) :
    ∃ e c', Step env c e c' ∧ e.task = some t ∧ e.isWork ∧ ∀ u, e ≠ .acquire u := by
  have ha := si.at_ t op pc ht (by rintro rfl; exact hpc trivial)
  cases pc with
  | start =>
    cases op with
    | newDb n o =>
      cases hb : badName n with
      | true => exact ⟨_, _, .refuse ht hb, rfl, trivial, by simp⟩
      | false => exact absurd ⟨rfl, hb⟩ hna
    | getDb n =>
      cases hc : AMap.get n c.cache with
      | none => exact ⟨_, _, .miss ht hc, rfl, trivial, by simp⟩
      | some b => exact ⟨_, _, .hit ht hc, rfl, trivial, by simp⟩
    | getValue n k => exact absurd rfl hna
    | allNames => exact absurd rfl hna
    | newDbWith n o s => exact ⟨_, _, .invalidate ht rfl, rfl, trivial, by simp⟩
    | clearDb n => exact ⟨_, _, .invalidate ht rfl, rfl, trivial, by simp⟩
    | removeDb n io => exact ⟨_, _, .invalidate ht rfl, rfl, trivial, by simp⟩
    | addKv n k c o v => exact ⟨_, _, .invalidate ht rfl, rfl, trivial, by simp⟩
    | removeKey n k => exact ⟨_, _, .invalidate ht rfl, rfl, trivial, by simp⟩
  | missed =>
    cases op with
    | getDb n => exact absurd rfl hna
    | _ => simp [Op.At] at ha
  | invalidated =>
    cases op with
    | newDb | getDb | getValue | allNames => simp [Op.At] at ha
    | _ => exact absurd rfl hna
  | locked => exact ⟨_, _, .act ht, rfl, trivial, by simp⟩
  | acted r =>
    cases op with
    | newDb n o => exact ⟨_, _, .uncache ht, rfl, trivial, by simp⟩
    | getDb n =>
      cases r with
      | bytes b => exact ⟨_, _, .fill ht, rfl, trivial, by simp⟩
      | status | value | creation | names | error | rejected | aborted =>
        exact ⟨_, _, .ret ht (.inr ⟨rfl, by simp⟩), rfl, trivial, by simp⟩
    | removeDb n io =>
      simp only [Op.At, reduceCtorEq, Pc.acted.injEq, exists_false, or_false, false_or] at ha
      rcases ha with rfl | rfl
      · exact ⟨_, _, .ret ht ⟨rfl, rfl⟩, rfl, trivial, by simp⟩
      · exact ⟨_, _, .drop ht, rfl, trivial, by simp⟩
    | newDbWith n o s => exact ⟨_, _, .ret (r := r) ht rfl, rfl, trivial, by simp⟩
    | clearDb n => exact ⟨_, _, .ret (r := r) ht rfl, rfl, trivial, by simp⟩
    | addKv n k c o v => exact ⟨_, _, .ret (r := r) ht rfl, rfl, trivial, by simp⟩
    | getValue n k => exact ⟨_, _, .ret (r := r) ht rfl, rfl, trivial, by simp⟩
    | removeKey n k => exact ⟨_, _, .ret (r := r) ht rfl, rfl, trivial, by simp⟩
    | allNames => exact ⟨_, _, .ret (r := r) ht rfl, rfl, trivial, by simp⟩
  | cached r =>
    cases op with
    | newDb n o => exact ⟨_, _, .ret (r := r) ht rfl, rfl, trivial, by simp⟩
    | getDb n => exact ⟨_, _, .ret (r := r) ht (.inl rfl), rfl, trivial, by simp⟩
    | _ => simp [Op.At] at ha
  | unlinking =>
    cases op with
    | removeDb n io => exact ⟨_, _, .unlink ht, rfl, trivial, by simp⟩
    | _ => simp [Op.At] at ha
  | done r => exact absurd trivial hpc
  | cancelled => exact absurd trivial hpc

/-- A step that is not one of this task's leaves it as it is. -/
theorem Step.task_same {env : Env} {c c' : Conf} {e : Ev} (hs : Step env c e c') {t : Nat} (he : e.task ≠ some t) :
    c'.tasks t = c.tasks t := by
  rcases hs.moves with ⟨_, h, _⟩ | ⟨u, op, pc', hu, h, _⟩
  · rw [h]
  · rw [h]
    exact if_neg (fun e' => he (by rw [hu, e']))

/-! ## What always holds -/

structure FInv (s : FSys) : Prop where
  tasks : ∃ evs, TaskInv s.sys.conf evs
  shape : ShapeInv s.sys.conf
  excl : s.sys.saver.holds → s.sys.conf.lock = none
  queued : ∀ w ∈ s.queue, s.sys.Asks w
  nodup : s.queue.Nodup
  ended : s.sys.exited = true → s.queue = [] ∧ ∀ t op pc, s.sys.conf.tasks t = some (op, pc) → pc.ended

theorem FInv.init (dbs : Dbs) (fs : FS) : FInv (FSys.init dbs fs) where
  tasks := ⟨[], TaskInv.init dbs⟩
  shape := ⟨(by intro t op pc h; cases h), (by intro t h; cases h)⟩
  excl := fun h => h.elim
  queued := by simp [FSys.init]
  nodup := by simp [FSys.init]
  ended := by intro h; cases h

theorem FInv.conf_step {env : Env} {base : Path} {s : FSys} {e : SEv} {s' : Sys} (h : FInv s) (hs : SStep env base s.sys e s') :
    (∃ evs, TaskInv s'.conf evs) ∧ ShapeInv s'.conf ∧ (s'.saver.holds → s'.conf.lock = none) := by
  obtain ⟨evs, ti⟩ := h.tasks
  rcases hs.conf with ⟨e', rfl, hst, hsv, hacq⟩ | ⟨hc, _⟩
  · refine ⟨⟨_, ti.step hst⟩, h.shape.step ti hst, ?_⟩
    rw [hsv]
    intro hh
    exact (hst.quiet ti.exclusive (h.excl hh) (fun t e => hacq t e hh)).2.1
  · refine ⟨⟨evs, hc ▸ ti⟩, hc ▸ h.shape, ?_⟩
    rw [hc]
    intro hh
    cases ho : e.ofSaver with
    | false => rw [hs.saver_same ho] at hh; exact h.excl hh
    | true =>
      rcases (hs.saver_moves ho).2 with h1 | h1
      · exact h1.2.2
      · exact h.excl (h1.2.2.2 hh)

/-- Who is about to ask stays so until it obtains the lock or is cancelled. -/
theorem Sys.Asks.stays {env : Env} {base : Path} {s s' : Sys} {e : SEv} {w : Who} (hs : SStep env base s e s') (h : s.Asks w)
    (h1 : e.obtains ≠ some w) (h2 : e.leaves ≠ some w) : s'.Asks w := by
  cases w with
  | saver =>
    show s'.saver = .idle
    cases ho : e.ofSaver with
    | false => rw [hs.saver_same ho]; exact h
    | true =>
      rcases (hs.saver_moves ho).2 with h3 | h3
      · exact absurd h3.2.1 h1
      · exact absurd h h3.2.2.1
  | task t =>
    obtain ⟨op, pc, ht, ha⟩ := h
    rcases hs.conf with ⟨e', rfl, hst, -, -⟩ | ⟨hc, _⟩
    · have hne : e'.task ≠ some t := by
        intro he
        rcases hst.of_asks he ht ha with rfl | rfl
        · exact h1 rfl
        · exact h2 rfl
      exact ⟨op, pc, by rw [hst.task_same hne]; exact ht, ha⟩
    · exact ⟨op, pc, by rw [hc]; exact ht, ha⟩

theorem FInv.step {env : Env} {base : Path} {s s' : FSys} {e : FEv} (h : FInv s) (hs : FStep env base s e s') : FInv s' := by
  cases hs with
  | @ask w hx hq ha =>
    refine ⟨h.tasks, h.shape, h.excl, ?_, ?_, ?_⟩
    · intro w' hw'
      rcases List.mem_append.mp hw' with hw' | hw'
      · exact h.queued w' hw'
      · rw [List.mem_singleton.mp hw']; exact ha
    · rw [List.nodup_append]
      refine ⟨h.nodup, by simp, ?_⟩
      intro a ha' b hb
      rw [List.mem_singleton.mp hb]
      rintro rfl
      exact hq ha'
    · intro hx'; rw [hx] at hx'; cases hx'
  | @obtain w q e s' hq he hst =>
    obtain ⟨h1, h2, h3⟩ := h.conf_step hst
    have hnd := h.nodup
    rw [hq, List.nodup_cons] at hnd
    refine ⟨h1, h2, h3, ?_, hnd.2, ?_⟩
    · intro w' hw'
      refine Sys.Asks.stays hst (h.queued w' (by rw [hq]; exact List.mem_cons_of_mem _ hw')) ?_ ?_
      · rw [he]; intro e'; cases e'; exact hnd.1 hw'
      · intro e'
        cases e with
        | req e => cases e <;> simp [SEv.leaves, SEv.obtains] at e' he
        | _ => simp [SEv.leaves] at e'
    · intro hx
      cases hst with
      | exit _ _ _ => cases he
      | req hx' _ _ _ | delete hx' _ _ | abandon hx' _ _ | lateDelete hx' _ | signal hx' _ | begin hx' _ _ _ _
      | beginLast hx' _ _ _ _ | write _ hx' _ | release hx' _ | list _ hx' _ => exact absurd (hx'.symm.trans hx) (by simp)
  | @other e s' he hst =>
    obtain ⟨h1, h2, h3⟩ := h.conf_step hst
    refine ⟨h1, h2, h3, ?_, h.nodup.filter _, ?_⟩
    · intro w' hw'
      rw [List.mem_filter] at hw'
      refine Sys.Asks.stays hst (h.queued w' hw'.1) (by rw [he]; simp) ?_
      have := of_decide_eq_true hw'.2
      exact fun e' => this e'.symm
    · intro hx
      cases hst with
      | exit _ hsv hall =>
        refine ⟨?_, hall⟩
        have hq : s.queue = [] := by
          rw [List.eq_nil_iff_forall_not_mem]
          intro w hw
          cases w with
          | saver => exact absurd (hsv.symm.trans (h.queued _ hw)) (by simp)
          | task t =>
            obtain ⟨op, pc, ht, ha⟩ := h.queued _ hw
            have := hall t op pc ht
            have := Op.asks_early ha
            cases pc <;> simp_all [Pc.ended, Pc.early]
        rw [hq]; rfl
      | req hx' _ _ _ | delete hx' _ _ | abandon hx' _ _ | lateDelete hx' _ | signal hx' _ | begin hx' _ _ _ _
      | beginLast hx' _ _ _ _ | write _ hx' _ | release hx' _ | list _ hx' _ => exact absurd (hx'.symm.trans hx) (by simp)

/-- A daemon in which a task is still at work has not exited. -/
theorem FInv.runs {s : FSys} (h : FInv s) (hq : s.queue ≠ [] ∨ ∃ t op pc, s.sys.conf.tasks t = some (op, pc) ∧ ¬ pc.ended) :
    s.sys.exited = false := by
  cases hx : s.sys.exited with
  | false => rfl
  | true =>
    rcases hq with hq | ⟨t, op, pc, ht, hpc⟩
    · exact absurd (h.ended hx).1 hq
    · exact absurd ((h.ended hx).2 t op pc ht) hpc

/-! ## Who can work -/

/-- Work of a task in the model of the requests is work in the whole. -/
theorem FInv.lift {env : Env} {base : Path} {s : FSys} (hx : s.sys.exited = false) (hio : Deletes base s.sys)
    {e : Ev} {c' : Conf} {t : Nat} (hst : Step env s.sys.conf e c') (he : e.task = some t) (hw : e.isWork)
    (hna : ∀ u, e ≠ .acquire u) : s.Able env base (.task t) := by
  by_cases hu : ∃ n io, s.sys.conf.tasks t = some (.removeDb n io, .unlinking)
  · obtain ⟨n, io, h2⟩ := hu
    rcases hio t n io h2 with rfl | hio
    · exact ⟨_, _, .other rfl (.delete hx h2 (.inr ⟨rfl, rfl⟩)), rfl⟩
    · exact ⟨_, _, .other rfl (.delete hx h2 (.inl (Prod.ext hio rfl))), rfl⟩
  · have hst' : SStep env base s.sys (.req e) { s.sys with conf := c' } :=
      .req hx hst (fun u hu => absurd hu (hna u)) (fun u n io h1 h2 => by
        rw [he] at h1; cases h1; exact hu ⟨n, io, h2⟩)
    refine ⟨.act (.req e), _, .other ?_ hst', ?_⟩
    · cases e <;> first | rfl | exact absurd rfl (hna _)
    · cases e <;> first | exact hw.elim | (simp only [Ev.task, Option.some.injEq] at he; subst he; rfl)

/-- A task that is not waiting for the lock and not at the end can work. -/
theorem FInv.able_task {env : Env} {base : Path} {s : FSys} (h : FInv s) (hio : Deletes base s.sys)
    {t : Nat} {op : Op} {pc : Pc} (ht : s.sys.conf.tasks t = some (op, pc)) (hpc : ¬ pc.ended)
    (hq : .task t ∉ s.queue) : s.Able env base (.task t) := by
  have hx := h.runs (.inr ⟨t, op, pc, ht, hpc⟩)
  by_cases ha : op.asks pc
  · exact ⟨_, _, .ask hx hq ⟨op, pc, ht, ha⟩, rfl⟩
  · obtain ⟨e, c', hst, he, hw, hna⟩ := h.shape.task_step (env := env) ht hpc ha
    exact FInv.lift hx hio hst he hw hna

/-- The saver can work unless it is waiting for the lock or has finished. -/
theorem FInv.able_saver {env : Env} {base : Path} {s : FSys} (hx : s.sys.exited = false)
    (hq : .saver ∉ s.queue) (hf : s.sys.saver ≠ .finished) : s.Able env base .saver := by
  cases hsv : s.sys.saver with
  | idle => exact ⟨_, _, .ask hx hq hsv, rfl⟩
  | writing last todo names =>
    cases todo with
    | nil => exact ⟨_, _, .other rfl (.release hx hsv), rfl⟩
    | cons x todo => exact ⟨_, _, .other rfl (.write .none hx hsv), rfl⟩
  | listing last names => exact ⟨_, _, .other rfl (.list .none hx hsv), rfl⟩
  | finished => exact absurd hsv hf

/-- The first in the queue can obtain the lock when it is free. -/
theorem FInv.able_head {env : Env} {base : Path} {s : FSys} (h : FInv s) {w : Who} {q : List Who} (hq : s.queue = w :: q)
    (hl : s.sys.conf.lock = none) (hs : ¬ s.sys.saver.holds) : s.Able env base w := by
  have hx := h.runs (.inl (by rw [hq]; simp))
  have ha := h.queued w (by rw [hq]; exact .head _)
  cases w with
  | task t =>
    obtain ⟨op, pc, ht, ha⟩ := ha
    refine ⟨.act (.req (.acquire t)), _, .obtain hq rfl (.req hx (.acquire ht ha hl) (fun _ _ => hs) ?_), rfl⟩
    intro u n io hu h2
    cases hu
    rw [ht] at h2
    cases h2
    simp [Op.asks] at ha
  | saver =>
    by_cases hst : s.sys.stop = .due
    · exact ⟨_, _, .obtain hq rfl (.beginLast hx ha hl (by rw [hst]; simp) (.refl _)), rfl⟩
    · exact ⟨_, _, .obtain hq rfl (.begin hx ha hl hst (.refl _)), rfl⟩

end Souris
