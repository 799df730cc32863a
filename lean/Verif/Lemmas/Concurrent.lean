import Verif.Spec.Concurrent
import Verif.Lemmas.Daemon

/-! # Invariants of concurrent runs -/

namespace Souris

/-! ## Traces -/

namespace Trace

theorem last_snoc (c : Conf) (tr : Trace) (e : Ev) (c' : Conf) : last c (tr ++ [(e, c')]) = c' := by
  simp [last]

theorem events_snoc (tr : Trace) (e : Ev) (c' : Conf) : events (tr ++ [(e, c')]) = events tr ++ [e] := by
  simp [events]

theorem last_mem (c : Conf) (tr : Trace) : last c tr ∈ confs c tr := by
  unfold last confs
  cases h : tr.getLast? with
  | none => simp
  | some x =>
    simp only [Option.map_some, Option.getD_some, List.mem_cons, List.mem_map]
    exact .inr ⟨x, List.mem_of_getLast? h, rfl⟩

theorem last_append (c : Conf) (tr tr' : Trace) : last c (tr ++ tr') = last (last c tr) tr' := by
  unfold last
  rw [List.getLast?_append]
  cases tr'.getLast? <;> simp

end Trace

/-- A trace can be cut anywhere. -/
theorem Run.split {env : Env} {c : Conf} (tr tr' : Trace) (h : Run env c (tr ++ tr')) :
    Run env c tr ∧ Run env (Trace.last c tr) tr' := by
  induction tr' using List.reverseRecOn with
  | nil => exact ⟨by simpa using h, .nil⟩
  | append_singleton tr' x ih =>
    rw [← List.append_assoc] at h
    generalize hg : (tr ++ tr') ++ [x] = l at h
    cases h with
    | nil => simp at hg
    | @snoc tr2 e c' h hs =>
      have := List.append_inj' hg (by simp)
      obtain ⟨h1, h2⟩ := this
      subst h1
      simp only [List.cons.injEq, and_true] at h2
      subst h2
      obtain ⟨h3, h4⟩ := ih h
      refine ⟨h3, .snoc h4 ?_⟩
      rw [← Trace.last_append]
      exact hs

/-! ## Order -/

theorem Before.snoc {evs : List Ev} {a b : Ev} (h : Before evs a b) (e : Ev) : Before (evs ++ [e]) a b := by
  obtain ⟨l1, l2, rfl, ha, hb⟩ := h
  exact ⟨l1, l2 ++ [e], by simp, ha, by simp [hb]⟩

theorem Before.of_mem {evs : List Ev} {a : Ev} (h : a ∈ evs) (e : Ev) : Before (evs ++ [e]) a e :=
  ⟨evs, [e], rfl, h, by simp⟩

theorem Before.inv {evs : List Ev} {a b e : Ev} (h : Before (evs ++ [e]) a b) :
    Before evs a b ∨ (b = e ∧ a ∈ evs) := by
  obtain ⟨l1, l2, h, ha, hb⟩ := h
  rcases List.eq_nil_or_concat l2 with rfl | ⟨l, x, rfl⟩
  · cases hb
  · rw [List.concat_eq_append, ← List.append_assoc] at h
    obtain ⟨h1, h2⟩ := List.append_inj' h (by simp)
    simp only [List.cons.injEq, and_true] at h2
    subst h1 h2
    rw [List.concat_eq_append] at hb
    rcases List.mem_append.mp hb with hb | hb
    · exact .inl ⟨l1, l, rfl, ha, hb⟩
    · exact .inr ⟨by simpa using hb, by simp [ha]⟩

/-! ## Tasks and events -/

/-- The lock is held at this point. -/
def Pc.holds : Pc → Prop
  | .locked | .acted _ | .cached _ => True
  | _ => False

/-- The lock has not been asked for. -/
def Pc.early : Pc → Prop
  | .start | .missed | .invalidated => True
  | _ => False

structure TaskInv (c : Conf) (evs : List Ev) : Prop where
  fresh : ∀ t, c.tasks t = none → ∀ e ∈ evs, e.task ≠ some t
  called : ∀ t op pc, c.tasks t = some (op, pc) → .call t op ∈ evs
  running : ∀ t op, .call t op ∈ evs → ∃ pc, c.tasks t = some (op, pc)
  returned : ∀ t r, .ret t r ∈ evs → ∃ op, c.tasks t = some (op, .done r)
  exclusive : ∀ t op pc, c.tasks t = some (op, pc) → pc.holds → c.lock = some t
  early : ∀ t op pc, c.tasks t = some (op, pc) → pc.early → .acquire t ∉ evs
  acquired : ∀ t op, c.tasks t = some (op, .locked) → .acquire t ∈ evs

/-- What a step does to the tasks and the lock. -/
theorem Step.moves {env : Env} {c c' : Conf} {e : Ev} (hs : Step env c e c') :
    ((∃ n, e = .evict n) ∧ c'.tasks = c.tasks ∧ c'.lock = c.lock) ∨
    ∃ t op pc', e.task = some t ∧ (c'.tasks = fun i => if i = t then some (op, pc') else c.tasks i) ∧
      ((e = .call t op ∧ c.tasks t = none ∧ pc' = .start ∧ c'.lock = c.lock) ∨
       ∃ pc, c.tasks t = some (op, pc) ∧ (∀ r, pc ≠ .done r) ∧ (∀ o, e ≠ .call t o) ∧
        (∀ r, e = .ret t r ↔ pc' = .done r) ∧
        ((e = .acquire t ∧ pc.early ∧ pc' = .locked ∧ c.lock = none ∧ c'.lock = some t) ∨
         (e ≠ .acquire t ∧ pc' ≠ .locked ∧ pc.holds ∧ pc'.holds ∧ c'.lock = c.lock) ∨
         (e ≠ .acquire t ∧ pc' ≠ .locked ∧ pc.holds ∧ ¬ pc'.holds ∧ ¬ pc'.early ∧ c'.lock = none) ∨
         (e ≠ .acquire t ∧ pc' ≠ .locked ∧ ¬ pc.holds ∧ ¬ pc'.holds ∧ (pc'.early → pc.early) ∧ c'.lock = c.lock))) := by
  cases hs with
  | @call t op h => exact .inr ⟨t, op, .start, rfl, rfl, .inl ⟨rfl, h, rfl, rfl⟩⟩
  | @refuse t n o h hb =>
    exact .inr ⟨t, _, _, rfl, rfl, .inr ⟨_, h, by simp, by simp, by simp, .inr (.inr (.inr
      ⟨by simp, by simp, by simp [Pc.holds], by simp [Pc.holds], by simp [Pc.early], rfl⟩))⟩⟩
  | @invalidate t op n h hi =>
    exact .inr ⟨t, _, _, rfl, rfl, .inr ⟨_, h, by simp, by simp, by simp, .inr (.inr (.inr
      ⟨by simp, by simp, by simp [Pc.holds], by simp [Pc.holds], by simp [Pc.early], rfl⟩))⟩⟩
  | @hit t n b h hc =>
    exact .inr ⟨t, _, _, rfl, rfl, .inr ⟨_, h, by simp, by simp, by simp, .inr (.inr (.inr
      ⟨by simp, by simp, by simp [Pc.holds], by simp [Pc.holds], by simp [Pc.early], rfl⟩))⟩⟩
  | @miss t n h hc =>
    exact .inr ⟨t, _, _, rfl, rfl, .inr ⟨_, h, by simp, by simp, by simp, .inr (.inr (.inr
      ⟨by simp, by simp, by simp [Pc.holds], by simp [Pc.holds], by simp [Pc.early], rfl⟩))⟩⟩
  | @acquire t op pc h ha hl =>
    have he : pc.early := by cases op <;> simp only [Op.asks] at ha <;> simp [ha, Pc.early]
    have hd : ∀ r, pc ≠ .done r := by rintro r rfl; exact he
    exact .inr ⟨t, _, _, rfl, rfl, .inr ⟨_, h, hd, by simp, by simp, .inl ⟨rfl, he, rfl, hl, rfl⟩⟩⟩
  | @act t op h =>
    exact .inr ⟨t, _, _, rfl, rfl, .inr ⟨_, h, by simp, by simp, by simp, .inr (.inl
      ⟨by simp, by simp, by simp [Pc.holds], by simp [Pc.holds], rfl⟩)⟩⟩
  | @uncache t n o r h =>
    exact .inr ⟨t, _, _, rfl, rfl, .inr ⟨_, h, by simp, by simp, by simp, .inr (.inl
      ⟨by simp, by simp, by simp [Pc.holds], by simp [Pc.holds], rfl⟩)⟩⟩
  | @fill t n b h =>
    exact .inr ⟨t, _, _, rfl, rfl, .inr ⟨_, h, by simp, by simp, by simp, .inr (.inl
      ⟨by simp, by simp, by simp [Pc.holds], by simp [Pc.holds], rfl⟩)⟩⟩
  | @ret t op pc r h hr =>
    have hh : pc.holds := by
      cases op <;> simp only [Op.returns] at hr
      case getDb n => rcases hr with h | ⟨h, _⟩ <;> simp [h, Pc.holds]
      case removeDb n io => simp [hr.1, Pc.holds]
      all_goals simp [hr, Pc.holds]
    have hd : ∀ r, pc ≠ .done r := by rintro r rfl; exact hh
    exact .inr ⟨t, _, _, rfl, rfl, .inr ⟨_, h, hd, by simp, by simp, .inr (.inr (.inl
      ⟨by simp, by simp, hh, by simp [Pc.holds], by simp [Pc.early], rfl⟩))⟩⟩
  | @drop t n io h =>
    exact .inr ⟨t, _, _, rfl, rfl, .inr ⟨_, h, by simp, by simp, by simp, .inr (.inr (.inl
      ⟨by simp, by simp, by simp [Pc.holds], by simp [Pc.holds], by simp [Pc.early], rfl⟩))⟩⟩
  | @unlink t n io h =>
    exact .inr ⟨t, _, _, rfl, rfl, .inr ⟨_, h, by simp, by simp, by simp, .inr (.inr (.inr
      ⟨by simp, by simp, by simp [Pc.holds], by simp [Pc.holds], by simp [Pc.early], rfl⟩))⟩⟩
  | @cancel t op pc h ha =>
    have hh : ¬ pc.holds := by cases pc <;> simp [Op.awaits, Pc.holds] at ha ⊢
    have hd : ∀ r, pc ≠ .done r := by rintro r rfl; exact ha
    exact .inr ⟨t, _, _, rfl, rfl, .inr ⟨_, h, hd, by simp, by simp, .inr (.inr (.inr
      ⟨by simp, by simp, hh, by simp [Pc.holds], by simp [Pc.early], rfl⟩))⟩⟩
  | @cancelLocked t op r h ha =>
    exact .inr ⟨t, _, _, rfl, rfl, .inr ⟨_, h, by simp, by simp, by simp, .inr (.inr (.inl
      ⟨by simp, by simp, by simp [Pc.holds], by simp [Pc.holds], by simp [Pc.early], rfl⟩))⟩⟩
  | evict n => exact .inl ⟨⟨n, rfl⟩, rfl, rfl⟩

theorem TaskInv.init (dbs : Dbs) : TaskInv (Conf.init dbs) [] where
  fresh := by simp
  called := by intro t op pc h; cases h
  running := by simp
  returned := by simp
  exclusive := by intro t op pc h; cases h
  early := by intro t op pc h; cases h
  acquired := by intro t op h; cases h

theorem TaskInv.step {env : Env} {c c' : Conf} {e : Ev} {evs : List Ev} (h : TaskInv c evs) (hs : Step env c e c') :
    TaskInv c' (evs ++ [e]) := by
  rcases hs.moves with ⟨⟨n, rfl⟩, ht, hl⟩ | ⟨t, op, pc', hte, htasks, hcase⟩
  · constructor
    · intro t h1 e he
      rw [ht] at h1
      rcases List.mem_append.mp he with he | he
      · exact h.fresh t h1 e he
      · simp at he; subst he; simp [Ev.task]
    · intro t op pc h1; rw [ht] at h1; simp [h.called t op pc h1]
    · intro t op h1; rw [ht]; simp at h1; exact h.running t op h1
    · intro t r h1; rw [ht]; simp at h1; exact h.returned t r h1
    · intro t op pc h1 h2; rw [ht] at h1; rw [hl]; exact h.exclusive t op pc h1 h2
    · intro t op pc h1 h2; rw [ht] at h1; simp [h.early t op pc h1 h2]
    · intro t op h1; rw [ht] at h1; simp [h.acquired t op h1]
  · have hget : ∀ i, c'.tasks i = if i = t then some (op, pc') else c.tasks i := by intro i; rw [htasks]
    constructor
    · intro i h1 e' he
      rw [hget] at h1
      split at h1
      · cases h1
      · next hi =>
        rcases List.mem_append.mp he with he | he
        · exact h.fresh i h1 e' he
        · simp at he; subst he; rw [hte]; simpa using fun e => hi e.symm
    · intro i op' pc h1
      rw [hget] at h1
      split at h1
      · next hi =>
        cases h1
        subst hi
        rcases hcase with ⟨rfl, _⟩ | ⟨pc0, h2, _⟩
        · simp
        · simp [h.called _ _ _ h2]
      · simp [h.called _ _ _ h1]
    · intro i op' h1
      rw [hget]
      rcases List.mem_append.mp h1 with h1 | h1
      · obtain ⟨pc0, h2⟩ := h.running i op' h1
        split
        · next hi =>
          subst hi
          rcases hcase with ⟨_, h3, _⟩ | ⟨pc1, h3, _⟩
          · rw [h3] at h2; cases h2
          · rw [h3] at h2; cases h2; exact ⟨_, rfl⟩
        · exact ⟨_, h2⟩
      · simp at h1
        subst h1
        simp only [Ev.task, Option.some.injEq] at hte
        subst hte
        rcases hcase with ⟨h3, _⟩ | ⟨pc1, h3, _, h4, _⟩
        · cases h3; exact ⟨_, if_pos rfl⟩
        · exact absurd rfl (h4 op')
    · intro i r h1
      rw [hget]
      rcases List.mem_append.mp h1 with h1 | h1
      · obtain ⟨op0, h2⟩ := h.returned i r h1
        split
        · next hi =>
          subst hi
          rcases hcase with ⟨_, h3, _⟩ | ⟨pc1, h3, h4, _⟩
          · rw [h3] at h2; cases h2
          · rw [h3] at h2; cases h2; exact absurd rfl (h4 r)
        · exact ⟨_, h2⟩
      · simp at h1
        subst h1
        simp only [Ev.task, Option.some.injEq] at hte
        subst hte
        rcases hcase with ⟨h3, _⟩ | ⟨pc1, h3, _, _, h5, _⟩
        · cases h3
        · exact ⟨op, by rw [if_pos rfl, (h5 r).mp rfl]⟩
    · intro i op' pc h1 h2
      rw [hget] at h1
      split at h1
      · next hi =>
        cases h1
        subst hi
        rcases hcase with ⟨_, _, rfl, _⟩ | ⟨pc1, h3, _, _, _, h6⟩
        · exact absurd h2 (by simp [Pc.holds])
        · rcases h6 with h6 | h6 | h6 | h6
          · exact h6.2.2.2.2
          · rw [h6.2.2.2.2]; exact h.exclusive _ _ _ h3 h6.2.2.1
          · exact absurd h2 h6.2.2.2.1
          · exact absurd h2 h6.2.2.2.1
      · next hi =>
        have h7 := h.exclusive _ _ _ h1 h2
        rcases hcase with ⟨_, _, _, h8⟩ | ⟨pc1, h3, _, _, _, h6⟩
        · rw [h8]; exact h7
        · rcases h6 with h6 | h6 | h6 | h6
          · rw [h6.2.2.2.1] at h7; cases h7
          · rw [h6.2.2.2.2]; exact h7
          · have := h.exclusive _ _ _ h3 h6.2.2.1
            rw [h7] at this
            exact absurd (Option.some.inj this) hi
          · rw [h6.2.2.2.2.2]; exact h7
    · intro i op' pc h1 h2 hmem
      rw [hget] at h1
      split at h1
      · next hi =>
        cases h1
        subst hi
        rcases hcase with ⟨rfl, h3, _, _⟩ | ⟨pc1, h3, _, _, _, h6⟩
        · simp at hmem
          exact h.fresh _ h3 _ hmem rfl
        · rcases List.mem_append.mp hmem with hmem | hmem
          · rcases h6 with h6 | h6 | h6 | h6
            · exact h.early _ _ _ h3 h6.2.1 hmem
            · obtain ⟨_, _, _, h6, _⟩ := h6
              cases pc' <;> simp [Pc.early, Pc.holds] at h2 h6
            · exact absurd h2 h6.2.2.2.2.1
            · exact h.early _ _ _ h3 (h6.2.2.2.2.1 h2) hmem
          · simp at hmem
            rcases h6 with h6 | h6 | h6 | h6
            · rw [h6.2.2.1] at h2; exact h2
            · exact h6.1 hmem.symm
            · exact h6.1 hmem.symm
            · exact h6.1 hmem.symm
      · next hi =>
        rcases List.mem_append.mp hmem with hmem | hmem
        · exact h.early _ _ _ h1 h2 hmem
        · simp at hmem
          subst hmem
          simp only [Ev.task, Option.some.injEq] at hte
          exact hi hte
    · intro i op' h1
      rw [hget] at h1
      split at h1
      · next hi =>
        cases h1
        subst hi
        rcases hcase with ⟨_, _, h3, _⟩ | ⟨pc1, h3, _, _, _, h6⟩
        · cases h3
        · rcases h6 with h6 | h6 | h6 | h6
          · simp [h6.1]
          · exact absurd rfl h6.2.1
          · exact absurd rfl h6.2.1
          · exact absurd rfl h6.2.1
      · simp [h.acquired _ _ h1]

theorem Run.taskInv {env : Env} {dbs : Dbs} {tr : Trace} (h : Run env (Conf.init dbs) tr) :
    TaskInv (Trace.last (Conf.init dbs) tr) tr.events := by
  induction h with
  | nil => exact TaskInv.init dbs
  | snoc h hs ih => rw [Trace.last_snoc, Trace.events_snoc]; exact ih.step hs

/-! ## The sequential history -/

/-- The reply that the method will give, from the one known after the step on the databases. -/
def Op.final : Op → Reply → Reply
  | .removeDb _ io, .status 200 => afterUnlink io
  | _, r => r

theorem replay_snoc (env : Env) (dbs : Dbs) (ops : List Op) (op : Op) :
    replay env dbs (ops ++ [op]) =
      ((replay env dbs ops).1 ++ [(Daemon.exec env op ⟨(replay env dbs ops).2, []⟩).1],
        (Daemon.exec env op ⟨(replay env dbs ops).2, []⟩).2.dbs) := by
  induction ops generalizing dbs with
  | nil => simp [replay]
  | cons o ops ih => simp [replay, ih]

/-- The step on the databases is the method. -/
theorem exec_act (env : Env) (op : Op) (h : op.isGetDb = false) (hb : ∀ n o, op = .newDb n o → badName n = false)
    (dbs : Dbs) : (Daemon.exec env op ⟨dbs, []⟩).1 = op.final (op.act env dbs).1 ∧
      (Daemon.exec env op ⟨dbs, []⟩).2.dbs = (op.act env dbs).2 := by
  cases op with
  | newDb n o =>
    simp only [Daemon.exec, Daemon.newDb, hb n o rfl, Op.act, Op.final, Daemon.invalidate]
    exact ⟨rfl, rfl⟩
  | newDbWith n o s => exact ⟨rfl, rfl⟩
  | clearDb n => exact ⟨rfl, rfl⟩
  | removeDb n io =>
    simp only [Daemon.exec, Daemon.removeDb, Op.act, Daemon.invalidate]
    cases Dbs.removeDb n dbs <;> exact ⟨rfl, rfl⟩
  | getDb n => cases h
  | addKv n k c o v => exact ⟨rfl, rfl⟩
  | getValue n k => exact ⟨rfl, rfl⟩
  | removeKey n k => exact ⟨rfl, rfl⟩
  | allNames => exact ⟨rfl, rfl⟩

theorem exec_bad (env : Env) (n : List Char) (o : Bool) (hb : badName n = true) (dbs : Dbs) :
    Daemon.exec env (.newDb n o) ⟨dbs, []⟩ = (.error .invalidDatabaseName, ⟨dbs, []⟩) := by
  simp [Daemon.exec, Daemon.newDb, hb]

/-- What the history says of a task. -/
def Recorded (S : List (Nat × Op × Reply)) (t : Nat) (op : Op) : Pc → Prop
  | .start | .missed | .invalidated | .locked => ∀ x ∈ S, x.1 ≠ t
  | .acted r => (t, op, op.final r) ∈ S
  | .cached r | .done r => (t, op, r) ∈ S
  | .unlinking => ∀ n io, op = .removeDb n io → (t, op, afterUnlink io) ∈ S
  | .cancelled => True

structure LinInv (env : Env) (dbs : Dbs) (c : Conf) (evs : List Ev) (S : List (Nat × Op × Reply)) : Prop where
  legal : replay env dbs (S.map fun x => x.2.1) = (S.map fun x => x.2.2, c.dbs)
  called : ∀ x ∈ S, .call x.1 x.2.1 ∈ evs ∧ x.2.1.isGetDb = false
  once : (S.map Prod.fst).Nodup
  recorded : ∀ t op pc, c.tasks t = some (op, pc) → op.isGetDb = false → Recorded S t op pc
  names : ∀ t n o pc, c.tasks t = some (.newDb n o, pc) → pc.holds → badName n = false
  realTime : ∀ t r t' op', Before evs (.ret t r) (.call t' op') → ∀ S₁ x S₂, S = S₁ ++ x :: S₂ → x.1 = t →
    ∀ y ∈ S₁, y.1 ≠ t'
  lockOrder : ∀ S₁ x S₂, S = S₁ ++ x :: S₂ → ∀ y ∈ S₁, .acquire y.1 ∈ evs → .acquire x.1 ∈ evs →
    Before evs (.acquire y.1) (.acquire x.1)
  holder : ∀ t op, c.tasks t = some (op, .locked) → ∀ y ∈ S, .acquire y.1 ∈ evs →
    Before evs (.acquire y.1) (.acquire t)

theorem LinInv.init (env : Env) (dbs : Dbs) : LinInv env dbs (Conf.init dbs) [] [] where
  legal := rfl
  called := by simp
  once := by simp
  recorded := by intro t op pc h; cases h
  names := by intro t n o pc h; cases h
  realTime := by rintro t r t' op' _ S1 x S2 h; simp at h
  lockOrder := by rintro S1 x S2 h; simp at h
  holder := by intro t op h; cases h

/-- A step that adds nothing to the history. -/
theorem LinInv.silent {env : Env} {dbs : Dbs} {c c' : Conf} {e : Ev} {evs : List Ev} {S : List (Nat × Op × Reply)}
    (h : LinInv env dbs c evs S) (ti : TaskInv c evs) (t : Nat) (op : Op) (pc' : Pc)
    (hdbs : c'.dbs = c.dbs) (hte : e.task = some t) (hget : ∀ i, c'.tasks i = if i = t then some (op, pc') else c.tasks i)
    (hrec : op.isGetDb = false → Recorded S t op pc')
    (hnames : ∀ n o, op = .newDb n o → pc'.holds → badName n = false)
    (hcall : ∀ o, e = .call t o → c.tasks t = none)
    (hacq : e = .acquire t → ∃ pc, c.tasks t = some (op, pc) ∧ pc.early)
    (hlock : pc' = .locked → e = .acquire t) : LinInv env dbs c' (evs ++ [e]) S := by
  have hnot : c.tasks t = none → ∀ y ∈ S, y.1 ≠ t := by
    intro h1 y hy hyt
    have := (h.called y hy).1
    exact ti.fresh t h1 _ this (by rw [← hyt]; rfl)
  have hacqS : e = .acquire t → ∀ y ∈ S, y.1 ≠ t := by
    intro h1 y hy hyt
    obtain ⟨pc, h2, h3⟩ := hacq h1
    obtain ⟨h4, h5⟩ := h.called y hy
    obtain ⟨pc4, h6⟩ := ti.running _ _ h4
    rw [hyt, h2] at h6
    cases h6
    have h7 := h.recorded t _ _ h2 h5
    cases pc <;> simp only [Pc.early] at h3 <;> exact h7 y hy hyt
  have hold : ∀ i, Ev.acquire i ∈ evs ++ [e] → Ev.acquire i ∈ evs ∨ (i = t ∧ e = .acquire t) := by
    intro i hi
    rcases List.mem_append.mp hi with hi | hi
    · exact .inl hi
    · simp at hi
      subst hi
      simp only [Ev.task, Option.some.injEq] at hte
      subst hte
      exact .inr ⟨rfl, rfl⟩
  constructor
  · rw [hdbs]; exact h.legal
  · intro x hx; obtain ⟨h1, h2⟩ := h.called x hx; exact ⟨by simp [h1], h2⟩
  · exact h.once
  · intro i op' pc h1 h2
    rw [hget] at h1
    split at h1
    · next hi => cases h1; subst hi; exact hrec h2
    · exact h.recorded i op' pc h1 h2
  · intro i n o pc h1 h2
    rw [hget] at h1
    split at h1
    · cases h1; exact hnames n o rfl h2
    · exact h.names i n o pc h1 h2
  · intro t1 r t2 op2 hb S1 x S2 hS hx y hy
    rcases hb.inv with hb | ⟨hb, _⟩
    · exact h.realTime t1 r t2 op2 hb S1 x S2 hS hx y hy
    · subst hb
      simp only [Ev.task, Option.some.injEq] at hte
      subst hte
      exact hnot (hcall _ rfl) y (by rw [hS]; simp [hy])
  · intro S1 x S2 hS y hy h1 h2
    rcases hold _ h1 with h1 | ⟨h1, he⟩
    · rcases hold _ h2 with h2 | ⟨h2, he⟩
      · exact (h.lockOrder S1 x S2 hS y hy h1 h2).snoc e
      · exact absurd h2 (hacqS he x (by rw [hS]; simp))
    · exact absurd h1 (hacqS he y (by rw [hS]; simp [hy]))
  · intro i op' h1 y hy h2
    rw [hget] at h1
    split at h1
    · next hi =>
      cases h1
      subst hi
      have he := hlock rfl
      rcases hold _ h2 with h2 | ⟨h2, _⟩
      · rw [he]; exact Before.of_mem h2 _
      · exact absurd h2 (hacqS he y hy)
    · next hi =>
      rcases hold _ h2 with h2 | ⟨h2, he⟩
      · exact (h.holder i op' h1 y hy h2).snoc e
      · exact absurd h2 (hacqS he y hy)

/-- A step that adds an operation to the history. -/
theorem LinInv.record {env : Env} {dbs : Dbs} {c c' : Conf} {e : Ev} {evs : List Ev} {S : List (Nat × Op × Reply)}
    (h : LinInv env dbs c evs S) (ti : TaskInv c evs) (t : Nat) (op : Op) (pc pc' : Pc) (r : Reply)
    (hold : c.tasks t = some (op, pc)) (hg : op.isGetDb = false) (hpc : pc = .start ∨ pc = .locked)
    (hexec : (Daemon.exec env op ⟨c.dbs, []⟩).1 = r) (hexec' : (Daemon.exec env op ⟨c.dbs, []⟩).2.dbs = c'.dbs)
    (hte : e = .act t ∨ ∃ r, e = .ret t r) (hget : ∀ i, c'.tasks i = if i = t then some (op, pc') else c.tasks i)
    (hrec : ∀ S, (t, op, r) ∈ S → Recorded S t op pc') (hlocked : pc' ≠ .locked)
    (hnames : ∀ n o, op = .newDb n o → pc'.holds → badName n = false) :
    LinInv env dbs c' (evs ++ [e]) (S ++ [(t, op, r)]) := by
  have hnew : ∀ x ∈ S, x.1 ≠ t := by
    have := h.recorded t op pc hold hg
    rcases hpc with rfl | rfl <;> exact this
  have hacq : ∀ i, Ev.acquire i ∈ evs ++ [e] → Ev.acquire i ∈ evs := by
    intro i hi
    rcases hte with rfl | ⟨r', rfl⟩ <;> simpa using hi
  have hcallE : ∀ i o, Before (evs ++ [e]) i (.call t o) → Before evs i (.call t o) := by
    intro i o hb
    rcases hb.inv with hb | ⟨hb, _⟩
    · exact hb
    · rcases hte with rfl | ⟨r', rfl⟩ <;> cases hb
  have hsplit : ∀ S1 x S2, S ++ [(t, op, r)] = S1 ++ x :: S2 →
      (∃ S2', S = S1 ++ x :: S2') ∨ (S1 = S ∧ x = (t, op, r)) := by
    intro S1 x S2 hS
    rcases List.eq_nil_or_concat S2 with rfl | ⟨l, z, rfl⟩
    · obtain ⟨h1, h2⟩ := List.append_inj' hS (by simp)
      simp at h2
      exact .inr ⟨h1.symm, h2.symm⟩
    · rw [List.concat_eq_append, ← List.cons_append, ← List.append_assoc] at hS
      obtain ⟨h1, _⟩ := List.append_inj' hS (by simp)
      exact .inl ⟨l, h1⟩
  constructor
  · rw [List.map_append, List.map_append]
    show replay env dbs ((S.map fun x => x.2.1) ++ [op]) = _
    rw [replay_snoc, h.legal]
    simp only [hexec, hexec']
    rfl
  · intro x hx
    rcases List.mem_append.mp hx with hx | hx
    · obtain ⟨h1, h2⟩ := h.called x hx; exact ⟨by simp [h1], h2⟩
    · simp at hx; subst hx; exact ⟨by simp [ti.called _ _ _ hold], hg⟩
  · rw [List.map_append, List.nodup_append]
    refine ⟨h.once, by simp, ?_⟩
    intro a ha b hb
    simp only [List.map_cons, List.map_nil, List.mem_singleton] at hb
    subst hb
    obtain ⟨x, hx, rfl⟩ := List.mem_map.mp ha
    exact hnew x hx
  · intro i op' pc2 h1 h2
    rw [hget] at h1
    split at h1
    · next hi => cases h1; subst hi; exact hrec _ (by simp)
    · next hi =>
      have := h.recorded i op' pc2 h1 h2
      cases pc2 with
      | start | missed | invalidated | locked =>
        intro x hx
        rcases List.mem_append.mp hx with hx | hx
        · exact this x hx
        · simp at hx; subst hx; exact fun e => hi e.symm
      | acted r' | cached r' | done r' => exact List.mem_append_left _ this
      | unlinking => intro n io e; exact List.mem_append_left _ (this n io e)
      | cancelled => trivial
  · intro i n o pc2 h1 h2
    rw [hget] at h1
    split at h1
    · cases h1; exact hnames n o rfl h2
    · exact h.names i n o pc2 h1 h2
  · intro t1 r1 t2 op2 hb S1 x S2 hS hx y hy
    have hb : Before evs (.ret t1 r1) (.call t2 op2) := by
      rcases hb.inv with hb | ⟨hb, _⟩
      · exact hb
      · rcases hte with rfl | ⟨r', rfl⟩ <;> cases hb
    rcases hsplit S1 x S2 hS with ⟨S2', hS⟩ | ⟨rfl, rfl⟩
    · exact h.realTime t1 r1 t2 op2 hb S1 x S2' hS hx y hy
    · obtain ⟨l1, l2, rfl, h1, h2⟩ := hb
      simp only at hx
      subst hx
      obtain ⟨op3, h3⟩ := ti.returned _ _ (List.mem_append_left l2 h1)
      rw [hold] at h3
      cases h3
      rcases hpc with h4 | h4 <;> cases h4
  · intro S1 x S2 hS y hy h1 h2
    rcases hsplit S1 x S2 hS with ⟨S2', hS⟩ | ⟨rfl, rfl⟩
    · exact (h.lockOrder S1 x S2' hS y hy (hacq _ h1) (hacq _ h2)).snoc e
    · rcases hpc with rfl | rfl
      · exact absurd (hacq _ h2) (ti.early t op _ hold trivial)
      · exact (h.holder t op hold y hy (hacq _ h1)).snoc e
  · intro i op' h1 y hy h2
    rw [hget] at h1
    split at h1
    · cases h1; exact absurd rfl hlocked
    · next hi =>
      rcases List.mem_append.mp hy with hy | hy
      · exact (h.holder i op' h1 y hy (hacq _ h2)).snoc e
      · simp at hy
        subst hy
        rcases hpc with rfl | rfl
        · exact absurd (hacq _ h2) (ti.early t op _ hold trivial)
        · have h3 := ti.exclusive t op _ hold trivial
          have h4 := ti.exclusive i op' _ h1 trivial
          rw [h3] at h4
          exact absurd (Option.some.inj h4).symm hi

theorem LinInv.step {env : Env} {dbs : Dbs} {c c' : Conf} {e : Ev} {evs : List Ev} {S : List (Nat × Op × Reply)}
    (h : LinInv env dbs c evs S) (ti : TaskInv c evs) (hs : Step env c e c') :
    ∃ S', LinInv env dbs c' (evs ++ [e]) S' := by
  cases hs with
  | @call t op hn =>
    refine ⟨S, h.silent ti t op .start rfl rfl (fun _ => rfl) ?_ (by simp [Pc.holds]) (fun _ _ => hn) (by simp) (by simp)⟩
    intro _ x hx hxt
    exact ti.fresh t hn _ (h.called x hx).1 (by rw [← hxt]; rfl)
  | @refuse t n o hn hb =>
    exact ⟨_, h.record ti t _ .start _ (.error .invalidDatabaseName) hn rfl (.inl rfl) (by rw [exec_bad env n o hb])
      (by rw [exec_bad env n o hb]; rfl) (.inr ⟨_, rfl⟩) (fun _ => rfl) (fun S hm => hm) (by simp) (by simp [Pc.holds])⟩
  | @invalidate t op n hn hi =>
    exact ⟨S, h.silent ti t op .invalidated rfl rfl (fun _ => rfl) (fun hg => (h.recorded t op .start hn hg :)) (by simp [Pc.holds])
      (by simp) (by simp) (by simp)⟩
  | @hit t n b hn hc =>
    exact ⟨S, h.silent ti t _ _ rfl rfl (fun _ => rfl) (fun hg => by cases hg) (by simp [Pc.holds])
      (by simp) (by simp) (by simp)⟩
  | @miss t n hn hc =>
    exact ⟨S, h.silent ti t _ _ rfl rfl (fun _ => rfl) (fun hg => by cases hg) (by simp [Pc.holds])
      (by simp) (by simp) (by simp)⟩
  | @acquire t op pc hn ha hl =>
    have he : pc.early := by cases op <;> simp only [Op.asks] at ha <;> simp [ha, Pc.early]
    refine ⟨S, h.silent ti t op .locked rfl rfl (fun _ => rfl) ?_ ?_ (by simp) (fun _ => ⟨pc, hn, he⟩) (by simp)⟩
    · intro hg
      have := h.recorded t op pc hn hg
      cases pc <;> simp only [Pc.early] at he <;> exact this
    · rintro n o rfl _
      exact ha.2
  | @act t op hn =>
    cases hg : op.isGetDb with
    | true =>
      cases op with
      | getDb n =>
        exact ⟨S, h.silent ti t _ _ rfl rfl (fun _ => rfl) (fun hg => by cases hg) (by simp)
          (by simp) (by simp) (by simp)⟩
      | _ => cases hg
    | false =>
      have hb : ∀ n o, op = .newDb n o → badName n = false := by
        rintro n o rfl
        exact h.names t n o _ hn trivial
      obtain ⟨h1, h2⟩ := exec_act env op hg hb c.dbs
      exact ⟨_, h.record ti t op .locked _ _ hn hg (.inr rfl) h1 h2 (.inl rfl) (fun _ => rfl) (fun S hm => hm) (by simp)
        (fun n o e _ => hb n o e)⟩
  | @uncache t n o r hn =>
    exact ⟨S, h.silent ti t _ _ rfl rfl (fun _ => rfl) (fun hg => (h.recorded t _ (.acted r) hn hg :))
      (fun n' o' e _ => by cases e; exact h.names t n o _ hn trivial) (by simp) (by simp) (by simp)⟩
  | @fill t n b hn =>
    exact ⟨S, h.silent ti t _ _ rfl rfl (fun _ => rfl) (fun hg => by cases hg) (by simp)
      (by simp) (by simp) (by simp)⟩
  | @ret t op pc r hn hr =>
    refine ⟨S, h.silent ti t _ _ rfl rfl (fun _ => rfl) ?_ (by simp [Pc.holds]) (by simp) (by simp) (by simp)⟩
    intro hg
    have h1 := h.recorded t op pc hn hg
    cases op with
    | getDb n => cases hg
    | removeDb n io => obtain ⟨rfl, rfl⟩ := hr; exact h1
    | newDb n o => cases hr; exact h1
    | newDbWith n o s => cases hr; exact h1
    | clearDb n => cases hr; exact h1
    | addKv n k c o v => cases hr; exact h1
    | getValue n k => cases hr; exact h1
    | removeKey n k => cases hr; exact h1
    | allNames => cases hr; exact h1
  | @drop t n io hn =>
    refine ⟨S, h.silent ti t _ _ rfl rfl (fun _ => rfl) ?_ (by simp) (by simp) (by simp) (by simp)⟩
    intro hg n' io' e
    cases e
    exact h.recorded t _ _ hn hg
  | @unlink t n io hn =>
    exact ⟨S, h.silent ti t _ _ rfl rfl (fun _ => rfl) (fun hg => h.recorded t _ _ hn hg n io rfl) (by simp)
      (by simp) (by simp) (by simp)⟩
  | @cancel t op pc hn ha =>
    exact ⟨S, h.silent ti t _ _ rfl rfl (fun _ => rfl) (fun _ => trivial) (by simp [Pc.holds])
      (by simp) (by simp) (by simp)⟩
  | @cancelLocked t op r hn ha =>
    exact ⟨S, h.silent ti t _ _ rfl rfl (fun _ => rfl) (fun _ => trivial) (by simp [Pc.holds])
      (by simp) (by simp) (by simp)⟩
  | evict n =>
    refine ⟨S, ?_⟩
    constructor
    · exact h.legal
    · intro x hx; obtain ⟨h1, h2⟩ := h.called x hx; exact ⟨by simp [h1], h2⟩
    · exact h.once
    · exact h.recorded
    · exact h.names
    · intro t1 r t2 op2 hb
      rcases hb.inv with hb | ⟨hb, _⟩
      · exact h.realTime t1 r t2 op2 hb
      · cases hb
    · intro S1 x S2 hS y hy h1 h2
      exact (h.lockOrder S1 x S2 hS y hy (by simpa using h1) (by simpa using h2)).snoc _
    · intro i op' h1 y hy h2
      exact (h.holder i op' h1 y hy (by simpa using h2)).snoc _

theorem Run.linInv {env : Env} {dbs : Dbs} {tr : Trace} (h : Run env (Conf.init dbs) tr) :
    ∃ S, LinInv env dbs (Trace.last (Conf.init dbs) tr) tr.events S := by
  induction h with
  | nil => exact ⟨[], LinInv.init env dbs⟩
  | snoc h hs ih =>
    obtain ⟨S, ih⟩ := ih
    rw [Trace.last_snoc, Trace.events_snoc]
    exact ih.step h.taskInv hs

/-! ## What `get_db` reads -/

theorem Trace.confs_snoc (c : Conf) (tr : Trace) (e : Ev) (c' : Conf) :
    confs c (tr ++ [(e, c')]) = confs c tr ++ [c'] := by simp [confs]

theorem Trace.confs_append (c : Conf) (tr tr' : Trace) (e : Ev) (c' y : Conf) (h : y ∈ confs c' tr') :
    y ∈ confs c (tr ++ (e, c') :: tr') := by
  simp only [confs, List.mem_cons, List.mem_map, List.map_append, List.map_cons, List.mem_append] at h ⊢
  rcases h with rfl | h
  · exact .inr (.inr (.inl rfl))
  · exact .inr (.inr (.inr h))

theorem Trace.events_append (tr tr' : Trace) : events (tr ++ tr') = events tr ++ events tr' := by simp [events]

/-- The databases of one of these configurations have this answer to `get_db`. -/
def ReadOf (env : Env) (n : List Char) (cs : List Conf) (r : Reply) : Prop := ∃ y ∈ cs, r = Dbs.getDb env n y.dbs

theorem ReadOf.mono {env : Env} {n : List Char} {cs cs' : List Conf} {r : Reply} (h : ReadOf env n cs r)
    (hs : ∀ y ∈ cs, y ∈ cs') : ReadOf env n cs' r := by
  obtain ⟨y, hy, e⟩ := h
  exact ⟨y, hs y hy, e⟩

/-- From a moment when a database is neither cached nor about to be, `get_db` answers only with what the
databases were since. -/
theorem Run.reads {env : Env} {x : Conf} {tr : Trace} (h : Run env x tr) (n : List Char)
    (hc : AMap.get n x.cache = none) (ht : ∀ t r, x.tasks t ≠ some (.getDb n, .acted r)) :
    (∀ b, AMap.get n (Trace.last x tr).cache = some b → ReadOf env n (Trace.confs x tr) (.bytes b)) ∧
    (∀ t r, (Trace.last x tr).tasks t = some (.getDb n, .acted r) → ReadOf env n (Trace.confs x tr) r) ∧
    (∀ t r, x.tasks t = none → (Trace.last x tr).tasks t = some (.getDb n, .cached r) ∨
      (Trace.last x tr).tasks t = some (.getDb n, .done r) → ReadOf env n (Trace.confs x tr) r) := by
  induction h with
  | nil =>
    refine ⟨?_, ?_, ?_⟩
    · intro b hb
      have hb : AMap.get n x.cache = some b := hb
      rw [hc] at hb; cases hb
    · intro t r h1; exact absurd h1 (ht t r)
    · intro t r h0 h1
      rcases h1 with h1 | h1 <;> exact absurd (h0.symm.trans h1) (by simp)
  | @snoc tr e c' h hs ih =>
    obtain ⟨ih1, ih2, ih3⟩ := ih
    rw [Trace.last_snoc, Trace.confs_snoc]
    have hmono : ∀ {r}, ReadOf env n (Trace.confs x tr) r → ReadOf env n (Trace.confs x tr ++ [c']) r :=
      fun h => h.mono (fun y hy => List.mem_append_left _ hy)
    have hnow : ReadOf env n (Trace.confs x tr) (Dbs.getDb env n (Trace.last x tr).dbs) :=
      ⟨_, Trace.last_mem x tr, rfl⟩
    generalize hcl : Trace.last x tr = c at hs ih1 ih2 ih3 hnow
    -- tasks that did not move
    have hrest : ∀ t op pc, (∀ i, c'.tasks i = if i = t then some (op, pc) else c.tasks i) →
        (∀ r, op = .getDb n → pc = .acted r → ReadOf env n (Trace.confs x tr) r) →
        (∀ r, x.tasks t = none → op = .getDb n → pc = .cached r ∨ pc = .done r →
          ReadOf env n (Trace.confs x tr) r) →
        (∀ t r, c'.tasks t = some (.getDb n, .acted r) → ReadOf env n (Trace.confs x tr ++ [c']) r) ∧
        (∀ t r, x.tasks t = none → c'.tasks t = some (.getDb n, .cached r) ∨
          c'.tasks t = some (.getDb n, .done r) → ReadOf env n (Trace.confs x tr ++ [c']) r) := by
      intro t op pc hget h1 h2
      refine ⟨?_, ?_⟩
      · intro i r hi
        rw [hget] at hi
        split at hi
        · cases hi; exact hmono (h1 r rfl rfl)
        · exact hmono (ih2 i r hi)
      · intro i r h0 hi
        rw [hget] at hi
        split at hi
        · next hit =>
          subst hit
          rcases hi with hi | hi
          · cases hi; exact hmono (h2 r h0 rfl (.inl rfl))
          · cases hi; exact hmono (h2 r h0 rfl (.inr rfl))
        · exact hmono (ih3 i r h0 hi)
    have herase : ∀ m b, AMap.get n (AMap.erase m c.cache) = some b → AMap.get n c.cache = some b := by
      intro m b hb
      rw [AMap.get_erase] at hb
      split at hb
      · cases hb
      · exact hb
    cases hs with
    | @call t op hn =>
      exact ⟨fun b hb => hmono (ih1 b hb), hrest t op .start (fun _ => rfl) (by simp) (by simp)⟩
    | @refuse t m o hn hb =>
      exact ⟨fun b hb => hmono (ih1 b hb), hrest t _ _ (fun _ => rfl) (by simp) (by simp)⟩
    | @invalidate t op m hn hi =>
      exact ⟨fun b hb => hmono (ih1 b (herase m b hb)), hrest t op .invalidated (fun _ => rfl) (by simp) (by simp)⟩
    | @hit t m b hn hcm =>
      refine ⟨fun b hb => hmono (ih1 b hb), hrest t _ _ (fun _ => rfl) (by simp) ?_⟩
      intro r _ e1 e2
      cases e1
      rcases e2 with e2 | e2
      · cases e2
      · cases e2; exact ih1 b hcm
    | @miss t m hn hcm =>
      exact ⟨fun b hb => hmono (ih1 b hb), hrest t _ _ (fun _ => rfl) (by simp) (by simp)⟩
    | @acquire t op pc hn ha hl =>
      exact ⟨fun b hb => hmono (ih1 b hb), hrest t op .locked (fun _ => rfl) (by simp) (by simp)⟩
    | @act t op hn =>
      refine ⟨fun b hb => hmono (ih1 b hb), hrest t op _ (fun _ => rfl) ?_ (by simp)⟩
      rintro r rfl e
      cases e
      exact hnow
    | @uncache t m o r hn =>
      exact ⟨fun b hb => hmono (ih1 b (herase m b hb)), hrest t _ _ (fun _ => rfl) (by simp) (by simp)⟩
    | @fill t m b hn =>
      refine ⟨?_, hrest t _ _ (fun _ => rfl) (by simp) ?_⟩
      · intro b' hb'
        have hb' : AMap.get n (AMap.insert m b c.cache) = some b' := hb'
        rw [AMap.get_insert] at hb'
        split at hb'
        · next hm => cases hb'; subst hm; exact hmono (ih2 t _ hn)
        · exact hmono (ih1 b' hb')
      · intro r _ e1 e2
        cases e1
        rcases e2 with e2 | e2
        · cases e2; exact ih2 t _ hn
        · cases e2
    | @ret t op pc r hn hr =>
      refine ⟨fun b hb => hmono (ih1 b hb), hrest t op _ (fun _ => rfl) (by simp) ?_⟩
      rintro r' h0 rfl e2
      rcases e2 with e2 | e2
      · cases e2
      · cases e2
        rcases hr with rfl | ⟨rfl, _⟩
        · exact ih3 t r h0 (.inl hn)
        · exact ih2 t r hn
    | @drop t m io hn =>
      exact ⟨fun b hb => hmono (ih1 b hb), hrest t _ _ (fun _ => rfl) (by simp) (by simp)⟩
    | @unlink t m io hn =>
      exact ⟨fun b hb => hmono (ih1 b hb), hrest t _ _ (fun _ => rfl) (by simp) (by simp)⟩
    | @cancel t op pc hn ha =>
      exact ⟨fun b hb => hmono (ih1 b hb), hrest t _ _ (fun _ => rfl) (by simp) (by simp)⟩
    | @cancelLocked t op r hn ha =>
      exact ⟨fun b hb => hmono (ih1 b hb), hrest t _ _ (fun _ => rfl) (by simp) (by simp)⟩
    | evict m =>
      exact ⟨fun b hb => hmono (ih1 b (herase m b hb)), fun t r hi => hmono (ih2 t r hi),
        fun t r h0 hi => hmono (ih3 t r h0 hi)⟩

/-! ## The shape of tasks -/

/-- The points that a method can be at. -/
def Op.At : Op → Pc → Prop
  | .newDb _ _, pc => pc = .start ∨ pc = .locked ∨ (∃ r, pc = .acted r) ∨ (∃ r, pc = .cached r) ∨ ∃ r, pc = .done r
  | .getDb _, pc => pc = .start ∨ pc = .missed ∨ pc = .locked ∨ (∃ r, pc = .acted r) ∨ (∃ r, pc = .cached r) ∨
    ∃ r, pc = .done r
  | .removeDb _ _, pc => pc = .start ∨ pc = .invalidated ∨ pc = .locked ∨ pc = .acted (.error .databaseNotFound) ∨
    pc = .acted (.status 200) ∨ pc = .unlinking ∨ ∃ r, pc = .done r
  | .getValue _ _, pc | .allNames, pc => pc = .start ∨ pc = .locked ∨ (∃ r, pc = .acted r) ∨ ∃ r, pc = .done r
  | .newDbWith _ _ _, pc | .clearDb _, pc | .addKv _ _ _ _ _, pc | .removeKey _ _, pc =>
    pc = .start ∨ pc = .invalidated ∨ pc = .locked ∨ (∃ r, pc = .acted r) ∨ ∃ r, pc = .done r

structure ShapeInv (c : Conf) : Prop where
  at_ : ∀ t op pc, c.tasks t = some (op, pc) → pc ≠ .cancelled → op.At pc
  held : ∀ t, c.lock = some t → ∃ op pc, c.tasks t = some (op, pc) ∧ pc.holds

theorem At.locked (op : Op) : op.At .locked := by cases op <;> simp [Op.At]

theorem At.start (op : Op) : op.At .start := by cases op <;> simp [Op.At]

theorem At.done (op : Op) (r : Reply) : op.At (.done r) := by cases op <;> simp [Op.At]

theorem At.acted (env : Env) (op : Op) (dbs : Dbs) : op.At (.acted (op.act env dbs).1) := by
  cases op with
  | removeDb n io => simp only [Op.act]; cases Dbs.removeDb n dbs <;> simp [Op.At]
  | _ => simp [Op.At]

theorem At.invalidated (op : Op) (n : List Char) (h : op.invalidates = some n) : op.At .invalidated := by
  cases op <;> simp [Op.invalidates] at h <;> simp [Op.At]

theorem ShapeInv.step {env : Env} {c c' : Conf} {e : Ev} {evs : List Ev} (h : ShapeInv c) (ti : TaskInv c evs)
    (hs : Step env c e c') : ShapeInv c' := by
  constructor
  · have key : ∀ t op pc, (∀ i, c'.tasks i = if i = t then some (op, pc) else c.tasks i) →
        (pc ≠ .cancelled → op.At pc) →
        ∀ t op pc, c'.tasks t = some (op, pc) → pc ≠ .cancelled → op.At pc := by
      intro t op pc hget ha i op' pc' hi hx
      rw [hget] at hi
      split at hi
      · cases hi; exact ha hx
      · exact h.at_ i op' pc' hi hx
    cases hs with
    | @call t op hn => exact key t _ _ (fun _ => rfl) (fun _ => At.start op)
    | @refuse t n o hn hb => exact key t _ _ (fun _ => rfl) (fun _ => At.done _ _)
    | @invalidate t op n hn hi => exact key t _ _ (fun _ => rfl) (fun _ => At.invalidated op n hi)
    | @hit t n b hn hc => exact key t _ _ (fun _ => rfl) (fun _ => At.done _ _)
    | @miss t n hn hc => exact key t _ _ (fun _ => rfl) (fun _ => by simp [Op.At])
    | @acquire t op pc hn ha hl => exact key t _ _ (fun _ => rfl) (fun _ => At.locked op)
    | @act t op hn => exact key t _ _ (fun _ => rfl) (fun _ => At.acted env op c.dbs)
    | @uncache t n o r hn => exact key t _ _ (fun _ => rfl) (fun _ => by simp [Op.At])
    | @fill t n b hn => exact key t _ _ (fun _ => rfl) (fun _ => by simp [Op.At])
    | @ret t op pc r hn hr => exact key t _ _ (fun _ => rfl) (fun _ => At.done _ _)
    | @drop t n io hn => exact key t _ _ (fun _ => rfl) (fun _ => by simp [Op.At])
    | @unlink t n io hn => exact key t _ _ (fun _ => rfl) (fun _ => At.done _ _)
    | cancel hn ha => exact key _ _ _ (fun _ => rfl) (fun e => absurd rfl e)
    | cancelLocked hn ha => exact key _ _ _ (fun _ => rfl) (fun e => absurd rfl e)
    | evict n => exact h.at_
  · rcases hs.moves with ⟨_, htasks, hl⟩ | ⟨t, op, pc', _, htasks, hcase⟩
    · rw [htasks, hl]; exact h.held
    · have hget : ∀ i, c'.tasks i = if i = t then some (op, pc') else c.tasks i := by intro i; rw [htasks]
      intro i hi
      rw [hget]
      rcases hcase with ⟨_, h3, _, h4⟩ | ⟨pc, h3, _, _, _, h6⟩
      · rw [h4] at hi
        obtain ⟨op1, pc1, h5, h6⟩ := h.held i hi
        have : i ≠ t := by rintro rfl; rw [h3] at h5; cases h5
        rw [if_neg this]
        exact ⟨_, _, h5, h6⟩
      · rcases h6 with h6 | h6 | h6 | h6
        · rw [h6.2.2.2.2] at hi
          cases hi
          exact ⟨op, pc', if_pos rfl, by rw [h6.2.2.1]; trivial⟩
        · rw [h6.2.2.2.2, ti.exclusive _ _ _ h3 h6.2.2.1] at hi
          cases hi
          exact ⟨op, pc', if_pos rfl, h6.2.2.2.1⟩
        · rw [h6.2.2.2.2.2] at hi; cases hi
        · rw [h6.2.2.2.2.2] at hi
          obtain ⟨op1, pc1, h7, h8⟩ := h.held i hi
          have : i ≠ t := by rintro rfl; rw [h3] at h7; cases h7; exact h6.2.2.1 h8
          rw [if_neg this]
          exact ⟨_, _, h7, h8⟩

theorem Run.shapeInv {env : Env} {dbs : Dbs} {tr : Trace} (h : Run env (Conf.init dbs) tr) :
    ShapeInv (Trace.last (Conf.init dbs) tr) := by
  induction h with
  | nil => exact ⟨(by intro t op pc h; cases h), (by intro t h; cases h)⟩
  | snoc h hs ih => rw [Trace.last_snoc]; exact ih.step h.taskInv hs

/-- How many steps are left at most. -/
def Pc.rank : Pc → Nat
  | .start => 5
  | .missed | .invalidated => 4
  | .locked => 3
  | .acted _ => 2
  | .cached _ | .unlinking => 1
  | .done _ | .cancelled => 0

theorem Step.rank {env : Env} {c c' : Conf} {e : Ev} (hs : Step env c e c') (t : Nat) (he : e.task = some t)
    (hc : ∀ op, e ≠ .call t op) :
    ∃ op pc pc', c.tasks t = some (op, pc) ∧ c'.tasks t = some (op, pc') ∧ pc'.rank < pc.rank := by
  cases hs with
  | @call t' op hn => cases he; exact absurd rfl (hc op)
  | refuse hn hb => cases he; exact ⟨_, _, _, hn, if_pos rfl, by simp [Pc.rank]⟩
  | invalidate hn hi => cases he; exact ⟨_, _, _, hn, if_pos rfl, by simp [Pc.rank]⟩
  | hit hn hc => cases he; exact ⟨_, _, _, hn, if_pos rfl, by simp [Pc.rank]⟩
  | miss hn hc => cases he; exact ⟨_, _, _, hn, if_pos rfl, by simp [Pc.rank]⟩
  | @acquire t' op pc hn ha hl =>
    cases he
    have h : pc.early := by cases op <;> simp only [Op.asks] at ha <;> simp [ha, Pc.early]
    exact ⟨_, _, _, hn, if_pos rfl, by cases pc <;> simp [Pc.early, Pc.rank] at h ⊢⟩
  | act hn => cases he; exact ⟨_, _, _, hn, if_pos rfl, by simp [Pc.rank]⟩
  | uncache hn => cases he; exact ⟨_, _, _, hn, if_pos rfl, by simp [Pc.rank]⟩
  | fill hn => cases he; exact ⟨_, _, _, hn, if_pos rfl, by simp [Pc.rank]⟩
  | @ret t' op pc r hn hr =>
    cases he
    have hh : pc.holds := by
      cases op <;> simp only [Op.returns] at hr
      case getDb n => rcases hr with h | ⟨h, _⟩ <;> simp [h, Pc.holds]
      case removeDb n io => simp [hr.1, Pc.holds]
      all_goals simp [hr, Pc.holds]
    exact ⟨_, _, _, hn, if_pos rfl, by cases pc <;> simp [Pc.holds, Pc.rank] at hh ⊢⟩
  | drop hn => cases he; exact ⟨_, _, _, hn, if_pos rfl, by simp [Pc.rank]⟩
  | unlink hn => cases he; exact ⟨_, _, _, hn, if_pos rfl, by simp [Pc.rank]⟩
  | @cancel t' op pc hn ha =>
    cases he
    exact ⟨_, _, _, hn, if_pos rfl, by cases pc <;> simp [Op.awaits, Pc.rank] at ha ⊢⟩
  | cancelLocked hn ha => cases he; exact ⟨_, _, _, hn, if_pos rfl, by simp [Pc.rank]⟩
  | evict n => cases he

end Souris
