import Verif.Spec.RaceFree
import Verif.Props.Forward
import Verif.Props.IsolationConcurrent

/-! # C111: whole-database reads without races -/

namespace Souris

theorem Op.act_keeps {env : Env} {op : Op} {n : List Char} (h : ¬ op.Writes n) (dbs : Dbs) :
    AMap.get n (op.act env dbs).2 = AMap.get n dbs := by
  by_cases hn : op.names n
  · have hr : op.onlyReads := by
      by_contra hr
      refine h ⟨?_, hr⟩
      cases op <;> first | exact congrArg some (Eq.symm hn) | exact absurd trivial hr
    cases op <;> first | rfl | exact hr.elim
  · have := congrArg (AMap.get n) (Op.act_only_ne env hn dbs)
    rwa [AMap.get_only, AMap.get_only] at this

theorem Quiet.prefix {env : Env} {n : List Char} {c c' : Conf} {e : Ev} {evs : List Ev} (ti : TaskInv c evs)
    (hs : Step env c e c') (h : Quiet (evs ++ [e]) n) : Quiet evs n := by
  have key : ∀ w g op, .call g op ∈ evs → Precedes (evs ++ [e]) w g → Precedes evs w g := by
    rintro w g op hg ⟨r, op', hb⟩
    rcases hb.inv with hb | ⟨rfl, -⟩
    · exact ⟨r, op', hb⟩
    · exfalso
      obtain ⟨pc, hpc⟩ := ti.running g op hg
      cases hs with
      | call _ h2 => rw [hpc] at h2; cases h2
  intro w op g hw ho hg
  rcases h w op g (List.mem_append_left _ hw) ho (List.mem_append_left _ hg) with h1 | h1
  · exact .inl (key _ _ _ hg h1)
  · exact .inr (key _ _ _ hw h1)

/-- A change of the database and a read of it are not under way at once. -/
theorem Quiet.alone {n : List Char} {c : Conf} {evs : List Ev} (ti : TaskInv c evs) (h : Quiet evs n) {w g : Nat} {op : Op}
    {pc pc' : Pc} (hw : c.tasks w = some (op, pc)) (ho : op.Writes n) (hg : c.tasks g = some (.getDb n, pc'))
    (hd : ∀ r, pc ≠ .done r) (hd' : ∀ r, pc' ≠ .done r) : False := by
  have key : ∀ t t', Precedes evs t t' → ∃ op r, c.tasks t = some (op, .done r) := by
    rintro t t' ⟨r, op', l₁, l₂, e, h1, -⟩
    obtain ⟨op, h2⟩ := ti.returned t r (by rw [e]; exact List.mem_append_left _ h1)
    exact ⟨op, r, h2⟩
  rcases h w op g (ti.called _ _ _ hw) ho (ti.called _ _ _ hg) with h1 | h1
  · obtain ⟨op', r, h2⟩ := key _ _ h1
    rw [hw] at h2
    cases h2
    exact hd r rfl
  · obtain ⟨op', r, h2⟩ := key _ _ h1
    rw [hg] at h2
    cases h2
    exact hd' r rfl

/-- The cached copy is the present, or an `add_db` of the database is between its change and the cache. -/
structure Clean (env : Env) (n : List Char) (c : Conf) : Prop where
  copy : ∀ b, AMap.get n c.cache = some b → Dbs.getDb env n c.dbs = .bytes b ∨
    ∃ w o pc, c.tasks w = some (.newDb n o, pc) ∧ (pc = .cancelled ∨ ∃ r, pc = .acted r)
  none : ∀ w op pc, op.invalidates = some n → c.tasks w = some (op, pc) → pc = .invalidated ∨ pc = .locked →
    AMap.get n c.cache = none

theorem Op.invalidates_writes {op : Op} {n : List Char} (h : op.invalidates = some n) : op.Writes n := by
  cases op <;> cases h <;> exact ⟨rfl, id⟩

theorem Op.Writes.cases {op : Op} {n : List Char} (h : op.Writes n) : op.invalidates = some n ∨ ∃ o, op = .newDb n o := by
  obtain ⟨h1, h2⟩ := h
  cases op <;> cases h1
  case newDb.refl o => exact .inr ⟨o, rfl⟩
  all_goals first | exact .inl rfl | exact absurd trivial h2

theorem Dbs.getDb_congr (env : Env) {n : List Char} {dbs dbs' : Dbs} (h : AMap.get n dbs = AMap.get n dbs') :
    Dbs.getDb env n dbs = Dbs.getDb env n dbs' := by
  unfold Dbs.getDb
  rw [h]

theorem Clean.step {env : Env} {n : List Char} {c c' : Conf} {e : Ev} {evs : List Ev} (h : Clean env n c)
    (hf : Fresh env n c) (ti : TaskInv c evs) (hq : Quiet evs n) (hs : Step env c e c') : Clean env n c' := by
  have herase : ∀ m b, AMap.get n (AMap.erase m c.cache) = some b → AMap.get n c.cache = some b := by
    intro m b hb
    rw [AMap.get_erase] at hb
    split at hb
    · cases hb
    · exact hb
  have herase' : ∀ m, AMap.get n c.cache = Option.none → AMap.get n (AMap.erase m c.cache) = Option.none := by
    intro m hb
    rw [AMap.get_erase]
    split
    · rfl
    · exact hb
  -- a step of `t` that neither changes the databases nor adds to the cache
  have easy : ∀ (c' : Conf) (t : Nat) (op : Op) (pc : Pc), c'.dbs = c.dbs →
      (∀ b, AMap.get n c'.cache = some b → AMap.get n c.cache = some b) →
      (∀ i, c'.tasks i = if i = t then some (op, pc) else c.tasks i) →
      (∀ o pc', c.tasks t = some (.newDb n o, pc') → (pc' = .cancelled ∨ ∃ r, pc' = .acted r) →
        op = .newDb n o ∧ pc = .cancelled ∨ AMap.get n c'.cache = Option.none) →
      (op.invalidates = some n → pc = .invalidated ∨ pc = .locked → AMap.get n c'.cache = Option.none) → Clean env n c' := by
    intro c' t op pc hdbs hcache htasks hwit hnone
    refine ⟨?_, ?_⟩
    · intro b hb
      rw [hdbs]
      rcases h.copy b (hcache b hb) with h1 | ⟨w, o, pc', h1, h2⟩
      · exact .inl h1
      · right
        by_cases hw : w = t
        · subst hw
          rcases hwit o pc' h1 h2 with ⟨rfl, rfl⟩ | h3
          · exact ⟨w, o, .cancelled, by rw [htasks]; simp, .inl rfl⟩
          · rw [h3] at hb; cases hb
        · exact ⟨w, o, pc', by rw [htasks]; simp [hw, h1], h2⟩
    · intro w op' pc' hi hw hpc
      rw [htasks] at hw
      split at hw
      · cases hw; exact hnone hi hpc
      · have h0 := h.none w op' pc' hi hw hpc
        cases hc : AMap.get n c'.cache with
        | none => rfl
        | some b => rw [hcache b hc] at h0; cases h0
  cases hs with
  | @call t op hn =>
    refine easy _ t op .start rfl (fun _ hb => hb) (fun _ => rfl) ?_ (by simp)
    intro o pc' h1; rw [hn] at h1; cases h1
  | @refuse t m o hn hb =>
    refine easy _ t _ _ rfl (fun _ hb => hb) (fun _ => rfl) ?_ (by simp)
    intro o' pc' h1 h2; rw [hn] at h1; cases h1; simp at h2
  | @invalidate t op m hn hi =>
    refine easy _ t op .invalidated rfl (herase m) (fun _ => rfl) ?_ ?_
    · intro o pc' h1 h2; rw [hn] at h1; cases h1; simp at h2
    · intro hi' _
      rw [hi] at hi'
      cases hi'
      show AMap.get n (AMap.erase n c.cache) = Option.none
      rw [AMap.get_erase]; simp
  | @hit t m b hn hc =>
    refine easy _ t _ _ rfl (fun _ hb => hb) (fun _ => rfl) ?_ (by simp)
    intro o pc' h1; rw [hn] at h1; cases h1
  | @miss t m hn hc =>
    refine easy _ t _ _ rfl (fun _ hb => hb) (fun _ => rfl) ?_ (by simp)
    intro o pc' h1; rw [hn] at h1; cases h1
  | @acquire t op pc hn ha hl =>
    have he : pc.early := by cases op <;> simp only [Op.asks] at ha <;> simp [ha, Pc.early]
    refine easy _ t op .locked rfl (fun _ hb => hb) (fun _ => rfl) ?_ ?_
    · intro o pc' h1 h2
      rw [hn] at h1
      cases h1
      rcases h2 with rfl | ⟨r, rfl⟩ <;> exact he.elim
    · intro hi _
      have hpc : pc = .invalidated := by cases op <;> first | exact ha | cases hi
      exact h.none t op pc hi hn (.inl hpc)
  | @act t op hn =>
    refine ⟨?_, ?_⟩
    · intro b hb
      have hb : AMap.get n c.cache = some b := hb
      by_cases hw : op.Writes n
      · rcases hw.cases with hi | ⟨o, rfl⟩
        · rw [h.none t op .locked hi hn (.inr rfl)] at hb; cases hb
        · exact .inr ⟨t, o, _, by simp [Conf.set]; rfl, .inr ⟨_, rfl⟩⟩
      · rcases h.copy b hb with h1 | ⟨w, o, pc', h1, h2⟩
        · left
          rw [← h1]
          exact Dbs.getDb_congr env (Op.act_keeps hw c.dbs)
        · right
          refine ⟨w, o, pc', ?_, h2⟩
          have hne : w ≠ t := by
            rintro rfl
            rw [hn] at h1
            cases h1
            simp at h2
          simp [Conf.set, hne, h1]
    · intro w op' pc' hi hw hpc
      simp only [Conf.set] at hw
      split at hw
      · cases hw; simp at hpc
      · exact h.none w op' pc' hi hw hpc
  | @uncache t m o r hn =>
    refine easy _ t _ _ rfl (herase m) (fun _ => rfl) ?_ (by simp)
    intro o' pc' h1 h2
    rw [hn] at h1
    cases h1
    right
    show AMap.get n (AMap.erase n c.cache) = Option.none
    rw [AMap.get_erase]; simp
  | @fill t m b hn =>
    by_cases hm : m = n
    · subst hm
      refine ⟨?_, ?_⟩
      · intro b' hb'
        have hb' : AMap.get m (AMap.insert m b c.cache) = some b' := hb'
        rw [AMap.get_insert] at hb'
        simp only [if_true, Option.some.injEq] at hb'
        subst hb'
        exact .inl (hf.acted t _ hn)
      · intro w op' pc' hi hw hpc
        exfalso
        simp only [Conf.set] at hw
        split at hw
        · cases hw; cases hi
        · exact hq.alone ti hw (Op.invalidates_writes hi) hn (by rintro r rfl; simp at hpc) (by simp)
    · have hc : ∀ b', AMap.get n (AMap.insert m b c.cache) = some b' → AMap.get n c.cache = some b' := by
        intro b' hb'
        rw [AMap.get_insert] at hb'
        simpa [hm, Ne.symm hm] using hb'
      refine easy _ t _ _ rfl hc (fun _ => rfl) ?_ (by simp)
      intro o pc' h1; rw [hn] at h1; cases h1
  | @ret t op pc r hn hr =>
    refine easy _ t _ _ rfl (fun _ hb => hb) (fun _ => rfl) ?_ (by simp)
    intro o pc' h1 h2
    rw [hn] at h1
    cases h1
    have hr : pc = .cached r := hr
    subst hr
    simp at h2
  | @drop t m io hn =>
    refine easy _ t _ _ rfl (fun _ hb => hb) (fun _ => rfl) ?_ (by simp)
    intro o pc' h1; rw [hn] at h1; cases h1
  | @unlink t m io hn =>
    refine easy _ t _ _ rfl (fun _ hb => hb) (fun _ => rfl) ?_ (by simp)
    intro o pc' h1; rw [hn] at h1; cases h1
  | @cancel t op pc hn ha =>
    refine easy _ t _ _ rfl (fun _ hb => hb) (fun _ => rfl) ?_ (by simp)
    intro o pc' h1 h2
    rw [hn] at h1
    cases h1
    exact .inl ⟨rfl, rfl⟩
  | @cancelLocked t op r hn ha =>
    refine easy _ t _ _ rfl (fun _ hb => hb) (fun _ => rfl) ?_ (by simp)
    intro o pc' h1 h2
    rw [hn] at h1
    cases h1
    exact .inl ⟨rfl, rfl⟩
  | evict m =>
    refine ⟨fun b hb => h.copy b (herase m b hb), fun w op' pc' hi hw hpc => herase' m (h.none w op' pc' hi hw hpc)⟩

theorem Run.clean {env : Env} {dbs : Dbs} {tr : Trace} (h : Run env (Conf.init dbs) tr) {n : List Char}
    (hq : Quiet tr.events n) : Clean env n (Trace.last (Conf.init dbs) tr) := by
  induction h with
  | nil => exact ⟨fun b hb => (by cases hb), fun w op pc hi hw => (by cases hw)⟩
  | @snoc tr e c' h hs ih =>
    rw [Trace.events_snoc] at hq
    rw [Trace.last_snoc]
    have hq' := hq.prefix h.taskInv hs
    exact (ih hq').step (h.fresh n) h.taskInv hq' hs

/-- What an answer to `get_db` is. -/
theorem Step.answers {env : Env} {n : List Char} {c c' : Conf} {e : Ev} {evs : List Ev} (h : Clean env n c)
    (hf : Fresh env n c) (ti : TaskInv c evs) (hq : Quiet evs n) (hs : Step env c e c') {t : Nat} {r : Reply}
    (ht' : c'.tasks t = some (.getDb n, .done r)) (ht : ∀ r, c.tasks t ≠ some (.getDb n, .done r)) :
    r = Dbs.getDb env n c.dbs := by
  have key : ∀ u op pc, c.set u op pc = c' ∨ (Conf.set { c with lock := none } u op pc) = c' → u = t ∧ op = .getDb n ∧ pc = .done r := by
    intro u op pc hc
    have hc' : c'.tasks t = if t = u then some (op, pc) else c.tasks t := by rcases hc with rfl | rfl <;> rfl
    rw [hc'] at ht'
    split at ht'
    · next e => cases ht'; exact ⟨e.symm, rfl, rfl⟩
    · exact absurd ht' (ht r)
  cases hs with
  | @hit u m b hn hc =>
    obtain ⟨rfl, e1, e2⟩ := key _ _ _ (.inl rfl)
    cases e1; cases e2
    rcases h.copy b hc with h1 | ⟨w, o, pc, h1, h2⟩
    · exact h1.symm
    · exfalso
      refine hq.alone ti h1 ⟨rfl, id⟩ hn ?_ (by simp)
      rintro r rfl
      simp at h2
  | @ret u op pc r' hn hr =>
    obtain ⟨rfl, rfl, e2⟩ := key _ _ _ (.inr rfl)
    cases e2
    rcases hr with rfl | ⟨rfl, -⟩
    · exact (hf.cached u _ hn).1.symm
    · exact (hf.acted u _ hn).symm
  | evict m => exact absurd ht' (ht r)
  | call op hn => obtain ⟨-, -, e⟩ := key _ _ _ (.inl rfl); cases e
  | refuse hn hb => obtain ⟨-, e, -⟩ := key _ _ _ (.inl rfl); cases e
  | miss hn hc => obtain ⟨-, -, e⟩ := key _ _ _ (.inl rfl); cases e
  | unlink hn => obtain ⟨-, e, -⟩ := key _ _ _ (.inl rfl); cases e
  | cancel hn ha => obtain ⟨-, -, e⟩ := key _ _ _ (.inl rfl); cases e
  | cancelLocked hn ha => obtain ⟨-, -, e⟩ := key _ _ _ (.inr rfl); cases e
  | drop hn => obtain ⟨-, e, -⟩ := key _ _ _ (.inr rfl); cases e
  | @invalidate u op m hn hi =>
    simp only [Conf.set] at ht'
    split at ht'
    · cases ht'
    · exact absurd ht' (ht r)
  | @acquire u op pc hn ha hl =>
    simp only [Conf.set] at ht'
    split at ht'
    · cases ht'
    · exact absurd ht' (ht r)
  | @act u op hn =>
    simp only [Conf.set] at ht'
    split at ht'
    · cases ht'
    · exact absurd ht' (ht r)
  | @uncache u m o r' hn =>
    simp only [Conf.set] at ht'
    split at ht'
    · cases ht'
    · exact absurd ht' (ht r)
  | @fill u m b hn =>
    simp only [Conf.set] at ht'
    split at ht'
    · cases ht'
    · exact absurd ht' (ht r)

/-- C111, whole-database reads: if no change of the database `n` runs beside a `get_db` of it, then every `get_db` of it is
answered with what is in the database, or that it does not exist, at its call. -/
theorem C111_get_db {env : Env} {dbs : Dbs} {trA trC : Trace} {z : Conf} {t : Nat} {n : List Char} {r : Reply}
    (h : Run env (Conf.init dbs) (trA ++ (.call t (.getDb n), z) :: trC))
    (hq : ∀ w op g, .call w op ∈ (trA ++ (.call t (.getDb n), z) :: trC).events → op.database = some n → ¬ op.onlyReads →
      .call g (.getDb n) ∈ (trA ++ (.call t (.getDb n), z) :: trC).events →
      Precedes (trA ++ (.call t (.getDb n), z) :: trC).events w g ∨
      Precedes (trA ++ (.call t (.getDb n), z) :: trC).events g w)
    (hret : .ret t r ∈ trC.events) : r = Dbs.getDb env n z.dbs := by
  have hq' : Quiet (trA ++ (.call t (.getDb n), z) :: trC).events n := fun w op g h1 h2 h3 => hq w op g h1 h2.1 h2.2 h3
  clear hq
  generalize htr : trA ++ (.call t (.getDb n), z) :: trC = tr at h hq'
  have key : ∀ trC, trA ++ (.call t (.getDb n), z) :: trC = tr →
      ∃ pc, (Trace.last (Conf.init dbs) tr).tasks t = some (.getDb n, pc) ∧
        ((∀ r, pc ≠ .done r) → AMap.get n (Trace.last (Conf.init dbs) tr).dbs = AMap.get n z.dbs) ∧
        ∀ r, pc = .done r → r = Dbs.getDb env n z.dbs := by
    clear hret htr
    induction h with
    | nil => intro trC e; simp at e
    | @snoc tr e c' h hs ih =>
      intro trC htr
      rw [Trace.events_snoc] at hq'
      have hq1 := hq'.prefix h.taskInv hs
      rw [Trace.last_snoc]
      rcases List.eq_nil_or_concat trC with rfl | ⟨trC', x, rfl⟩
      · obtain ⟨-, e2⟩ := List.append_inj' htr rfl
        simp only [List.cons.injEq, Prod.mk.injEq, and_true] at e2
        obtain ⟨rfl, rfl⟩ := e2
        refine ⟨.start, ?_, fun _ => rfl, by simp⟩
        cases hs with
        | call _ hn => simp [Conf.set]
      · rw [List.concat_eq_append, ← List.cons_append, ← List.append_assoc] at htr
        obtain ⟨e1, e2⟩ := List.append_inj' htr rfl
        obtain ⟨pc, h1, h2, h3⟩ := ih hq1 trC' e1
        have ti := h.taskInv
        have hrun : ∃ pc', c'.tasks t = some (.getDb n, pc') := by
          have := (h.snoc hs).taskInv.running t (.getDb n)
          rw [Trace.last_snoc, Trace.events_snoc] at this
          exact this (List.mem_append_left _ (ti.called _ _ _ h1))
        obtain ⟨pc', h4⟩ := hrun
        refine ⟨pc', h4, ?_, ?_⟩
        · intro hd
          have hd0 : ∀ r, pc ≠ .done r := by
            rintro r rfl
            rcases hs.moves with ⟨-, h5, -⟩ | ⟨u, op, pc1, h5, h6, h7⟩
            · rw [h5, h1] at h4; cases h4; exact hd r rfl
            · simp only [h6] at h4
              split at h4
              · next e =>
                subst e
                rcases h7 with ⟨-, h8, -⟩ | ⟨pc2, h8, h9, -⟩
                · rw [h1] at h8; cases h8
                · rw [h1] at h8; cases h8; exact h9 r rfl
              · rw [h1] at h4; cases h4; exact hd r rfl
          rw [← h2 hd0]
          cases hs with
          | @act u op hn =>
            by_cases hw : op.Writes n
            · exact (hq1.alone ti hn hw h1 (by simp) hd0).elim
            · exact Op.act_keeps hw _
          | _ => rfl
        · rintro r rfl
          by_cases hd : ∃ r, pc = .done r
          · obtain ⟨r0, rfl⟩ := hd
            have := h3 r0 rfl
            rcases hs.moves with ⟨-, h5, -⟩ | ⟨u, op, pc1, h5, h6, h7⟩
            · rw [h5, h1] at h4; cases h4; exact this
            · simp only [h6] at h4
              split at h4
              · next e =>
                subst e
                rcases h7 with ⟨-, h8, -⟩ | ⟨pc2, h8, h9, -⟩
                · rw [h1] at h8; cases h8
                · rw [h1] at h8; cases h8; exact absurd rfl (h9 r0)
              · rw [h1] at h4; cases h4; exact this
          · have hd0 : ∀ r, pc ≠ .done r := fun r e => hd ⟨r, e⟩
            rw [Step.answers (h.clean hq1) (h.fresh n) ti hq1 hs h4 (by
              intro r0 e0
              rw [h1] at e0
              cases e0
              exact hd0 r0 rfl)]
            exact Dbs.getDb_congr env (h2 hd0)
  obtain ⟨pc, h1, -, h3⟩ := key trC htr
  have hret' : .ret t r ∈ tr.events := by
    rw [← htr, Trace.events_append]
    exact List.mem_append_right _ (List.mem_cons_of_mem _ hret)
  obtain ⟨op, h4⟩ := h.taskInv.returned t r hret'
  rw [h1] at h4
  cases h4
  exact h3 r rfl

/-- A read, then a change, then a read: no two are under way at once, and the hypothesis of `C111_get_db` holds. -/
example {env : Env} (n : List Char) {s : Store} {b b' : List UInt8} (hb : Store.ser env s = .ok b)
    (hb' : Store.ser env [] = .ok b') :
    ∃ tr : Trace, Run env (Conf.init [(n, s)]) tr ∧ .ret 0 (.bytes b) ∈ tr.events ∧ .ret 2 (.bytes b') ∈ tr.events ∧
      Quiet tr.events n ∧ ∃ w op, .call w op ∈ tr.events ∧ op.Writes n := by
  have hget : AMap.get n [(n, s)] = some s := by simp [AMap.get]
  have hcl : Op.act env (.clearDb n) [(n, s)] = (.status 200, [(n, [])]) := by
    simp [Op.act, Dbs.clearDb, hget, AMap.insert]
  have hget' : AMap.get n [(n, ([] : Store))] = some [] := by simp [AMap.get]
  have hg : Dbs.getDb env n [(n, s)] = .bytes b := by simp only [Dbs.getDb, hget, hb]
  have hg' : Dbs.getDb env n [(n, [])] = .bytes b' := by simp only [Dbs.getDb, hget', hb']
  refine ⟨[(.call 0 (.getDb n), _), (.miss 0, _), (.acquire 0, _), (.act 0, _), (.fill 0 n, _), (.ret 0 (.bytes b), _),
      (.call 1 (.clearDb n), _), (.invalidate 1, _), (.acquire 1, _), (.act 1, _), (.ret 1 (.status 200), _),
      (.call 2 (.getDb n), _), (.miss 2, _), (.acquire 2, _), (.act 2, _), (.fill 2 n, _), (.ret 2 (.bytes b'), _)],
    .cons (.call (.getDb n) rfl) (.cons (.miss (t := 0) (n := n) rfl rfl)
      (.cons (.acquire (t := 0) (op := .getDb n) (pc := .missed) rfl rfl rfl) (.cons (.act (t := 0) (op := .getDb n) rfl)
      (.cons (.fill (t := 0) (n := n) (b := b) ?_) (.cons (.ret (t := 0) (op := .getDb n) (pc := .cached (.bytes b)) rfl (.inl rfl))
      (.cons (.call (.clearDb n) rfl) (.cons (.invalidate (t := 1) (op := .clearDb n) rfl rfl)
      (.cons (.acquire (t := 1) (op := .clearDb n) (pc := .invalidated) rfl rfl rfl)
      (.cons (.act (t := 1) (op := .clearDb n) rfl)
      (.cons (.ret (t := 1) (op := .clearDb n) (pc := .acted (.status 200)) ?_ rfl)
      (.cons (.call (.getDb n) rfl) (.cons (.miss (t := 2) (n := n) rfl ?_)
      (.cons (.acquire (t := 2) (op := .getDb n) (pc := .missed) rfl rfl rfl) (.cons (.act (t := 2) (op := .getDb n) rfl)
      (.cons (.fill (t := 2) (n := n) (b := b') ?_)
      (.cons (.ret (t := 2) (op := .getDb n) (pc := .cached (.bytes b')) rfl (.inl rfl)) .nil)))))))))))))))),
    ?_, ?_, ?_, 1, .clearDb n, ?_, rfl, id⟩
  · show some (Op.getDb n, Pc.acted (Dbs.getDb env n [(n, s)])) = _
    rw [hg]
  · show some (Op.clearDb n, Pc.acted (Op.act env (.clearDb n) [(n, s)]).1) = _
    rw [hcl]
  · show AMap.get n (AMap.erase n (AMap.insert n b [])) = none
    rw [AMap.get_erase]
    simp
  · show some (Op.getDb n, Pc.acted (Dbs.getDb env n (Op.act env (.clearDb n) [(n, s)]).2)) = _
    rw [hcl, hg']
  · simp [Trace.events]
  · simp [Trace.events]
  · intro w op g hw ho hg
    simp only [Trace.events, List.map_cons, List.map_nil, List.mem_cons, Ev.call.injEq, reduceCtorEq, List.not_mem_nil,
      or_false, false_or] at hw hg
    rcases hw with ⟨-, rfl⟩ | ⟨rfl, rfl⟩ | ⟨-, rfl⟩
    · exact absurd trivial ho.2
    · rcases hg with ⟨rfl, -⟩ | ⟨-, h⟩ | ⟨rfl, -⟩
      · exact .inr ⟨.bytes b, .clearDb n, List.take 6 _, List.drop 6 _, (List.take_append_drop 6 _).symm,
          by simp [Trace.events], by simp [Trace.events]⟩
      · cases h
      · exact .inl ⟨.status 200, .getDb n, List.take 11 _, List.drop 11 _, (List.take_append_drop 11 _).symm,
          by simp [Trace.events], by simp [Trace.events]⟩
    · exact absurd trivial ho.2
  · simp [Trace.events]

end Souris
