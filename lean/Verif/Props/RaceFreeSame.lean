import Verif.Props.RaceFree
import Verif.Props.RaceFreeReads

/-! # C111: whole-database reads in two runs without races -/

namespace Souris

theorem replay_dbsOk {env : Env} (hord : HashOrder env.mapOrd) {S : List (Nat × Op × Reply)} {dbs dbs' : Dbs} (h : DbsOk dbs)
    (hop : ∀ x ∈ S, x.2.1.Ok) {rs : List Reply} (hr : replay env dbs (S.map fun x => x.2.1) = (rs, dbs')) : DbsOk dbs' := by
  induction S generalizing dbs rs with
  | nil =>
    simp only [List.map_nil, replay, Prod.mk.injEq] at hr
    rw [← hr.2]
    exact h
  | cons x S ih =>
    simp only [List.map_cons, replay, Prod.mk.injEq] at hr
    exact ih (exec_dbs (d := ⟨dbs, []⟩) hord h (hop x (by simp))).1 (fun y hy => hop y (List.mem_cons_of_mem x hy))
      (rs := _) (Prod.ext rfl hr.2)

open Classical in
/-- What happens to one database is explained by the changes of it alone. -/
theorem Abs.Explains.of_writes {env : Env} {S : List (Nat × Op × Reply)} {a b a' : Abs} {n : List Char}
    (h : Abs.Explains env a S b) (e : a' n = a n) :
    ∃ b', Abs.Explains env a' (S.filter fun x => decide (x.2.1.Writes n)) b' ∧ b' n = b n := by
  induction S generalizing a a' with
  | nil => exact ⟨a', rfl, by rw [e]; exact congrFun h n⟩
  | cons x S ih =>
    by_cases hw : x.2.1.Writes n
    · obtain ⟨f, hf⟩ := Abs.after_database hw.1
      obtain ⟨b', h1, h2⟩ := ih (a' := a'.after x.2.1) h.2 (by rw [hf, hf, e]; simp [put])
      refine ⟨b', ?_, h2⟩
      rw [List.filter_cons_of_pos (by simpa using hw)]
      exact ⟨(Abs.answers_database hw.1 e _).mpr h.1, h1⟩
    · have hk : (a.after x.2.1) n = a n := by
        by_cases hr : x.2.1.onlyReads
        · rw [Abs.after_reads hr]
        · cases hd : x.2.1.database with
          | none => exact absurd (by revert hd; cases x.2.1 <;> simp [Op.database, Op.onlyReads]) hr
          | some m =>
            have hm : m ≠ n := by
              rintro rfl
              exact hw ⟨hd, hr⟩
            obtain ⟨f, hf⟩ := Abs.after_database hd
            rw [hf]
            simp [put, hm.symm]
      obtain ⟨b', h1, h2⟩ := ih (a' := a') h.2 (e.trans hk.symm)
      refine ⟨b', ?_, h2⟩
      rw [List.filter_cons_of_neg (by simpa using hw)]
      exact h1

/-- Real-time order among requests that have been called is not changed by what happens later. -/
theorem Run.precedes_prefix {env : Env} {dbs : Dbs} {trA trC : Trace} (h : Run env (Conf.init dbs) (trA ++ trC)) {w g : Nat}
    {op : Op} (hg : .call g op ∈ trA.events) (hp : Precedes (trA ++ trC).events w g) : Precedes trA.events w g := by
  induction trC using List.reverseRecOn with
  | nil => simpa using hp
  | append_singleton trC x ih =>
    obtain ⟨e, c'⟩ := x
    rw [← List.append_assoc] at h hp
    obtain ⟨h1, h2⟩ := Run.split _ _ h
    refine ih h1 ?_
    obtain ⟨r, op', hb⟩ := hp
    rw [Trace.events_snoc] at hb
    rcases hb.inv with hb | ⟨rfl, -⟩
    · exact ⟨r, op', hb⟩
    · exfalso
      have hg' : .call g op ∈ (trA ++ trC).events := by
        rw [Trace.events_append]; exact List.mem_append_left _ hg
      obtain ⟨pc, hpc⟩ := h1.taskInv.running g op hg'
      generalize hl : [(Ev.call g op', c')] = l at h2
      cases h2 with
      | nil => cases hl
      | @snoc tr e c'' h3 hs =>
        rcases List.eq_nil_or_concat tr with rfl | ⟨l, y, rfl⟩
        · simp only [List.nil_append, List.cons.injEq, Prod.mk.injEq, and_true] at hl
          obtain ⟨rfl, rfl⟩ := hl
          cases hs with
          | call _ hn =>
            have : (Trace.last (Conf.init dbs) (trA ++ trC)).tasks g = none := hn
            rw [hpc] at this; cases this
        · have := congrArg List.length hl
          simp at this

/-- A request that precedes another one was answered before the other one's call. -/
theorem Run.precedes_call {env : Env} {dbs : Dbs} {trA trC : Trace} {g : Nat} {op : Op} {z : Conf}
    (h : Run env (Conf.init dbs) (trA ++ (.call g op, z) :: trC)) {w : Nat}
    (hp : Precedes (trA ++ (.call g op, z) :: trC).events w g) : ∃ r, .ret w r ∈ trA.events := by
  have e : trA ++ (.call g op, z) :: trC = (trA ++ [(.call g op, z)]) ++ trC := by simp
  rw [e] at h hp
  obtain ⟨r, op', hb⟩ := h.precedes_prefix (op := op) (by rw [Trace.events_snoc]; simp) hp
  rw [Trace.events_snoc] at hb
  rcases hb.inv with ⟨l₁, l₂, e1, h1, -⟩ | ⟨-, h1⟩
  · exact ⟨r, by rw [e1]; exact List.mem_append_left _ h1⟩
  · exact ⟨r, h1⟩

theorem Run.called_once {env : Env} {dbs : Dbs} {tr : Trace} (h : Run env (Conf.init dbs) tr) {t : Nat} {op op' : Op}
    (h1 : .call t op ∈ tr.events) (h2 : .call t op' ∈ tr.events) : op = op' := by
  obtain ⟨pc, e1⟩ := h.taskInv.running t op h1
  obtain ⟨pc', e2⟩ := h.taskInv.running t op' h2
  rw [e1] at e2
  cases e2
  rfl

theorem Op.Writes.notGetDb {op : Op} {n : List Char} (h : op.Writes n) : op.isGetDb = false := by
  obtain ⟨-, h⟩ := h
  cases op <;> first | rfl | exact absurd trivial h

theorem Op.Writes.related {op : Op} {n : List Char} (h : op.Writes n) : ¬ op.Unrelated (.getDb n) := by
  rintro (⟨h1, -⟩ | ⟨m, m', h1, h2, h3⟩ | ⟨m, k, k', -, h2, -⟩ | ⟨rfl, -⟩ | ⟨h1, -⟩)
  · exact h.2 h1
  · rw [h.1] at h1
    cases h1; cases h2
    exact h3 rfl
  · cases h2
  · exact h.2 trivial
  · cases h1

/-- The call of a task comes after nothing of it. -/
theorem Run.before_call {env : Env} {dbs : Dbs} {trA trC : Trace} {g : Nat} {op : Op} {z : Conf}
    (h : Run env (Conf.init dbs) (trA ++ (.call g op, z) :: trC)) : ∀ e ∈ trA.events, e.task ≠ some g := by
  have e : trA ++ (.call g op, z) :: trC = (trA ++ [(.call g op, z)]) ++ trC := by simp
  rw [e] at h
  have h1 := (Run.split _ _ h).1
  generalize hl : trA ++ [(Ev.call g op, z)] = l at h1
  cases h1 with
  | nil => simp at hl
  | @snoc tr e c'' h3 hs =>
    obtain ⟨rfl, e2⟩ := List.append_inj' hl rfl
    simp only [List.cons.injEq, Prod.mk.injEq, and_true] at e2
    obtain ⟨rfl, rfl⟩ := e2
    cases hs with
    | call _ hn => exact h3.taskInv.fresh g hn

theorem Run.at_call {env : Env} {dbs : Dbs} {trA trC : Trace} {g : Nat} {op : Op} {z : Conf}
    (h : Run env (Conf.init dbs) (trA ++ (.call g op, z) :: trC)) : z.dbs = (Trace.last (Conf.init dbs) trA).dbs := by
  have e : trA ++ (.call g op, z) :: trC = (trA ++ [(.call g op, z)]) ++ trC := by simp
  rw [e] at h
  have h1 := (Run.split _ _ h).1
  generalize hl : trA ++ [(Ev.call g op, z)] = l at h1
  cases h1 with
  | nil => simp at hl
  | @snoc tr e c'' h3 hs =>
    obtain ⟨rfl, e2⟩ := List.append_inj' hl rfl
    simp only [List.cons.injEq, Prod.mk.injEq, and_true] at e2
    obtain ⟨rfl, rfl⟩ := e2
    cases hs with
    | call _ hn => rfl

open Classical in
/-- The changes of the database that were carried out before a call are the same ones in both runs. -/
theorem RaceFree.mem_writes {env env' : Env} {dbs : Dbs} {trA trC trA' trC' : Trace} {z z' : Conf} {t : Nat} {n : List Char}
    (h : Run env (Conf.init dbs) (trA ++ (.call t (.getDb n), z) :: trC))
    (h' : Run env' (Conf.init dbs) (trA' ++ (.call t (.getDb n), z') :: trC'))
    (hsame : ∀ u op, .call u op ∈ (trA ++ (.call t (.getDb n), z) :: trC).events ↔
      .call u op ∈ (trA' ++ (.call t (.getDb n), z') :: trC').events)
    (hrace : ∀ u op, .call u op ∈ (trA ++ (.call t (.getDb n), z) :: trC).events → op.Writes n →
      Precedes (trA ++ (.call t (.getDb n), z) :: trC).events u t ∧ Precedes (trA' ++ (.call t (.getDb n), z') :: trC').events u t ∨
      Precedes (trA ++ (.call t (.getDb n), z) :: trC).events t u ∧ Precedes (trA' ++ (.call t (.getDb n), z') :: trC').events t u)
    {S T : List (Nat × Op × Reply)} (hS : Linearization env (Conf.init dbs) trA S)
    (hT : Linearization env' (Conf.init dbs) trA' T) {u : Nat} {op : Op} {r : Reply}
    (hm : (u, op, r) ∈ S.filter fun x => decide (x.2.1.Writes n)) :
    ∃ r', (u, op, r') ∈ T.filter fun x => decide (x.2.1.Writes n) := by
  obtain ⟨h1, h2⟩ := List.mem_filter.mp hm
  have h2 : op.Writes n := by simpa using h2
  obtain ⟨h3, -⟩ := hS.called _ h1
  have h3 : Ev.call u op ∈ trA.events := h3
  have h4 : .call u op ∈ (trA ++ (.call t (.getDb n), z) :: trC).events := by
    rw [Trace.events_append]; exact List.mem_append_left _ h3
  rcases hrace u op h4 h2 with ⟨-, hp⟩ | ⟨hp, -⟩
  · obtain ⟨r', hr'⟩ := h'.precedes_call hp
    have hA' := (Run.split _ _ h').1
    obtain ⟨op', hc⟩ := hA'.taskInv.returned u r' hr'
    have hc := hA'.taskInv.called _ _ _ hc
    have : op = op' := h'.called_once ((hsame u op).mp h4) (by
      rw [Trace.events_append]; exact List.mem_append_left _ hc)
    subst this
    exact ⟨r', List.mem_filter.mpr ⟨hT.complete u op r' hc h2.notGetDb hr', by simpa using h2⟩⟩
  · exfalso
    obtain ⟨r', op', l₁, l₂, e, h5, -⟩ := h.precedes_prefix h3 hp
    exact h.before_call (.ret t r') (by rw [e]; exact List.mem_append_left _ h5) rfl

open Classical in
/-- C111, whole-database reads in two runs: if related requests, `get_db` among them, come in the same order in both runs, then
the answers to each `get_db` show the same contents, or both that there is no such database. -/
theorem C111_same_reads {env env' : Env} (hb : HashOrder env.byteOrd) (hc : HashOrder env.charOrd) (hm : HashOrder env.mapOrd)
    (hb' : HashOrder env'.byteOrd) (hc' : HashOrder env'.charOrd) (hm' : HashOrder env'.mapOrd) {dbs : Dbs} {tr tr' : Trace}
    (h : Run env (Conf.init dbs) tr) (h' : Run env' (Conf.init dbs) tr') (hd : DbsOk dbs)
    (hops : ∀ t op, .call t op ∈ tr.events → op.Ok)
    (hsame : ∀ t op, .call t op ∈ tr.events ↔ .call t op ∈ tr'.events)
    (hrace : ∀ t op t' op', .call t op ∈ tr.events → .call t' op' ∈ tr.events → t ≠ t' → ¬ op.Unrelated op' →
      Precedes tr.events t t' ∧ Precedes tr'.events t t' ∨ Precedes tr.events t' t ∧ Precedes tr'.events t' t)
    {t : Nat} {n : List Char} {r r' : Reply} (hcall : .call t (.getDb n) ∈ tr.events) (hr : .ret t r ∈ tr.events)
    (hr' : .ret t r' ∈ tr'.events) : ∃ a : Abs, a.Answers env (.getDb n) r ∧ a.Answers env' (.getDb n) r' := by
  -- races of changes and reads
  have hwr : ∀ n w op g, .call w op ∈ tr.events → op.Writes n → .call g (.getDb n) ∈ tr.events →
      Precedes tr.events w g ∧ Precedes tr'.events w g ∨ Precedes tr.events g w ∧ Precedes tr'.events g w := by
    intro n w op g h1 h2 h3
    refine hrace w op g _ h1 h3 ?_ h2.related
    rintro rfl
    rw [h.called_once h1 h3] at h2
    exact h2.2 trivial
  have hcall' := (hsame t _).mp hcall
  obtain ⟨⟨e0, z⟩, hz, e1⟩ := List.mem_map.mp hcall
  obtain ⟨⟨e0', z'⟩, hz', e1'⟩ := List.mem_map.mp hcall'
  simp only at e1 e1'
  subst e1 e1'
  obtain ⟨trA, trC, rfl⟩ := List.append_of_mem hz
  obtain ⟨trA', trC', rfl⟩ := List.append_of_mem hz'
  have hlate : ∀ {trA trC : Trace} {z : Conf} {r : Reply}, (∀ e ∈ trA.events, e.task ≠ some t) →
      .ret t r ∈ (trA ++ (.call t (.getDb n), z) :: trC).events → .ret t r ∈ trC.events := by
    intro trA trC z r h1 h2
    rw [Trace.events_append] at h2
    rcases List.mem_append.mp h2 with h3 | h3
    · exact absurd rfl (h1 _ h3)
    · have h3 : Ev.ret t r ∈ Ev.call t (.getDb n) :: trC.events := h3
      rcases List.mem_cons.mp h3 with h4 | h4
      · cases h4
      · exact h4
  have er := C111_get_db h (fun w op g h1 h2 h3 h4 => (hwr n w op g h1 ⟨h2, h3⟩ h4).imp And.left And.left) (hlate h.before_call hr)
  have er' := C111_get_db h' (fun w op g h1 h2 h3 h4 =>
    (hwr n w op g ((hsame _ _).mpr h1) ⟨h2, h3⟩ ((hsame _ _).mpr h4)).imp And.right And.right) (hlate h'.before_call hr')
  -- the changes before the two calls
  have hA := (Run.split _ _ h).1
  have hA' := (Run.split _ _ h').1
  have hin : ∀ {u op}, Ev.call u op ∈ Trace.events trA → .call u op ∈ Trace.events (trA ++ (.call t (.getDb n), z) :: trC) := by
    intro u op h1
    rw [Trace.events_append]; exact List.mem_append_left _ h1
  have hin' : ∀ {u op}, Ev.call u op ∈ Trace.events trA' → .call u op ∈ Trace.events (trA ++ (.call t (.getDb n), z) :: trC) := by
    intro u op h1
    refine (hsame u op).mpr ?_
    rw [Trace.events_append]; exact List.mem_append_left _ h1
  obtain ⟨S, hS, hex⟩ := C39_map_of_maps hb hc hm hA hd fun u op ho => hops u op (hin ho)
  obtain ⟨T, hT, hex'⟩ := C39_map_of_maps hb' hc' hm' hA' hd fun u op ho => hops u op (hin' ho)
  obtain ⟨b, hex1, e2⟩ := hex.of_writes (n := n) rfl
  obtain ⟨b', hex2, e2'⟩ := hex'.of_writes (n := n) rfl
  obtain ⟨e3, -⟩ := hex1.reordered hex2 (hS.once.sublist (List.filter_sublist.map _)) (hT.once.sublist (List.filter_sublist.map _)) (by
      intro u op
      constructor
      · rintro ⟨r0, h0⟩
        exact RaceFree.mem_writes h h' hsame (fun u op h1 h2 => hwr n u op t h1 h2 hcall) hS hT h0
      · rintro ⟨r0, h0⟩
        exact RaceFree.mem_writes h' h (fun u op => (hsame u op).symm)
          (fun u op h1 h2 => (hwr n u op t ((hsame _ _).mpr h1) h2 hcall).imp And.symm And.symm) hT hS h0) (by
      intro S₁ x S₂ y T₁ y' T₂ x' eS hy eT hx' ex ey
      by_contra hno
      have sub : [x, y].Sublist S := by
        refine List.Sublist.trans ?_ (List.filter_sublist (p := fun x => decide (x.2.1.Writes n)))
        rw [eS]
        exact List.Sublist.trans (List.Sublist.cons_cons x (List.singleton_sublist.mpr hy)) (List.sublist_append_right _ _)
      have sub' : [y', x'].Sublist T := by
        refine List.Sublist.trans ?_ (List.filter_sublist (p := fun x => decide (x.2.1.Writes n)))
        rw [eT]
        exact List.Sublist.trans (List.Sublist.cons_cons y' (List.singleton_sublist.mpr hx')) (List.sublist_append_right _ _)
      have cut : ∀ {L : List (Nat × Op × Reply)} {x y}, [x, y].Sublist L → ∃ S₁ S₂, L = S₁ ++ y :: S₂ ∧ x ∈ S₁ := by
        intro L x y hs
        obtain ⟨l₁, l₂, e, h1, h2⟩ := List.cons_sublist_iff.mp hs
        obtain ⟨l₃, l₄, rfl⟩ := List.append_of_mem (List.singleton_sublist.mp h2)
        exact ⟨l₁ ++ l₃, l₄, by simp [e], by simp [h1]⟩
      obtain ⟨S₃, S₄, eS', hxS⟩ := cut sub
      obtain ⟨T₃, T₄, eT', hyT⟩ := cut sub'
      have hne : x.1 ≠ y.1 := by
        intro e
        have := hS.once.sublist (sub.map Prod.fst)
        simp [e] at this
      obtain ⟨hx1, hx2⟩ := hS.called x (sub.subset (by simp))
      obtain ⟨hy1, hy2⟩ := hS.called y (sub.subset (by simp))
      obtain ⟨hx1', -⟩ := hT.called x' (sub'.subset (by simp))
      obtain ⟨hy1', -⟩ := hT.called y' (sub'.subset (by simp))
      rcases hrace _ _ _ _ (hin hx1) (hin hy1) hne hno with ⟨-, hp⟩ | ⟨hp, -⟩
      · rw [← ex, ← ey] at hp
        obtain ⟨r0, op0, hp⟩ := h'.precedes_prefix hy1' hp
        exact hT.realTime _ _ _ _ hp T₃ x' T₄ eT' rfl y' hyT rfl
      · obtain ⟨r0, op0, hp⟩ := h.precedes_prefix hx1 hp
        exact hS.realTime _ _ _ _ hp S₃ y S₄ eS' rfl x hxS rfl)
  have hans : ∀ {env : Env} {dbs₀ : Dbs}, HashOrder env.byteOrd → HashOrder env.charOrd → DbsOk dbs₀ →
      (Daemon.view ⟨dbs₀, []⟩).Answers env (.getDb n) (Dbs.getDb env n dbs₀) := by
    intro env dbs₀ h1 h2 h3
    have := exec_answers h1 h2 (d := ⟨dbs₀, []⟩) h3 (by intro m b hn; cases hn) (.getDb n)
    have e : (Daemon.exec env (.getDb n) ⟨dbs₀, []⟩).1 = Dbs.getDb env n dbs₀ := by
      simp only [Daemon.exec, Daemon.getDb, AMap.get]
      cases Dbs.getDb env n dbs₀ <;> rfl
    rwa [e] at this
  have ok := replay_dbsOk hm hd (fun x hx => hops _ _ (hin (hS.called x hx).1)) hS.legal
  have ok' := replay_dbsOk hm' hd (fun x hx => hops _ _ (hin' (hT.called x hx).1)) hT.legal
  refine ⟨Daemon.view ⟨z.dbs, []⟩, ?_, ?_⟩
  · rw [er, h.at_call]
    exact hans hb hc ok
  · rw [er', h'.at_call]
    refine (Abs.answers_database rfl ?_ _).mpr (hans hb' hc' ok')
    rw [h.at_call, ← e2, ← e2', e3]

/-- Two runs that meet the hypotheses: a read of another database is done first in the one and runs beside everything in the
other. -/
example {env : Env} {s : Store} {b : List UInt8} (hb : Store.ser env [] = .ok b) :
    ∃ tr tr' : Trace, Run env (Conf.init [(['d'], s)]) tr ∧ Run env (Conf.init [(['d'], s)]) tr' ∧ tr.events ≠ tr'.events ∧
      .ret 2 (.bytes b) ∈ tr.events ∧ .ret 2 (.bytes b) ∈ tr'.events ∧
      (∀ t op, .call t op ∈ tr.events ↔ .call t op ∈ tr'.events) ∧
      ∀ t op t' op', .call t op ∈ tr.events → .call t' op' ∈ tr.events → t ≠ t' → ¬ op.Unrelated op' →
        Precedes tr.events t t' ∧ Precedes tr'.events t t' ∨ Precedes tr.events t' t ∧ Precedes tr'.events t' t := by
  have hfill : (some (Op.getDb ['d'], Pc.acted (Dbs.getDb env ['d'] [(['d'], [])])) : Option (Op × Pc)) =
      some (.getDb ['d'], .acted (.bytes b)) := by
    have hg : Dbs.getDb env ['d'] [(['d'], [])] = .bytes b := by
      have hget : AMap.get ['d'] [(['d'], ([] : Store))] = some [] := by simp [AMap.get]
      simp only [Dbs.getDb, hget, hb]
    rw [hg]
  obtain ⟨tr, h1, e1⟩ : ∃ tr : Trace, Run env (Conf.init [(['d'], s)]) tr ∧ tr.events =
      [.call 3 (.getValue ['e'] ['k']), .acquire 3, .act 3, .ret 3 (.error .databaseNotFound), .call 1 (.clearDb ['d']),
        .invalidate 1, .acquire 1, .act 1, .ret 1 (.status 200), .call 2 (.getDb ['d']), .miss 2, .acquire 2, .act 2,
        .fill 2 ['d'], .ret 2 (.bytes b)] :=
    ⟨_, (.cons (.call (t := 3) (.getValue ['e'] ['k']) rfl)
      (.cons (.acquire (t := 3) (op := .getValue ['e'] ['k']) (pc := .start) rfl rfl rfl)
      (.cons (.act (t := 3) (op := .getValue ['e'] ['k']) rfl)
      (.cons (.ret (t := 3) (op := .getValue ['e'] ['k']) (pc := .acted (.error .databaseNotFound)) rfl rfl)
      (.cons (.call (t := 1) (.clearDb ['d']) rfl)
      (.cons (.invalidate (t := 1) (op := .clearDb ['d']) rfl rfl)
      (.cons (.acquire (t := 1) (op := .clearDb ['d']) (pc := .invalidated) rfl rfl rfl)
      (.cons (.act (t := 1) (op := .clearDb ['d']) rfl)
      (.cons (.ret (t := 1) (op := .clearDb ['d']) (pc := .acted (.status 200)) rfl rfl)
      (.cons (.call (t := 2) (.getDb ['d']) rfl)
      (.cons (.miss (t := 2) (n := ['d']) rfl rfl)
      (.cons (.acquire (t := 2) (op := .getDb ['d']) (pc := .missed) rfl rfl rfl)
      (.cons (.act (t := 2) (op := .getDb ['d']) rfl)
      (.cons (.fill (t := 2) (n := ['d']) (b := b) hfill)
      (.cons (.ret (t := 2) (op := .getDb ['d']) (pc := .cached (.bytes b)) rfl (.inl rfl))
      .nil))))))))))))))), rfl⟩
  obtain ⟨tr', h2, e2⟩ : ∃ tr : Trace, Run env (Conf.init [(['d'], s)]) tr ∧ tr.events =
      [.call 1 (.clearDb ['d']), .call 3 (.getValue ['e'] ['k']), .invalidate 1, .acquire 1, .act 1, .ret 1 (.status 200),
        .call 2 (.getDb ['d']), .miss 2, .acquire 2, .act 2, .fill 2 ['d'], .ret 2 (.bytes b), .acquire 3, .act 3,
        .ret 3 (.error .databaseNotFound)] :=
    ⟨_, (.cons (.call (t := 1) (.clearDb ['d']) rfl)
      (.cons (.call (t := 3) (.getValue ['e'] ['k']) rfl)
      (.cons (.invalidate (t := 1) (op := .clearDb ['d']) rfl rfl)
      (.cons (.acquire (t := 1) (op := .clearDb ['d']) (pc := .invalidated) rfl rfl rfl)
      (.cons (.act (t := 1) (op := .clearDb ['d']) rfl)
      (.cons (.ret (t := 1) (op := .clearDb ['d']) (pc := .acted (.status 200)) rfl rfl)
      (.cons (.call (t := 2) (.getDb ['d']) rfl)
      (.cons (.miss (t := 2) (n := ['d']) rfl rfl)
      (.cons (.acquire (t := 2) (op := .getDb ['d']) (pc := .missed) rfl rfl rfl)
      (.cons (.act (t := 2) (op := .getDb ['d']) rfl)
      (.cons (.fill (t := 2) (n := ['d']) (b := b) hfill)
      (.cons (.ret (t := 2) (op := .getDb ['d']) (pc := .cached (.bytes b)) rfl (.inl rfl))
      (.cons (.acquire (t := 3) (op := .getValue ['e'] ['k']) (pc := .start) rfl rfl rfl)
      (.cons (.act (t := 3) (op := .getValue ['e'] ['k']) rfl)
      (.cons (.ret (t := 3) (op := .getValue ['e'] ['k']) (pc := .acted (.error .databaseNotFound)) rfl rfl)
      .nil))))))))))))))), rfl⟩
  refine ⟨tr, tr', h1, h2, ?_, ?_, ?_, ?_, ?_⟩
  · rw [e1, e2]; simp
  · rw [e1]; simp
  · rw [e2]; simp
  · intro t op
    rw [e1, e2]
    simp only [List.mem_cons, Ev.call.injEq, reduceCtorEq, List.not_mem_nil, or_false, false_or]
    tauto
  · have p1 : Precedes tr.events 1 2 := ⟨.status 200, .getDb ['d'], List.take 9 tr.events, List.drop 9 tr.events,
      (List.take_append_drop 9 _).symm, by rw [e1]; simp, by rw [e1]; simp⟩
    have p2 : Precedes tr'.events 1 2 := ⟨.status 200, .getDb ['d'], List.take 6 tr'.events, List.drop 6 tr'.events,
      (List.take_append_drop 6 _).symm, by rw [e2]; simp, by rw [e2]; simp⟩
    have u13 : Op.Unrelated (.clearDb ['d']) (.getValue ['e'] ['k']) := .inr (.inl ⟨['d'], ['e'], rfl, rfl, by simp⟩)
    have u23 : Op.Unrelated (.getDb ['d']) (.getValue ['e'] ['k']) := .inl ⟨trivial, trivial⟩
    intro t op t' op' ht ht' hne hno
    rw [e1] at ht ht'
    simp only [List.mem_cons, Ev.call.injEq, reduceCtorEq, List.not_mem_nil, or_false, false_or] at ht ht'
    rcases ht with ⟨rfl, rfl⟩ | ⟨rfl, rfl⟩ | ⟨rfl, rfl⟩ <;> rcases ht' with ⟨rfl, rfl⟩ | ⟨rfl, rfl⟩ | ⟨rfl, rfl⟩ <;>
      first
      | exact absurd rfl hne
      | exact absurd u13 hno
      | exact absurd u13.symm hno
      | exact absurd u23 hno
      | exact absurd u23.symm hno
      | exact .inl ⟨p1, p2⟩
      | exact .inr ⟨p1, p2⟩

end Souris
