import Verif.Spec.AtOnce
import Verif.Props.RaceFreeSame

/-! # C112: a change of a whole database is seen at once -/

namespace Souris

open Classical in
/-- What the only change does to the database. -/
theorem Abs.Explains.onlyChange {env : Env} {S : List (Nat × Op × Reply)} {a b : Abs} {n : List Char} {w : Nat} {opw : Op}
    (h : Abs.Explains env a S b) (hn : (S.map Prod.fst).Nodup) (hw : ∀ x ∈ S, x.2.1.Writes n → x.1 = w ∧ x.2.1 = opw) :
    ((∃ x ∈ S, x.2.1.Writes n) → b n = (a.after opw) n) ∧ ((¬ ∃ x ∈ S, x.2.1.Writes n) → b n = a n) := by
  obtain ⟨b', h1, e⟩ := h.of_writes (n := n) (a' := a) rfl
  have hn' := hn.sublist ((List.filter_sublist (p := fun x : Nat × Op × Reply => decide (x.2.1.Writes n))).map Prod.fst)
  have hm : ∀ x ∈ S.filter (fun x => decide (x.2.1.Writes n)), x ∈ S ∧ x.2.1.Writes n := by
    intro x hx
    obtain ⟨h2, h3⟩ := List.mem_filter.mp hx
    exact ⟨h2, by simpa using h3⟩
  have hm' : ∀ x ∈ S, x.2.1.Writes n → x ∈ S.filter (fun x => decide (x.2.1.Writes n)) := by
    intro x hx h2
    exact List.mem_filter.mpr ⟨hx, by simpa using h2⟩
  generalize S.filter (fun x => decide (x.2.1.Writes n)) = L at h1 hn' hm hm'
  match L with
  | [] =>
    have h1 : a = b' := h1
    refine ⟨fun ⟨x, hx, h2⟩ => absurd (hm' x hx h2) (by simp), fun _ => by rw [← e, ← h1]⟩
  | [x] =>
    have h2 : a.after x.2.1 = b' := h1.2
    refine ⟨fun _ => ?_, fun h3 => absurd ⟨x, (hm x (by simp)).1, (hm x (by simp)).2⟩ h3⟩
    rw [← e, ← h2, (hw x (hm x (by simp)).1 (hm x (by simp)).2).2]
  | x :: y :: l =>
    exfalso
    have e1 := (hw x (hm x (by simp)).1 (hm x (by simp)).2).1
    have e2 := (hw y (hm y (by simp)).1 (hm y (by simp)).2).1
    simp only [List.map_cons, List.nodup_cons, List.mem_cons] at hn'
    exact hn'.1 (.inl (e1.trans e2.symm))

/-- C112: while `w` is the only request that may change the database `n`, a read of a key is answered from the contents before
the change or from those after it, and once a read was answered from those after it, every read that is called later is, whichever
key it is about. -/
theorem C112_at_once {env : Env} (hb : HashOrder env.byteOrd) (hc : HashOrder env.charOrd) (hm : HashOrder env.mapOrd) {dbs : Dbs}
    {tr : Trace} (h : Run env (Conf.init dbs) tr) (hd : DbsOk dbs) (hops : ∀ t op, .call t op ∈ tr.events → op.Ok) {w : Nat}
    {opw : Op} {n k k' : List Char} (hw : .call w opw ∈ tr.events) (hone : OnlyChange tr.events n w) {t t' : Nat} {r r' : Reply}
    (ht : .call t (.getValue n k) ∈ tr.events) (ht' : .call t' (.getValue n k') ∈ tr.events) (hr : .ret t r ∈ tr.events)
    (hr' : .ret t' r' ∈ tr.events) (hbef : Before tr.events (.ret t r) (.call t' (.getValue n k'))) :
    ∃ s s' : Bool, (s = true → s' = true) ∧
      (if s then (Daemon.view ⟨dbs, []⟩).after opw else Daemon.view ⟨dbs, []⟩).Answers env (.getValue n k) r ∧
      (if s' then (Daemon.view ⟨dbs, []⟩).after opw else Daemon.view ⟨dbs, []⟩).Answers env (.getValue n k') r' := by
  obtain ⟨S, hS, hex⟩ := C39_map_of_maps hb hc hm h hd hops
  have hx := hS.complete t _ r ht rfl hr
  have hy := hS.complete t' _ r' ht' rfl hr'
  have hne : t ≠ t' := by
    rintro rfl
    obtain ⟨l₁, l₂, e, h1, h2⟩ := hbef
    have hl : ∃ trA trB : Trace, tr = trA ++ trB ∧ trA.events = l₁ ∧ trB.events = l₂ := by
      have e : tr.map Prod.fst = l₁ ++ l₂ := e
      obtain ⟨trA, trB, e1, e2, e3⟩ := List.map_eq_append_iff.mp e
      exact ⟨trA, trB, e1, e2, e3⟩
    obtain ⟨trA, trB, rfl, rfl, rfl⟩ := hl
    obtain ⟨⟨e0, z⟩, hz, e1⟩ := List.mem_map.mp h2
    simp only at e1
    subst e1
    obtain ⟨trC, trD, rfl⟩ := List.append_of_mem hz
    rw [← List.append_assoc] at h
    exact h.before_call (.ret t r) (by rw [Trace.events_append]; exact List.mem_append_left _ h1) rfl
  obtain ⟨A, M, B, e, -⟩ := hS.between hx hy hbef hne
  subst e
  have hwS : ∀ x ∈ A ++ (t, Op.getValue n k, r) :: (M ++ (t', Op.getValue n k', r') :: B), x.2.1.Writes n → x.1 = w ∧ x.2.1 = opw := by
    intro x hx hwx
    have h1 := (hS.called x hx).1
    have h2 := hone _ _ h1 hwx
    exact ⟨h2, h.called_once h1 (by rw [h2]; exact hw)⟩
  have key : ∀ (A B : List (Nat × Op × Reply)) (t : Nat) (k : List Char) (r : Reply) (b : Abs),
      Abs.Explains env (Daemon.view ⟨dbs, []⟩) (A ++ (t, .getValue n k, r) :: B) b → (A.map Prod.fst).Nodup →
      (∀ x ∈ A, x.2.1.Writes n → x.1 = w ∧ x.2.1 = opw) →
      ((∃ x ∈ A, x.2.1.Writes n) → ((Daemon.view ⟨dbs, []⟩).after opw).Answers env (.getValue n k) r) ∧
      ((¬ ∃ x ∈ A, x.2.1.Writes n) → (Daemon.view ⟨dbs, []⟩).Answers env (.getValue n k) r) := by
    intro A B t k r b hex hA hwA
    obtain ⟨m, h1, h2⟩ := hex.split
    obtain ⟨h3, h4⟩ := h1.onlyChange hA hwA
    exact ⟨fun he => (Abs.answers_database rfl (h3 he) r).mp h2.1, fun he => (Abs.answers_database rfl (h4 he) r).mp h2.1⟩
  have hn := hS.once
  have k1 := key A _ t k r _ hex (hn.sublist ((List.sublist_append_left _ _).map _))
    (fun x hx => hwS x (List.mem_append_left _ hx))
  rw [← List.cons_append, ← List.append_assoc] at hex hn hwS
  have k2 := key (A ++ (t, .getValue n k, r) :: M) B t' k' r' _ hex (hn.sublist ((List.sublist_append_left _ _).map _))
    (fun x hx => hwS x (List.mem_append_left _ hx))
  by_cases h1 : ∃ x ∈ A, x.2.1.Writes n
  · have h2 : ∃ x ∈ A ++ (t, Op.getValue n k, r) :: M, x.2.1.Writes n := by
      obtain ⟨x, hx, h2⟩ := h1
      exact ⟨x, List.mem_append_left _ hx, h2⟩
    exact ⟨true, true, fun _ => rfl, k1.1 h1, k2.1 h2⟩
  · by_cases h2 : ∃ x ∈ A ++ (t, Op.getValue n k, r) :: M, x.2.1.Writes n
    · exact ⟨false, true, fun _ => rfl, k1.2 h1, k2.1 h2⟩
    · exact ⟨false, false, id, k1.2 h1, k2.2 h2⟩

/-- C112, whole-database reads: each is answered from the whole contents before the change or from the whole contents after it. -/
theorem C112_get_db {env : Env} (hb : HashOrder env.byteOrd) (hc : HashOrder env.charOrd) (hm : HashOrder env.mapOrd) {dbs : Dbs}
    {tr : Trace} (h : Run env (Conf.init dbs) tr) (hd : DbsOk dbs) (hops : ∀ t op, .call t op ∈ tr.events → op.Ok) {w : Nat}
    {opw : Op} {n : List Char} (hw : .call w opw ∈ tr.events) (hone : OnlyChange tr.events n w) {t : Nat} {r : Reply}
    (ht : .call t (.getDb n) ∈ tr.events) (hr : .ret t r ∈ tr.events) :
    (Daemon.view ⟨dbs, []⟩).Answers env (.getDb n) r ∨ ((Daemon.view ⟨dbs, []⟩).after opw).Answers env (.getDb n) r := by
  have hreal : ∃ y ∈ Trace.confs (Conf.init dbs) tr, r = Dbs.getDb env n y.dbs := by
    rcases C40_real hb hc h ht hr with ⟨y, hy, h1, rfl⟩ | ⟨y, hy, s, b, h1, h2, rfl⟩
    · exact ⟨y, hy, by simp only [Dbs.getDb, h1]⟩
    · exact ⟨y, hy, by simp only [Dbs.getDb, h1, h2]⟩
  obtain ⟨y, hy, rfl⟩ := hreal
  have hpre : ∃ trA trB, tr = trA ++ trB ∧ y = Trace.last (Conf.init dbs) trA := by
    rcases List.mem_cons.mp hy with rfl | hy
    · exact ⟨[], tr, rfl, rfl⟩
    · obtain ⟨⟨e, y'⟩, hz, rfl⟩ := List.mem_map.mp hy
      obtain ⟨trC, trD, rfl⟩ := List.append_of_mem hz
      exact ⟨trC ++ [(e, y')], trD, by simp, (Trace.last_snoc _ _ _ _).symm⟩
  obtain ⟨trA, trB, rfl, rfl⟩ := hpre
  have hA := (Run.split _ _ h).1
  have hin : ∀ {u op}, Ev.call u op ∈ trA.events → Ev.call u op ∈ (trA ++ trB).events := by
    intro u op h1
    rw [Trace.events_append]; exact List.mem_append_left _ h1
  obtain ⟨S, hS, hex⟩ := C39_map_of_maps hb hc hm hA hd fun u op ho => hops u op (hin ho)
  have ok := replay_dbsOk hm hd (fun x hx => hops _ _ (hin (hS.called x hx).1)) hS.legal
  have hans : (Daemon.view ⟨(Trace.last (Conf.init dbs) trA).dbs, []⟩).Answers env (.getDb n)
      (Dbs.getDb env n (Trace.last (Conf.init dbs) trA).dbs) := by
    have := exec_answers hb hc (d := ⟨(Trace.last (Conf.init dbs) trA).dbs, []⟩) ok (by intro m b hn; cases hn) (.getDb n)
    have e : (Daemon.exec env (.getDb n) ⟨(Trace.last (Conf.init dbs) trA).dbs, []⟩).1 =
        Dbs.getDb env n (Trace.last (Conf.init dbs) trA).dbs := by
      simp only [Daemon.exec, Daemon.getDb, AMap.get]
      cases Dbs.getDb env n (Trace.last (Conf.init dbs) trA).dbs <;> rfl
    rwa [e] at this
  obtain ⟨h3, h4⟩ := hex.onlyChange (n := n) (w := w) (opw := opw) hS.once (by
    intro x hx hwx
    have h1 := hin (hS.called x hx).1
    have h2 := hone _ _ h1 hwx
    exact ⟨h2, h.called_once h1 (by rw [h2]; exact hw)⟩)
  by_cases he : ∃ x ∈ S, x.2.1.Writes n
  · exact .inr ((Abs.answers_database rfl (h3 he) _).mp hans)
  · exact .inl ((Abs.answers_database rfl (h4 he) _).mp hans)

/-- As long as the only change has not been carried out, the database is as it was. -/
theorem Run.not_changed {env : Env} {dbs : Dbs} {tr : Trace} (h : Run env (Conf.init dbs) tr) {n : List Char} {w : Nat}
    (hone : OnlyChange tr.events n w)
    (hw : ∀ op pc, (Trace.last (Conf.init dbs) tr).tasks w = some (op, pc) → pc.early ∨ pc = .locked) :
    AMap.get n (Trace.last (Conf.init dbs) tr).dbs = AMap.get n dbs := by
  induction h with
  | nil => rfl
  | @snoc tr e c' h hs ih =>
    rw [Trace.last_snoc] at hw ⊢
    rw [Trace.events_snoc] at hone
    have hone' : OnlyChange tr.events n w := fun u op h1 h2 => hone u op (List.mem_append_left _ h1) h2
    have hback : ∀ op pc, (Trace.last (Conf.init dbs) tr).tasks w = some (op, pc) → pc.early ∨ pc = .locked := by
      intro op pc h1
      rcases hs.moves with ⟨-, h2, -⟩ | ⟨u, op', pc', -, h2, h3⟩
      · exact hw op pc (by rw [h2, h1])
      · by_cases hu : w = u
        · subst hu
          have h4 := hw op' pc' (by rw [h2]; simp)
          rcases h3 with ⟨-, h5, -⟩ | ⟨pc0, h5, -, -, -, h6⟩
          · rw [h1] at h5; cases h5
          · rw [h1] at h5
            cases h5
            rcases h6 with ⟨-, h7, -⟩ | ⟨-, h7, h8, h9, -⟩ | ⟨-, h7, -, h8, h9, -⟩ | ⟨-, h7, -, -, h9, -⟩
            · exact .inl h7
            · rcases h4 with h4 | h4
              · cases pc' <;> first | exact h4.elim | exact h9.elim
              · exact absurd h4 h7
            · rcases h4 with h4 | h4
              · exact absurd h4 h9
              · exact absurd h4 h7
            · rcases h4 with h4 | h4
              · exact .inl (h9 h4)
              · exact absurd h4 h7
        · exact hw op pc (by rw [h2]; simp [hu, h1])
    rw [← ih hone' hback]
    cases hs with
    | @act u op hn =>
      by_cases hwr : op.Writes n
      · exfalso
        have hu := hone' u op (h.taskInv.called _ _ _ hn) hwr
        subst hu
        have := hw op _ (by simp [Conf.set]; rfl)
        rcases this with h1 | h1
        · exact h1
        · cases h1
      · exact Op.act_keeps hwr _
    | _ => rfl

/-- The state from which on the database does not change, seen by a read of a key that has not been called. -/
structure Settled (env : Env) (n k : List Char) (w t : Nat) (dbs : Dbs) (c : Conf) : Prop where
  same : AMap.get n c.dbs = AMap.get n dbs
  gone : ∃ op pc, c.tasks w = some (op, pc) ∧ ¬ pc.early ∧ pc ≠ .locked
  others : ∀ u op pc, c.tasks u = some (op, pc) → op.Writes n → u = w
  reader : ∀ op pc, c.tasks t = some (op, pc) → op = .getValue n k ∧
    ∀ r, pc = .acted r ∨ pc = .done r → r = Dbs.getValue n k dbs

theorem Settled.step {env : Env} {n k : List Char} {w t : Nat} {dbs : Dbs} {c c' : Conf} {e : Ev} (h : Settled env n k w t dbs c)
    (hs : Step env c e c') (hcall : ∀ u op, e = .call u op → (op.Writes n → u = w) ∧ (u = t → op = .getValue n k)) :
    Settled env n k w t dbs c' := by
  have hsame : AMap.get n c'.dbs = AMap.get n dbs := by
    rw [← h.same]
    cases hs with
    | @act u op hn =>
      by_cases hwr : op.Writes n
      · exfalso
        have hu := h.others u op _ hn hwr
        subst hu
        obtain ⟨op', pc', h1, -, h2⟩ := h.gone
        rw [hn] at h1
        cases h1
        exact h2 rfl
      · exact Op.act_keeps hwr _
    | _ => rfl
  refine ⟨hsame, ?_, ?_, ?_⟩
  · obtain ⟨op, pc, h1, h2, h3⟩ := h.gone
    rcases hs.moves with ⟨-, h4, -⟩ | ⟨u, op', pc', -, h4, h5⟩
    · exact ⟨op, pc, by rw [h4, h1], h2, h3⟩
    · by_cases hu : w = u
      · subst hu
        refine ⟨op', pc', by rw [h4]; simp, ?_⟩
        rcases h5 with ⟨-, h6, -⟩ | ⟨pc0, h6, -, -, -, h7⟩
        · rw [h1] at h6; cases h6
        · rw [h1] at h6
          cases h6
          rcases h7 with ⟨-, h8, -⟩ | ⟨-, h8, h9, h10, -⟩ | ⟨-, h8, -, -, h10, -⟩ | ⟨-, h8, -, -, h10, -⟩
          · exact absurd h8 h2
          · refine ⟨fun h11 => ?_, h8⟩
            cases pc' <;> first | exact h11.elim | exact h10.elim
          · exact ⟨h10, h8⟩
          · exact ⟨fun h11 => h2 (h10 h11), h8⟩
      · exact ⟨op, pc, by rw [h4]; simp [hu, h1], h2, h3⟩
  · intro u op pc hu hw
    rcases hs.moves with ⟨-, h4, -⟩ | ⟨u', op', pc', -, h4, h5⟩
    · exact h.others u op pc (by rw [← h4, hu]) hw
    · rw [h4] at hu
      by_cases he : u = u'
      · subst he
        simp only [if_true, Option.some.injEq, Prod.mk.injEq] at hu
        obtain ⟨rfl, rfl⟩ := hu
        rcases h5 with ⟨h6, -⟩ | ⟨pc0, h6, -⟩
        · exact (hcall _ _ h6).1 hw
        · exact h.others u _ _ h6 hw
      · simp only [if_neg he] at hu
        exact h.others u op pc hu hw
  · -- what a step does to the reader
    have easy : ∀ {c' : Conf} {u : Nat} {op : Op} {pc : Pc}, (∀ i, c'.tasks i = if i = u then some (op, pc) else c.tasks i) →
        (u = t → op = .getValue n k ∧ ∀ r, pc = .acted r ∨ pc = .done r → r = Dbs.getValue n k dbs) →
        ∀ op pc, c'.tasks t = some (op, pc) → op = .getValue n k ∧
          ∀ r, pc = .acted r ∨ pc = .done r → r = Dbs.getValue n k dbs := by
      intro c' u op pc h1 h2 op' pc' h3
      rw [h1] at h3
      split at h3
      · next e =>
        cases h3
        exact h2 e.symm
      · exact h.reader op' pc' h3
    cases hs with
    | @call u op hn => exact easy (fun _ => rfl) fun e => ⟨(hcall u op rfl).2 e, by simp⟩
    | @refuse u m o hn hb => exact easy (fun _ => rfl) fun e => by subst e; cases (h.reader _ _ hn).1
    | @invalidate u op m hn hi =>
      exact easy (fun _ => rfl) fun e => by subst e; exact ⟨(h.reader _ _ hn).1, by simp⟩
    | @hit u m b hn hc => exact easy (fun _ => rfl) fun e => by subst e; cases (h.reader _ _ hn).1
    | @miss u m hn hc => exact easy (fun _ => rfl) fun e => by subst e; cases (h.reader _ _ hn).1
    | @acquire u op pc hn ha hl =>
      exact easy (fun _ => rfl) fun e => by subst e; exact ⟨(h.reader _ _ hn).1, by simp⟩
    | @act u op hn =>
      refine easy (fun _ => rfl) fun e => ?_
      subst e
      obtain ⟨h1, -⟩ := h.reader _ _ hn
      subst h1
      refine ⟨rfl, ?_⟩
      rintro r (e | e)
      · cases e
        show Dbs.getValue n k c.dbs = _
        unfold Dbs.getValue
        rw [h.same]
      · cases e
    | @uncache u m o r hn => exact easy (fun _ => rfl) fun e => by subst e; cases (h.reader _ _ hn).1
    | @fill u m b hn => exact easy (fun _ => rfl) fun e => by subst e; cases (h.reader _ _ hn).1
    | @ret u op pc r hn hr =>
      refine easy (fun _ => rfl) fun e => ?_
      subst e
      obtain ⟨h1, h2⟩ := h.reader _ _ hn
      subst h1
      have hr : pc = .acted r := hr
      refine ⟨rfl, ?_⟩
      rintro r' (e | e)
      · cases e
      · cases e
        exact h2 r (.inl hr)
    | @drop u m io hn => exact easy (fun _ => rfl) fun e => by subst e; cases (h.reader _ _ hn).1
    | @unlink u m io hn => exact easy (fun _ => rfl) fun e => by subst e; cases (h.reader _ _ hn).1
    | @cancel u op pc hn ha =>
      exact easy (fun _ => rfl) fun e => by subst e; exact ⟨(h.reader _ _ hn).1, by simp⟩
    | @cancelLocked u op r hn ha =>
      exact easy (fun _ => rfl) fun e => by subst e; exact ⟨(h.reader _ _ hn).1, by simp⟩
    | evict m => exact h.reader

/-- C112, a whole-database read before the read of a key: once a `get_db` was answered from the contents after the only change,
every read of a key that is called later is. -/
theorem C112_db_then_key {env : Env} (hb : HashOrder env.byteOrd) (hc : HashOrder env.charOrd) (hm : HashOrder env.mapOrd)
    {dbs : Dbs} {tr : Trace} (h : Run env (Conf.init dbs) tr) (hd : DbsOk dbs) (hops : ∀ t op, .call t op ∈ tr.events → op.Ok)
    {w : Nat} {opw : Op} {n k : List Char} (hw : .call w opw ∈ tr.events) (hone : OnlyChange tr.events n w) {t t' : Nat}
    {r r' : Reply} (ht : .call t (.getDb n) ∈ tr.events) (hr' : .ret t' r' ∈ tr.events)
    (hbef : Before tr.events (.ret t r) (.call t' (.getValue n k))) :
    ∃ s s' : Bool, (s = true → s' = true) ∧
      (if s then (Daemon.view ⟨dbs, []⟩).after opw else Daemon.view ⟨dbs, []⟩).Answers env (.getDb n) r ∧
      (if s' then (Daemon.view ⟨dbs, []⟩).after opw else Daemon.view ⟨dbs, []⟩).Answers env (.getValue n k) r' := by
  obtain ⟨l₁, l₂, e, h1, h2⟩ := hbef
  have hl : ∃ trA trB : Trace, tr = trA ++ trB ∧ trA.events = l₁ ∧ trB.events = l₂ := by
    have e : tr.map Prod.fst = l₁ ++ l₂ := e
    obtain ⟨trA, trB, e1, e2, e3⟩ := List.map_eq_append_iff.mp e
    exact ⟨trA, trB, e1, e2, e3⟩
  obtain ⟨trP, trQ, rfl, rfl, rfl⟩ := hl
  clear e
  have hP := (Run.split _ _ h).1
  have hinP : ∀ {e : Ev}, e ∈ trP.events → e ∈ (trP ++ trQ).events := by
    intro e he
    rw [Trace.events_append]; exact List.mem_append_left _ he
  have htP : .call t (.getDb n) ∈ trP.events := by
    obtain ⟨op, h3⟩ := hP.taskInv.returned t r h1
    have h3 := hP.taskInv.called _ _ _ h3
    rwa [h.called_once (hinP h3) ht] at h3
  have ht' : .call t' (.getValue n k) ∈ (trP ++ trQ).events := by
    rw [Trace.events_append]; exact List.mem_append_right _ h2
  -- the moment that the first answer shows
  have hreal : ∃ y ∈ Trace.confs (Conf.init dbs) trP, r = Dbs.getDb env n y.dbs := by
    rcases C40_real hb hc hP htP h1 with ⟨y, hy, h3, rfl⟩ | ⟨y, hy, s, b, h3, h4, rfl⟩
    · exact ⟨y, hy, by simp only [Dbs.getDb, h3]⟩
    · exact ⟨y, hy, by simp only [Dbs.getDb, h3, h4]⟩
  obtain ⟨y, hy, rfl⟩ := hreal
  have hpre : ∃ trA trB, trP = trA ++ trB ∧ y = Trace.last (Conf.init dbs) trA := by
    rcases List.mem_cons.mp hy with rfl | hy
    · exact ⟨[], trP, rfl, rfl⟩
    · obtain ⟨⟨e, y'⟩, hz, rfl⟩ := List.mem_map.mp hy
      obtain ⟨trC, trD, rfl⟩ := List.append_of_mem hz
      exact ⟨trC ++ [(e, y')], trD, by simp, (Trace.last_snoc _ _ _ _).symm⟩
  obtain ⟨trA, trB, rfl, rfl⟩ := hpre
  have hA := (Run.split _ _ hP).1
  have hin : ∀ {e : Ev}, e ∈ trA.events → e ∈ ((trA ++ trB) ++ trQ).events := by
    intro e he
    apply hinP
    rw [Trace.events_append]; exact List.mem_append_left _ he
  have hop : ∀ u op, .call u op ∈ ((trA ++ trB) ++ trQ).events → op.Writes n → u = w ∧ op = opw := by
    intro u op h3 h4
    have h5 := hone _ _ h3 h4
    exact ⟨h5, h.called_once h3 (by rw [h5]; exact hw)⟩
  -- the contents at that moment
  obtain ⟨S, hS, hex⟩ := C39_map_of_maps hb hc hm hA hd fun u op ho => hops u op (hin ho)
  have ok := replay_dbsOk hm hd (fun x hx => hops _ _ (hin (hS.called x hx).1)) hS.legal
  have hview : ∀ op, (Daemon.view ⟨(Trace.last (Conf.init dbs) trA).dbs, []⟩).Answers env op
      (Daemon.exec env op ⟨(Trace.last (Conf.init dbs) trA).dbs, []⟩).1 := fun op =>
    exec_answers hb hc (d := ⟨(Trace.last (Conf.init dbs) trA).dbs, []⟩) ok (by intro m b hn; cases hn) op
  have hans : (Daemon.view ⟨(Trace.last (Conf.init dbs) trA).dbs, []⟩).Answers env (.getDb n)
      (Dbs.getDb env n (Trace.last (Conf.init dbs) trA).dbs) := by
    have := hview (.getDb n)
    have e : (Daemon.exec env (.getDb n) ⟨(Trace.last (Conf.init dbs) trA).dbs, []⟩).1 =
        Dbs.getDb env n (Trace.last (Conf.init dbs) trA).dbs := by
      simp only [Daemon.exec, Daemon.getDb, AMap.get]
      cases Dbs.getDb env n (Trace.last (Conf.init dbs) trA).dbs <;> rfl
    rwa [e] at this
  by_cases hold : Daemon.view ⟨(Trace.last (Conf.init dbs) trA).dbs, []⟩ n = Daemon.view ⟨dbs, []⟩ n
  · -- from before the change: the second answer is from before or after
    obtain ⟨S', hS', hex'⟩ := C39_map_of_maps hb hc hm h hd hops
    have hx := hS'.complete t' _ r' ht' rfl hr'
    obtain ⟨A, B, rfl⟩ := List.append_of_mem hx
    obtain ⟨m, h3, h4⟩ := hex'.split
    obtain ⟨h5, h6⟩ := h3.onlyChange (n := n) (w := w) (opw := opw)
      (hS'.once.sublist ((List.sublist_append_left _ _).map _))
      (fun x hx hwx => hop _ _ (hS'.called x (List.mem_append_left _ hx)).1 hwx)
    by_cases he : ∃ x ∈ A, x.2.1.Writes n
    · exact ⟨false, true, fun _ => rfl, (Abs.answers_database rfl hold _).mp hans, (Abs.answers_database rfl (h5 he) _).mp h4.1⟩
    · exact ⟨false, false, id, (Abs.answers_database rfl hold _).mp hans, (Abs.answers_database rfl (h6 he) _).mp h4.1⟩
  · -- from after it: nothing changes any more
    obtain ⟨h5, h6⟩ := hex.onlyChange (n := n) (w := w) (opw := opw) hS.once
      (fun x hx hwx => hop _ _ (hin (hS.called x hx).1) hwx)
    have hnew : Daemon.view ⟨(Trace.last (Conf.init dbs) trA).dbs, []⟩ n = ((Daemon.view ⟨dbs, []⟩).after opw) n := by
      by_cases he : ∃ x ∈ S, x.2.1.Writes n
      · exact h5 he
      · exact absurd (h6 he) hold
    have hgone : ∃ op pc, (Trace.last (Conf.init dbs) trA).tasks w = some (op, pc) ∧ ¬ pc.early ∧ pc ≠ .locked := by
      by_contra hno
      refine hold ?_
      have := hA.not_changed (n := n) (w := w) (fun u op h7 h8 => hone u op (hin h7) h8) (by
        intro op pc h7
        by_contra h8
        exact hno ⟨op, pc, h7, fun h9 => h8 (.inl h9), fun h9 => h8 (.inr h9)⟩)
      show (AMap.get n _).map _ = (AMap.get n _).map _
      rw [this]
    have hnot : ∀ e ∈ (trA ++ trB).events, e.task ≠ some t' := by
      obtain ⟨⟨e0, z⟩, hz, e1⟩ := List.mem_map.mp h2
      simp only at e1
      subst e1
      obtain ⟨trC, trD, rfl⟩ := List.append_of_mem hz
      rw [← List.append_assoc] at h
      intro e he
      exact h.before_call e (by rw [Trace.events_append]; exact List.mem_append_left _ he)
    have h0 : Settled env n k w t' (Trace.last (Conf.init dbs) trA).dbs (Trace.last (Conf.init dbs) trA) := by
      refine ⟨rfl, hgone, fun u op pc h7 h8 => hone u op (hin (hA.taskInv.called _ _ _ h7)) h8, ?_⟩
      intro op pc h7
      exact absurd rfl (hnot (.call t' op) (by
        rw [Trace.events_append]; exact List.mem_append_left _ (hA.taskInv.called _ _ _ h7)))
    have hrest : Run env (Trace.last (Conf.init dbs) trA) (trB ++ trQ) := by
      rw [List.append_assoc] at h
      exact (Run.split _ _ h).2
    have hend : ∀ (tr₀ : Trace), Run env (Trace.last (Conf.init dbs) trA) tr₀ →
        (∀ u op, .call u op ∈ tr₀.events → .call u op ∈ ((trA ++ trB) ++ trQ).events) →
        Settled env n k w t' (Trace.last (Conf.init dbs) trA).dbs (Trace.last (Trace.last (Conf.init dbs) trA) tr₀) := by
      intro tr₀ hr₀ hc₀
      induction hr₀ with
      | nil => exact h0
      | @snoc tr₀ e c' hr₀ hs ih =>
        rw [Trace.last_snoc]
        rw [Trace.events_snoc] at hc₀
        refine (ih fun u op h7 => hc₀ u op (List.mem_append_left _ h7)).step hs ?_
        rintro u op rfl
        have h7 := hc₀ u op (by simp)
        exact ⟨fun h8 => hone u op h7 h8, fun h8 => h.called_once (h8 ▸ h7) ht'⟩
    have hfin := hend _ hrest (by
      intro u op h7
      rw [List.append_assoc, Trace.events_append]
      exact List.mem_append_right _ h7)
    obtain ⟨op, h7⟩ := h.taskInv.returned t' r' hr'
    rw [List.append_assoc, Trace.last_append] at h7
    have hval := (hfin.reader _ _ h7).2 r' (.inr rfl)
    refine ⟨true, true, fun _ => rfl, (Abs.answers_database rfl hnew _).mp hans, ?_⟩
    rw [hval]
    exact (Abs.answers_database rfl hnew _).mp (hview (.getValue n k))

/-- C112 is violated when both kinds of reads are mixed: `clear_db` is the only change, a read of the key is told that it is not
there any more, and a `get_db` that is called after that still gives the key, from the cache. -/
theorem C112_refuted_mixed {env : Env} (hbo : HashOrder env.byteOrd) (hco : HashOrder env.charOrd) :
    ∃ (tr : Trace) (b : List UInt8), Run env (Conf.init [(['d'], [(['k'], .null)])]) tr ∧ .call 1 (.clearDb ['d']) ∈ tr.events ∧
      OnlyChange tr.events ['d'] 1 ∧ .call 3 (.getValue ['d'] ['k']) ∈ tr.events ∧
      Before tr.events (.ret 3 (.error .keyNotFound)) (.call 2 (.getDb ['d'])) ∧ .ret 2 (.bytes b) ∈ tr.events ∧
      Store.ser env [(['k'], .null)] = .ok b ∧
      ¬ ((Daemon.view ⟨[(['d'], [(['k'], .null)])], []⟩).after (.clearDb ['d'])).Answers env (.getDb ['d']) (.bytes b) := by
  obtain ⟨_, _, f1, comp1, h1, hf1, _⟩ := C35_no_text env hbo hco [] (by
    intro t ht
    cases ht with
    | key h => cases h
    | map h _ => cases h)
  obtain ⟨_, _, _, f2, comp2, h2, hf2, _⟩ := C35_covers env hbo hco [(['k'], .null)]
    ⟨['k'], .key (v := .null) (by simp), by simp⟩
  have hne : sourisdb ++ f2 :: comp2 ≠ sourisdb ++ f1 :: comp1 := by
    intro e
    simp only [List.append_cancel_left_eq, List.cons.injEq] at e
    rw [e.1] at hf2
    omega
  have hg : Dbs.getDb env ['d'] [(['d'], [(['k'], .null)])] = .bytes (sourisdb ++ f2 :: comp2) := by
    show (match Store.ser env [(['k'], .null)] with
      | .ok b => Reply.bytes b
      | .err _ | .panic _ => .aborted) = _
    rw [h2]
  generalize sourisdb ++ f2 :: comp2 = b at h2 hne hg
  refine ⟨[(.call 0 (.getDb ['d']), _), (.miss 0, _), (.call 1 (.clearDb ['d']), _), (.invalidate 1, _), (.acquire 0, _),
      (.act 0, _), (.fill 0 ['d'], _), (.ret 0 (.bytes b), _), (.acquire 1, _), (.act 1, _), (.ret 1 (.status 200), _),
      (.call 3 (.getValue ['d'] ['k']), _), (.acquire 3, _), (.act 3, _), (.ret 3 (.error .keyNotFound), _),
      (.call 2 (.getDb ['d']), _), (.ret 2 (.bytes b), _)], b,
    .cons (.call (.getDb ['d']) rfl) (.cons (.miss (t := 0) (n := ['d']) rfl rfl) (.cons (.call (.clearDb ['d']) rfl)
      (.cons (.invalidate (t := 1) (op := .clearDb ['d']) rfl rfl)
      (.cons (.acquire (t := 0) (op := .getDb ['d']) (pc := .missed) rfl rfl rfl)
      (.cons (.act (t := 0) (op := .getDb ['d']) rfl) (.cons (.fill (t := 0) (n := ['d']) (b := b) ?_)
      (.cons (.ret (t := 0) (op := .getDb ['d']) (pc := .cached (.bytes b)) rfl (.inl rfl))
      (.cons (.acquire (t := 1) (op := .clearDb ['d']) (pc := .invalidated) rfl rfl rfl)
      (.cons (.act (t := 1) (op := .clearDb ['d']) rfl)
      (.cons (.ret (t := 1) (op := .clearDb ['d']) (pc := .acted (.status 200)) rfl rfl)
      (.cons (.call (.getValue ['d'] ['k']) rfl)
      (.cons (.acquire (t := 3) (op := .getValue ['d'] ['k']) (pc := .start) rfl rfl rfl)
      (.cons (.act (t := 3) (op := .getValue ['d'] ['k']) rfl)
      (.cons (.ret (t := 3) (op := .getValue ['d'] ['k']) (pc := .acted (.error .keyNotFound)) rfl rfl)
      (.cons (.call (.getDb ['d']) rfl) (.cons (.hit (t := 2) (n := ['d']) (b := b) rfl rfl) .nil)))))))))))))))),
    ?_, ?_, ?_, ?_, ?_, h2, ?_⟩
  · show some (Op.getDb ['d'], Pc.acted (Dbs.getDb env ['d'] [(['d'], [(['k'], .null)])])) = _
    rw [hg]
  · simp [Trace.events]
  · intro u op hu hw
    simp only [Trace.events, List.map_cons, List.map_nil, List.mem_cons, Ev.call.injEq, reduceCtorEq, List.not_mem_nil,
      or_false, false_or] at hu
    rcases hu with ⟨-, rfl⟩ | ⟨rfl, -⟩ | ⟨-, rfl⟩ | ⟨-, rfl⟩
    · exact absurd trivial hw.2
    · rfl
    · exact absurd trivial hw.2
    · exact absurd trivial hw.2
  · simp [Trace.events]
  · exact ⟨List.take 15 _, List.drop 15 _, (List.take_append_drop 15 _).symm, by simp [Trace.events], by simp [Trace.events]⟩
  · simp [Trace.events]
  · intro ha
    have hv : ((Daemon.view ⟨[(['d'], [(['k'], .null)])], []⟩).after (.clearDb ['d'])) ['d'] = some Abs.empty := by
      simp [Abs.after, Daemon.view, AMap.get, Abs.put]
    simp only [Abs.Answers, hv] at ha
    obtain ⟨s, b', e, h3, h4⟩ := ha
    cases e
    have hs : s = [] := by
      cases s with
      | nil => rfl
      | cons x s =>
        exfalso
        have h5 : Abs.empty x.1 = some x.2 := (h4.2 x.1 x.2).mp (by simp)
        cases h5
    subst hs
    rw [h1] at h3
    cases h3
    exact hne rfl

/-- A run that meets the hypotheses of `C112_at_once`: one read is answered before the change, with the value, and one after it. -/
example (env : Env) : ∃ tr : Trace, Run env (Conf.init [(['d'], [(['k'], .null)])]) tr ∧ .call 1 (.clearDb ['d']) ∈ tr.events ∧
    OnlyChange tr.events ['d'] 1 ∧ Before tr.events (.ret 3 (.value .null)) (.call 4 (.getValue ['d'] ['k'])) ∧
    .ret 4 (.error .keyNotFound) ∈ tr.events := by
  refine ⟨[(.call 1 (.clearDb ['d']), _), (.invalidate 1, _), (.call 3 (.getValue ['d'] ['k']), _), (.acquire 3, _), (.act 3, _),
      (.ret 3 (.value .null), _), (.acquire 1, _), (.act 1, _), (.call 4 (.getValue ['d'] ['k']), _), (.ret 1 (.status 200), _),
      (.acquire 4, _), (.act 4, _), (.ret 4 (.error .keyNotFound), _)],
    .cons (.call (.clearDb ['d']) rfl) (.cons (.invalidate (t := 1) (op := .clearDb ['d']) rfl rfl)
      (.cons (.call (.getValue ['d'] ['k']) rfl)
      (.cons (.acquire (t := 3) (op := .getValue ['d'] ['k']) (pc := .start) rfl rfl rfl)
      (.cons (.act (t := 3) (op := .getValue ['d'] ['k']) rfl)
      (.cons (.ret (t := 3) (op := .getValue ['d'] ['k']) (pc := .acted (.value .null)) rfl rfl)
      (.cons (.acquire (t := 1) (op := .clearDb ['d']) (pc := .invalidated) rfl rfl rfl)
      (.cons (.act (t := 1) (op := .clearDb ['d']) rfl) (.cons (.call (.getValue ['d'] ['k']) rfl)
      (.cons (.ret (t := 1) (op := .clearDb ['d']) (pc := .acted (.status 200)) rfl rfl)
      (.cons (.acquire (t := 4) (op := .getValue ['d'] ['k']) (pc := .start) rfl rfl rfl)
      (.cons (.act (t := 4) (op := .getValue ['d'] ['k']) rfl)
      (.cons (.ret (t := 4) (op := .getValue ['d'] ['k']) (pc := .acted (.error .keyNotFound)) rfl rfl) .nil)))))))))))),
    ?_, ?_, ?_, ?_⟩
  · simp [Trace.events]
  · intro u op hu hw
    simp only [Trace.events, List.map_cons, List.map_nil, List.mem_cons, Ev.call.injEq, reduceCtorEq, List.not_mem_nil,
      or_false, false_or] at hu
    rcases hu with ⟨rfl, -⟩ | ⟨-, rfl⟩ | ⟨-, rfl⟩
    · rfl
    · exact absurd trivial hw.2
    · exact absurd trivial hw.2
  · exact ⟨List.take 6 _, List.drop 6 _, (List.take_append_drop 6 _).symm, by simp [Trace.events], by simp [Trace.events]⟩
  · simp [Trace.events]

end Souris
