import Verif.Lemmas.Saver
import Verif.Props.Concurrent

/-! # The saver beside the requests: C74 (a save stores one moment), C51 under concurrency, C75 (no deadlock) -/

namespace Souris

theorem Op.act_names (env : Env) (op : Op) (dbs : Dbs) (h : (dbs.map Prod.fst).Nodup) :
    ((op.act env dbs).2.map Prod.fst).Nodup := by
  cases op with
  | removeDb n io =>
    simp only [Op.act, Dbs.removeDb]
    split
    · exact h
    · next dbs' he =>
      split at he
      · cases he; exact AMap.nodup_erase h
      · cases he
  | _ =>
    simp only [Op.act, Dbs.newDb, Dbs.newDbWith, Dbs.clearDb, Dbs.addKv, Dbs.removeKey] <;>
    (repeat' split) <;>
    first
    | exact h
    | exact AMap.nodup_insert h

theorem Run.names {env : Env} {c : Conf} {tr : Trace} (h : Run env c tr) (hn : (c.dbs.map Prod.fst).Nodup) :
    ((Trace.last c tr).dbs.map Prod.fst).Nodup := by
  induction h with
  | nil => exact hn
  | @snoc tr e c' h hs ih =>
    rw [Trace.last_snoc]
    generalize Trace.last c tr = c0 at hs ih
    cases hs with
    | act h => exact Op.act_names env _ _ ih
    | _ => exact ih

/-! ## C74 -/

/-- What is known at the beginning of a save. -/
theorem save_begins {env : Env} {base : Path} {dbs : Dbs} {fs : FS} {trA trB : STrace} {x : Sys} {last : Bool}
    (h : SRun env base (Sys.init dbs fs) (trA ++ (.begin last, x) :: trB)) :
    ∃ S todo, Linearization env (Conf.init dbs) trA.requests S ∧
      x.conf.dbs = (replay env dbs (S.map fun y => y.2.1)).2 ∧ Pass x x last [] todo [] ∧ SRun env base x trB ∧
      ((dbs.map Prod.fst).Nodup → (x.conf.dbs.map Prod.fst).Nodup) := by
  obtain ⟨h1, h2⟩ := h.split
  obtain ⟨h3, h4⟩ := h2.uncons
  have hr := h1.requests
  obtain ⟨S, hS⟩ := C39_linearizable (dbs := dbs) hr.1
  have hti : TaskInv (STrace.last (Sys.init dbs fs) trA).conf trA.requests.events := by
    rw [← hr.2]; exact Run.taskInv hr.1
  obtain ⟨todo, hp⟩ := Pass.begin h3 ⟨_, hti⟩
  have hc : x.conf = (STrace.last (Sys.init dbs fs) trA).conf := by
    rcases h3.conf with ⟨_, he, _⟩ | ⟨hc, _⟩
    · cases he
    · exact hc
  refine ⟨S, todo, hS, ?_, hp, h4, ?_⟩
  · have hl := hS.legal
    rw [show (Conf.init dbs).dbs = dbs from rfl] at hl
    rw [hl, hc, ← hr.2]
    rfl
  · intro hn
    rw [hc, ← hr.2]
    exact hr.1.names hn

/-- C74: a save sees one moment. Under every interleaving of requests, cancellations and a save there is an
order of the operations that explains the replies up to the beginning of the save (`Linearization`: all the
operations that were answered are in it, and none that was called later), such that the databases are the
result of that order during the whole time that the save is writing files; and it writes every database
exactly once. -/
theorem C74_moment {env : Env} {base : Path} {dbs : Dbs} {fs : FS} {trA trB : STrace} {x y : Sys} {last : Bool}
    (h : SRun env base (Sys.init dbs fs) (trA ++ (.begin last, x) :: (trB ++ [(.release, y)])))
    (hone : .release ∉ trB.events) :
    ∃ S, Linearization env (Conf.init dbs) trA.requests S ∧
      (∀ s ∈ STrace.states x (trB ++ [(.release, y)]), s.conf.dbs = (replay env dbs (S.map fun y => y.2.1)).2) ∧
      trB.written.Perm ((replay env dbs (S.map fun y => y.2.1)).2.map Prod.fst) := by
  obtain ⟨S, todo, hS, hd, hp, h4, -⟩ := save_begins h
  obtain ⟨h5, h6⟩ := h4.split
  obtain ⟨h7, -⟩ := h6.uncons
  obtain ⟨h8, done, rest, names, h9, h10⟩ := hp.run h5 hone
  refine ⟨S, hS, ?_, ?_⟩
  · intro s hs
    rw [← hd]
    have : s ∈ STrace.states x trB ∨ s = y := by
      simp only [STrace.states, List.map_append, List.mem_cons, List.mem_append, List.map_cons, List.map_nil,
        List.not_mem_nil, or_false] at hs ⊢
      tauto
    rcases this with hs | rfl
    · exact h8 s hs
    · rcases h7.conf with ⟨_, he, _⟩ | ⟨hc, _⟩
      · cases he
      · rw [hc]; exact h9.dbs
  · have hrest : rest = [] := by
      generalize STrace.last x trB = s at h7 h9
      cases h7 with
      | release hx hs => rw [h9.pc] at hs; cases hs; rfl
    subst hrest
    rw [← h10, ← hd]
    have := h9.all
    rw [List.append_nil] at this
    exact this.map _

/-- C74, partial: and when the save has written the files, the file of every database holds the contents of
that moment, and its name will be listed. This is for names that are one path component, when no write of
that file fails, and no `rm_db` that began before is still about to delete a file of that name. Missing:
those (`C74_refuted_recreated`, `C48_refuted_*`). -/
theorem C74_files_partial {env : Env} {base : Path} {dbs : Dbs} {fs : FS} {trA trB : STrace} {x y : Sys} {last : Bool}
    (h : SRun env base (Sys.init dbs fs) (trA ++ (.begin last, x) :: (trB ++ [(.release, y)])))
    (hone : .release ∉ trB.events) (hnd : (dbs.map Prod.fst).Nodup) (hb : BaseOk x.fs base) :
    ∃ S names, Linearization env (Conf.init dbs) trA.requests S ∧ y.saver = .listing last names ∧
      ((∀ m s, AMap.get m (replay env dbs (S.map fun y => y.2.1)).2 = some s → PlainName m) →
      ∀ n s, AMap.get n (replay env dbs (S.map fun y => y.2.1)).2 = some s →
        (∀ m, x.deleting m → PlainName m ∧ m ≠ n) → x.fs (sdbPath base n) ≠ some .dir →
        (∀ f, .write n f ∈ trB.events → f = .none) →
        n ∈ names ∧ y.fs (sdbPath base n) = some (.file (serBytes env s))) := by
  obtain ⟨S, todo, hS, hd, hp, h4, hn⟩ := save_begins h
  obtain ⟨h5, h6⟩ := h4.split
  obtain ⟨h7, -⟩ := h6.uncons
  obtain ⟨-, done, rest, names, h9, -⟩ := hp.run h5 hone
  have hy : rest = [] ∧ y.saver = .listing last names ∧ y.fs = (STrace.last x trB).fs := by
    generalize STrace.last x trB = s at h7 h9
    cases h7 with
    | release hx hs => rw [h9.pc] at hs; cases hs; exact ⟨rfl, rfl, rfl⟩
  refine ⟨S, names, hS, hy.2.1, ?_⟩
  intro hplain n s hget hfl hdir hf
  rw [← hd] at hget hplain
  have hmem := AMap.get_mem hget
  obtain ⟨done', rest', names', h10, -, -, h11⟩ := hp.file h5 hone (hn hnd)
    (by
      intro m hm
      obtain ⟨⟨m', t⟩, hmt, rfl⟩ := List.mem_map.mp hm
      exact hplain m' t (AMap.get_of_mem (hn hnd) hmt))
    hb hmem hfl hdir hf
  have e := h9.pc.symm.trans h10.pc
  simp only [SPc.writing.injEq, true_and] at e
  obtain ⟨rfl, rfl⟩ := e
  rw [hy.1] at h10
  have hdone : (n, s) ∈ done' := by
    have := h10.all
    rw [List.append_nil] at this
    exact this.mem_iff.mpr hmem
  rw [hy.2.2]
  exact h11 hdone

/-- A file stays as it is while nothing is being saved and nothing of its name is being deleted. -/
theorem keeps {env : Env} {base : Path} {y : Sys} {tr : STrace} (h : SRun env base y tr)
    (hs : ¬ y.saver.holds) (hno : ∀ l, .begin l ∉ tr.events) (hb : BaseOk y.fs base) {n : List Char} (hm : n ≠ kMeta)
    (hfl : ∀ s ∈ STrace.states y tr, ∀ m, s.deleting m → PlainName m ∧ m ≠ n) :
    ¬ (STrace.last y tr).saver.holds ∧ BaseOk (STrace.last y tr).fs base ∧
    (STrace.last y tr).fs (sdbPath base n) = y.fs (sdbPath base n) := by
  induction h with
  | nil => exact ⟨hs, hb, rfl⟩
  | @snoc tr e s' h hst ih =>
    obtain ⟨h1, h2, h3⟩ := ih (fun l hl => hno l (by rw [STrace.events_append]; exact List.mem_append_left _ hl))
      (fun s hs => hfl s (by
        simp only [STrace.states, List.map_append, List.mem_cons, List.mem_append] at hs ⊢
        tauto))
    have hlast : STrace.last y tr ∈ STrace.states y (tr ++ [(e, s')]) := by
      unfold STrace.last STrace.states
      cases ht : tr.getLast? with
      | none => simp
      | some z =>
        simp only [Option.map_some, Option.getD_some, List.mem_cons, List.mem_map, List.mem_append]
        exact .inr ⟨z, .inl (List.mem_of_getLast? ht), rfl⟩
    have hfl' := hfl _ hlast
    rw [STrace.last_snoc]
    rw [← h3]
    have hdel : ∀ (s : Sys) m, BaseOk s.fs base → PlainName m ∧ m ≠ n →
        BaseOk (unlink s.fs base m).2 base ∧ (unlink s.fs base m).2 (sdbPath base n) = s.fs (sdbPath base n) := by
      intro s m hb ⟨hp, hne⟩
      obtain ⟨u1, u2, -⟩ := unlink_plain (fs := s.fs) (base := base) hp
      exact ⟨u2 hb, u1 _ (fun e => hne (sdb_inj e).symm)⟩
    have hne : ∀ l, e ≠ .begin l := by
      rintro l rfl
      exact hno l (by simp [STrace.events])
    generalize STrace.last y tr = s at hst h1 h2 h3 hfl'
    cases hst with
    | req _ _ _ _ => exact ⟨h1, h2, rfl⟩
    | @delete t m io fs' _ ht hio =>
      have := hdel s m h2 (hfl' m (.inr ⟨t, io, ht⟩))
      rcases hio with hio | ⟨_, rfl⟩
      · rw [hio] at this; exact ⟨h1, this.1, this.2⟩
      · exact ⟨h1, h2, rfl⟩
    | abandon _ _ _ => exact ⟨h1, h2, rfl⟩
    | @lateDelete m l1 l2 _ hl =>
      have := hdel s m h2 (hfl' m (.inl (by rw [hl]; simp)))
      exact ⟨h1, this.1, this.2⟩
    | signal _ _ => exact ⟨h1, h2, rfl⟩
    | begin _ _ _ _ _ => exact absurd rfl (hne _)
    | beginLast _ _ _ _ _ => exact absurd rfl (hne _)
    | write f _ hw => rw [hw] at h1; exact absurd trivial h1
    | release _ hw => rw [hw] at h1; exact absurd trivial h1
    | @list last names f _ hw =>
      have w := wrote (fs := s.fs) plain_meta (serBytes env (metaStore names)) f h2
      refine ⟨?_, w.ready, w.others _ (sdb_not_prefix base n) (fun e => hm (sdb_inj e))⟩
      simp only
      split <;> exact id
    | exit _ _ _ => exact ⟨h1, h2, rfl⟩

/-- C74, partial: the file stays as the save left it until the next save begins, as long as no `rm_db` is
about to delete it. -/
theorem C74_stays_partial {env : Env} {base : Path} {dbs : Dbs} {fs : FS} {trA trC : STrace} {y : Sys}
    (h : SRun env base (Sys.init dbs fs) (trA ++ (.release, y) :: trC)) (hb : BaseOk y.fs base)
    (hno : ∀ l, .begin l ∉ trC.events) {n : List Char} (hm : n ≠ kMeta)
    (hfl : ∀ s ∈ STrace.states y trC, ∀ m, s.deleting m → PlainName m ∧ m ≠ n) :
    (STrace.last y trC).fs (sdbPath base n) = y.fs (sdbPath base n) := by
  obtain ⟨-, h2⟩ := h.split
  obtain ⟨h3, h4⟩ := h2.uncons
  refine (keeps h4 ?_ hno hb hm hfl).2.2
  generalize STrace.last (Sys.init dbs fs) trA = s at h3
  cases h3
  exact id

/-- After the last save there is no other. -/
theorem last_save {env : Env} {base : Path} {y : Sys} {tr : STrace} {names : List (List Char)} (h : SRun env base y tr)
    (hy : y.saver = .listing true names) : (∀ l, .begin l ∉ tr.events) ∧
    ((STrace.last y tr).saver = .listing true names ∨ (STrace.last y tr).saver = .finished) := by
  induction h with
  | nil => exact ⟨by simp [STrace.events], .inl hy⟩
  | @snoc tr e s' h hst ih =>
    rw [STrace.last_snoc, STrace.events_append]
    obtain ⟨h1, h2⟩ := ih
    have key : (∀ l, e ≠ .begin l) ∧ (s'.saver = .listing true names ∨ s'.saver = .finished) := by
      generalize STrace.last y tr = s at hst h2
      cases hst with
      | begin _ hw _ _ _ => rcases h2 with h2 | h2 <;> rw [h2] at hw <;> cases hw
      | beginLast _ hw _ _ _ => rcases h2 with h2 | h2 <;> rw [h2] at hw <;> cases hw
      | write f _ hw => rcases h2 with h2 | h2 <;> rw [h2] at hw <;> cases hw
      | release _ hw => rcases h2 with h2 | h2 <;> rw [h2] at hw <;> cases hw
      | list f _ hw =>
        rcases h2 with h2 | h2
        · rw [h2] at hw; cases hw; exact ⟨by simp, .inr rfl⟩
        · rw [h2] at hw; cases hw
      | _ => exact ⟨by simp, h2⟩
    refine ⟨fun l hl => ?_, key.2⟩
    rcases List.mem_append.mp hl with hl | hl
    · exact h1 l hl
    · simp only [STrace.events, List.map_cons, List.map_nil, List.mem_singleton] at hl
      exact key.1 l hl.symm

/-- C51 under every interleaving, partial: the requests that were answered before the last save obtained the
lock are all in an order of operations whose result is on the disk when the process has exited. This is for
names that are one path component and not `meta`, when no write of the file fails and no `rm_db` is about to
delete it from the beginning of that save on. Missing: requests that are answered later (`C51_refuted`), and
a `rm_db` of an earlier database of the same name (`C51_refuted_recreated`). -/
theorem C51_concurrent_partial {env : Env} {base : Path} {dbs : Dbs} {fs : FS} {trA trB trC : STrace} {x y : Sys}
    (h : SRun env base (Sys.init dbs fs) (trA ++ (.begin true, x) :: (trB ++ (.release, y) :: trC)))
    (hone : .release ∉ trB.events) (hnd : (dbs.map Prod.fst).Nodup) (hb : BaseOk x.fs base) :
    ∃ S, Linearization env (Conf.init dbs) trA.requests S ∧
      ((∀ m s, AMap.get m (replay env dbs (S.map fun y => y.2.1)).2 = some s → PlainName m) →
      ∀ n s, n ≠ kMeta → AMap.get n (replay env dbs (S.map fun y => y.2.1)).2 = some s →
        (∀ z ∈ STrace.states x (trB ++ (.release, y) :: trC), ∀ m, z.deleting m → PlainName m ∧ m ≠ n) →
        x.fs (sdbPath base n) ≠ some .dir → (∀ f, .write n f ∈ trB.events → f = .none) →
        (STrace.last y trC).fs (sdbPath base n) = some (.file (serBytes env s))) := by
  have h' : SRun env base (Sys.init dbs fs) ((trA ++ (.begin true, x) :: (trB ++ [(.release, y)])) ++ trC) := by
    simpa using h
  have hpre := (h'.split _ _).1
  obtain ⟨S, todo, hS, hd, hp, h4, hn⟩ := save_begins hpre
  obtain ⟨h5, h6⟩ := h4.split
  obtain ⟨h7, -⟩ := h6.uncons
  obtain ⟨-, done, rest, names, h9, -⟩ := hp.run h5 hone
  have hy : rest = [] ∧ y.saver = .listing true names ∧ y.fs = (STrace.last x trB).fs := by
    generalize STrace.last x trB = s at h7 h9
    cases h7 with
    | release hx hs => rw [h9.pc] at hs; cases hs; exact ⟨rfl, rfl, rfl⟩
  refine ⟨S, hS, ?_⟩
  intro hplain n s hm hget hfl hdir hf
  rw [← hd] at hget hplain
  have hmem := AMap.get_mem hget
  obtain ⟨done', rest', names', h10, h12, -, h11⟩ := hp.file h5 hone (hn hnd)
    (by
      intro m hm
      obtain ⟨⟨m', t⟩, hmt, rfl⟩ := List.mem_map.mp hm
      exact hplain m' t (AMap.get_of_mem (hn hnd) hmt))
    hb hmem (hfl x (by simp [STrace.states])) hdir hf
  have e := h9.pc.symm.trans h10.pc
  simp only [SPc.writing.injEq, true_and] at e
  obtain ⟨rfl, rfl⟩ := e
  rw [hy.1] at h10
  have hdone : (n, s) ∈ done' := by
    have := h10.all
    rw [List.append_nil] at this
    exact this.mem_iff.mpr hmem
  have hfile := (h11 hdone).2
  rw [← hy.2.2] at hfile h12
  have h13 : SRun env base y trC := by
    have := (h'.split _ _).2
    rwa [STrace.last_append, STrace.last_cons, STrace.last_snoc] at this
  rw [← hfile]
  refine (keeps h13 ?_ (last_save h13 hy.2.1).1 h12 hm ?_).2.2
  · rw [hy.2.1]; exact id
  · intro z hz
    refine hfl z ?_
    simp only [STrace.states, List.map_append, List.map_cons, List.mem_cons, List.mem_append] at hz ⊢
    tauto

/-- The last save has begun. -/
def Begun (tr : STrace) : Prop :=
  ∃ (trA trB : STrace) (x : Sys), tr = trA ++ (.begin true, x) :: trB ∧ .release ∉ trB.events ∧ .signal ∈ trA.events

/-- The last save has written its files. -/
def Ended (tr : STrace) : Prop :=
  ∃ (trA trB trC : STrace) (x y : Sys), tr = trA ++ (.begin true, x) :: (trB ++ (.release, y) :: trC) ∧
    .release ∉ trB.events ∧ .signal ∈ trA.events

theorem Ended.snoc {tr : STrace} (h : Ended tr) (z : SEv × Sys) : Ended (tr ++ [z]) := by
  obtain ⟨trA, trB, trC, x, y, rfl, h1, h2⟩ := h
  exact ⟨trA, trB, trC ++ [z], x, y, by simp, h1, h2⟩

theorem Begun.snoc {tr : STrace} (h : Begun tr) {e : SEv} (s : Sys) (he : e ≠ .release) : Begun (tr ++ [(e, s)]) := by
  obtain ⟨trA, trB, x, rfl, h1, h2⟩ := h
  refine ⟨trA, trB ++ [(e, s)], x, by simp, ?_, h2⟩
  rw [STrace.events_append]
  intro hm
  rcases List.mem_append.mp hm with hm | hm
  · exact h1 hm
  · simp only [STrace.events, List.map_cons, List.map_nil, List.mem_singleton] at hm
    exact he hm.symm

/-- C51: the process exits only when the last save has begun, after the stop signal, and has written its files.
So the hypotheses of `C51_concurrent_partial` about the form of the run are met by every run that ends. -/
theorem C51_exit_after_save {env : Env} {base : Path} {dbs : Dbs} {fs : FS} {tr : STrace}
    (h : SRun env base (Sys.init dbs fs) tr) (hx : (STrace.last (Sys.init dbs fs) tr).exited = true) :
    ∃ (trA trB trC : STrace) (x y : Sys), tr = trA ++ (.begin true, x) :: (trB ++ (.release, y) :: trC) ∧
      .release ∉ trB.events ∧ .signal ∈ trA.events := by
  have key : ∀ {tr : STrace}, SRun env base (Sys.init dbs fs) tr →
      ((STrace.last (Sys.init dbs fs) tr).stop ≠ .no → .signal ∈ tr.events) ∧
      (∀ todo names, (STrace.last (Sys.init dbs fs) tr).saver = .writing true todo names → Begun tr) ∧
      ((∃ names, (STrace.last (Sys.init dbs fs) tr).saver = .listing true names) ∨
        (STrace.last (Sys.init dbs fs) tr).saver = .finished ∨ (STrace.last (Sys.init dbs fs) tr).exited = true →
        Ended tr) := by
    intro tr hr
    induction hr with
    | nil => simp [STrace.last, Sys.init]
    | @snoc tr e s' hr hst ih =>
      rw [STrace.last_snoc]
      have hsig : .signal ∈ tr.events → .signal ∈ STrace.events (tr ++ [(e, s')]) := fun hm => by
        rw [STrace.events_append]; exact List.mem_append_left _ hm
      have hbeg := fun (hb : Begun tr) => hb.snoc (e := e) s'
      have hend := fun (hb : Ended tr) => hb.snoc (e, s')
      generalize STrace.last (Sys.init dbs fs) tr = s at hst ih
      obtain ⟨i1, i2, i3⟩ := ih
      cases hst with
      | signal hx h =>
        refine ⟨fun _ => by simp [STrace.events], fun t n hw => hbeg (i2 t n hw) (by simp), fun ho => hend (i3 ho)⟩
      | begin hx h hl hs ht =>
        refine ⟨fun hne => hsig (i1 ?_), fun t n hw => ?_, fun ho => ?_⟩
        · intro e0; simp [e0] at hne
        · cases hw
        · rcases ho with ⟨n, ho⟩ | ho | ho
          · cases ho
          · cases ho
          · exact hend (i3 (.inr (.inr ho)))
      | beginLast hx h hl hs ht =>
        refine ⟨fun hne => hsig (i1 hne), fun t n hw => ⟨tr, [], _, rfl, by simp [STrace.events], i1 hs⟩, fun ho => ?_⟩
        rcases ho with ⟨n, ho⟩ | ho | ho
        · cases ho
        · cases ho
        · exact hend (i3 (.inr (.inr ho)))
      | @write last n d todo names f hx h =>
        refine ⟨fun hne => hsig (i1 hne), fun t n hw => ?_, fun ho => ?_⟩
        · cases hw; exact hbeg (i2 _ _ h) (by simp)
        · rcases ho with ⟨n, ho⟩ | ho | ho
          · cases ho
          · cases ho
          · exact hend (i3 (.inr (.inr ho)))
      | @release last names hx h =>
        refine ⟨fun hne => hsig (i1 hne), (fun t n hw => by cases hw), fun ho => ?_⟩
        rcases ho with ⟨n, ho⟩ | ho | ho
        · cases ho
          obtain ⟨trA, trB, x, rfl, h1, h2⟩ := i2 _ _ h
          exact ⟨trA, trB, [], x, _, List.append_assoc _ _ _, h1, h2⟩
        · cases ho
        · exact hend (i3 (.inr (.inr ho)))
      | @list last names f hx h =>
        refine ⟨fun hne => hsig (i1 hne), fun t n hw => ?_, fun ho => ?_⟩
        · cases last <;> cases hw
        · rcases ho with ⟨n, ho⟩ | ho | ho
          · cases last <;> cases ho
          · cases last with
            | true => exact hend (i3 (.inl ⟨_, h⟩))
            | false => cases ho
          · exact hend (i3 (.inr (.inr ho)))
      | exit hx h ht =>
        exact ⟨fun hne => hsig (i1 hne), fun t n hw => hbeg (i2 t n hw) (by simp), fun _ => hend (i3 (.inr (.inl h)))⟩
      | _ => exact ⟨fun hne => hsig (i1 hne), fun t n hw => hbeg (i2 t n hw) (by simp), fun ho => hend (i3 ho)⟩
  exact (key h).2.2 (.inr (.inr hx))

/-! ### A `rm_db` that deletes the file of the next database of the same name -/

namespace Again

def d : List Char := ['d']
def k : List Char := ['k']
def R : Op := .removeDb d .done
def N : Op := .newDb d false
def W : Op := .addKv d k false false .null

/-! Task 1 removes the database, task 2 makes it again, task 3 writes a key. -/

def c0 : Conf := Conf.init [(d, [])]
def c1 : Conf := c0.set 1 R .start
def c2 : Conf := { c1 with cache := AMap.erase d c1.cache }.set 1 R .invalidated
def c3 : Conf := { c2 with lock := some 1 }.set 1 R .locked
def c4 (env : Env) : Conf := { c3 with dbs := (R.act env c3.dbs).2 }.set 1 R (.acted (R.act env c3.dbs).1)
def c5 (env : Env) : Conf := { c4 env with lock := none }.set 1 R .unlinking
def c6 (env : Env) : Conf := (c5 env).set 2 N .start
def c7 (env : Env) : Conf := { c6 env with lock := some 2 }.set 2 N .locked
def c8 (env : Env) : Conf := { c7 env with dbs := (N.act env (c7 env).dbs).2 }.set 2 N (.acted (N.act env (c7 env).dbs).1)
def c9 (env : Env) : Conf := { c8 env with cache := AMap.erase d (c8 env).cache }.set 2 N (.cached (.status 201))
def c10 (env : Env) : Conf := { c9 env with lock := none }.set 2 N (.done (.status 201))
def c11 (env : Env) : Conf := (c10 env).set 3 W .start
def c12 (env : Env) : Conf := { c11 env with cache := AMap.erase d (c11 env).cache }.set 3 W .invalidated
def c13 (env : Env) : Conf := { c12 env with lock := some 3 }.set 3 W .locked
def c14 (env : Env) : Conf :=
  { c13 env with dbs := (W.act env (c13 env).dbs).2 }.set 3 W (.acted (W.act env (c13 env).dbs).1)
def c15 (env : Env) : Conf :=
  { c14 env with lock := none }.set 3 W (.done (.creation .insertedKeyIntoExistingDB))
def c16 (env : Env) : Conf := (c15 env).set 1 R (.done (.status 200))

/-- The requests run before anything is saved. -/
def sys (fs : FS) (c : Conf) : Sys := ⟨c, fs, .idle, [], .no, false⟩

def trA (env : Env) (fs : FS) : STrace :=
  [(.req (.call 1 R), sys fs c1), (.req (.invalidate 1), sys fs c2), (.req (.acquire 1), sys fs c3),
   (.req (.act 1), sys fs (c4 env)), (.req (.drop 1), sys fs (c5 env)), (.req (.call 2 N), sys fs (c6 env)),
   (.req (.acquire 2), sys fs (c7 env)), (.req (.act 2), sys fs (c8 env)), (.req (.invalidate 2), sys fs (c9 env)),
   (.req (.ret 2 (.status 201)), sys fs (c10 env)), (.req (.call 3 W), sys fs (c11 env)),
   (.req (.invalidate 3), sys fs (c12 env)), (.req (.acquire 3), sys fs (c13 env)), (.req (.act 3), sys fs (c14 env)),
   (.req (.ret 3 (.creation .insertedKeyIntoExistingDB)), sys fs (c15 env)),
   (.signal, { sys fs (c15 env) with stop := .sent })]

theorem run (env : Env) (base : Path) (fs fs1 fs2 fs3 : FS) (hd : (c15 env).dbs = [(d, [(k, .null)])])
    (h1 : writeTo .none fs base d (serBytes env [(k, .null)]) = (fs1, true)) (h2 : unlink fs1 base d = (.done, fs2))
    (h3 : saveMeta env base .none [d] fs2 = (fs3, true)) :
    SRun env base (Sys.init [(d, [])] fs) (trA env fs ++
      (.begin true, ⟨c15 env, fs, .writing true [(d, [(k, .null)])] [], [], .sent, false⟩) ::
      ([(.write d .none, ⟨c15 env, fs1, .writing true [] [d], [], .sent, false⟩),
        (.req (.ret 1 (.status 200)), ⟨c16 env, fs2, .writing true [] [d], [], .sent, false⟩)] ++
      (.release, ⟨c16 env, fs2, .listing true [d], [], .sent, false⟩) ::
      [(.list .none true, ⟨c16 env, fs3, .finished, [], .sent, false⟩),
       (.exit, ⟨c16 env, fs3, .finished, [], .sent, true⟩)])) := by
  have hno : ∀ (c : Conf) (e : Ev) (u : Nat), e.task = some u → (∀ n io, c.tasks u ≠ some (.removeDb n io, .unlinking)) →
      ∀ t n io, e.task = some t → c.tasks t ≠ some (.removeDb n io, .unlinking) := by
    intro c e u he hc t n io ht
    rw [he] at ht
    cases ht
    exact hc n io
  have go : ∀ {c c' : Conf} {e : Ev} (u : Nat), Step env c e c' → e.task = some u →
      (∀ n io, c.tasks u ≠ some (.removeDb n io, .unlinking)) → SStep env base (sys fs c) (.req e) (sys fs c') :=
    fun u h he hc => .req rfl h (fun _ _ => id) (hno _ _ u he hc)
  refine .cons (go 1 (.call R rfl) rfl (fun n io => by intro e; cases e)) ?_
  refine .cons (go 1 (.invalidate rfl rfl) rfl (fun n io => by intro e; cases e)) ?_
  refine .cons (go 1 (.acquire rfl rfl rfl) rfl (fun n io => by intro e; cases e)) ?_
  refine .cons (go 1 (.act rfl) rfl (fun n io => by intro e; cases e)) ?_
  refine .cons (go 1 (.drop rfl) rfl (fun n io => by intro e; cases e)) ?_
  refine .cons (go 2 (.call N rfl) rfl (fun n io => by intro e; cases e)) ?_
  refine .cons (go 2 (.acquire rfl ⟨rfl, rfl⟩ rfl) rfl (fun n io => by intro e; cases e)) ?_
  refine .cons (go 2 (.act rfl) rfl (fun n io => by intro e; cases e)) ?_
  refine .cons (go 2 (.uncache rfl) rfl (fun n io => by intro e; cases e)) ?_
  refine .cons (go 2 (.ret (pc := .cached (.status 201)) rfl rfl) rfl (fun n io => by intro e; cases e)) ?_
  refine .cons (go 3 (.call W rfl) rfl (fun n io => by intro e; cases e)) ?_
  refine .cons (go 3 (.invalidate rfl rfl) rfl (fun n io => by intro e; cases e)) ?_
  refine .cons (go 3 (.acquire rfl rfl rfl) rfl (fun n io => by intro e; cases e)) ?_
  refine .cons (go 3 (.act rfl) rfl (fun n io => by intro e; cases e)) ?_
  refine .cons (go 3 (.ret (pc := .acted _) rfl rfl) rfl (fun n io => by intro e; cases e)) ?_
  refine .cons (.signal rfl rfl) ?_
  refine .cons (.beginLast rfl rfl rfl (fun e => by cases e) (by rw [show Sys.conf _ = c15 env from rfl, hd])) ?_
  have w := SStep.write (env := env) (base := base)
    (s := ⟨c15 env, fs, .writing true [(d, [(k, .null)])] [], [], .sent, false⟩) .none rfl rfl
  simp only [h1] at w
  refine .cons w ?_
  refine .cons (.delete (t := 1) (n := d) (io := .done) rfl rfl (.inl h2)) ?_
  refine .cons (.release rfl rfl) ?_
  have l := SStep.list (env := env) (base := base)
    (s := ⟨c16 env, fs2, .listing true [d], [], .sent, false⟩) .none rfl rfl
  simp only [h3] at l
  refine .cons l ?_
  refine .cons (.exit rfl rfl ?_) .nil
  intro t op pc ht
  have : (if t = 1 then some (R, Pc.done (.status 200)) else if t = 3 then
    some (W, Pc.done (.creation .insertedKeyIntoExistingDB)) else (c10 env).tasks t) = some (op, pc) := by
    simp only [c16, c15, c14, c13, c12, c11, Conf.set] at ht
    split at ht
    · next h => rw [if_pos h]; exact ht
    · next h =>
      rw [if_neg h]
      split at ht
      · next h3 => rw [if_pos h3]; exact ht
      · next h3 => rw [if_neg h3]; simpa only [if_neg h3] using ht
  split at this
  · cases this; trivial
  · next h1 =>
    split at this
    · cases this; trivial
    · by_cases h2 : t = 2
      · subst h2
        have : some (N, Pc.done (.status 201)) = some (op, pc) := this
        cases this; trivial
      · simp only [c10, c9, c8, c7, c6, c5, c4, c3, c2, c1, c0, Conf.set, Conf.init, if_neg h1, if_neg h2] at this
        cases this

end Again

/-- C51 and C74 are violated when a database is removed and made again: the file is deleted only after the
lock was released, and by then it can be the file of the new database. Here `rm_db` and `add_db` of the same
name overlap; the new database is made and a key is written to it, and both are answered; then the stop
signal arrives, and the last save writes the file. Only then the `rm_db` deletes it, and is answered. When
the files are written (`y`) the file is not there, nor when the process has exited, although no write failed
and the database is on the list. -/
theorem C51_refuted_recreated {env : Env} (hmo : HashOrder env.mapOrd) (base : Path) (fs : FS) (hb : fs base = some .dir)
    (hf : fs (sdbPath base Again.d) ≠ some .dir) (hm : fs (sdbPath base kMeta) ≠ some .dir) :
    ∃ (trA trB trC : STrace) (w x y : Sys),
      SRun env base (Sys.init [(Again.d, [])] fs) (trA ++ (.signal, w) :: (.begin true, x) ::
        (trB ++ (.release, y) :: trC)) ∧
      .req (.call 2 (.newDb Again.d false)) ∈ trA.events ∧ .req (.ret 2 (.status 201)) ∈ trA.events ∧
      .req (.call 3 (.addKv Again.d Again.k false false .null)) ∈ trA.events ∧
      .req (.ret 3 (.creation .insertedKeyIntoExistingDB)) ∈ trA.events ∧
      trB.events = [.write Again.d .none, .req (.ret 1 (.status 200))] ∧ trC.events = [.list .none true, .exit] ∧
      AMap.get Again.d x.conf.dbs = some [(Again.k, .null)] ∧ y.fs (sdbPath base Again.d) = none ∧
      (STrace.last y trC).exited = true ∧
      AMap.get Again.d (STrace.last y trC).conf.dbs = some [(Again.k, .null)] ∧
      (STrace.last y trC).fs (sdbPath base Again.d) = none ∧
      (STrace.last y trC).fs (sdbPath base kMeta) = some (.file (serBytes env (metaStore [Again.d]))) := by
  have hpl : PlainName Again.d := ⟨by decide, by decide⟩
  have hme : env.mapOrd [(Again.k, Value.null)] = [(Again.k, .null)] := List.perm_singleton.mp (hmo _)
  have hd : (Again.c15 env).dbs = [(Again.d, [(Again.k, .null)])] := by
    show [(Again.d, env.mapOrd [(Again.k, Value.null)])] = _
    rw [hme]
  have w1 := wrote_dir (fs := fs) hpl (serBytes env [(Again.k, .null)]) .none hb
  have t1 := w1.iff.mpr ⟨rfl, hf⟩
  have d1 := w1.done t1
  have hk1 : (writeTo .none fs base Again.d (serBytes env [(Again.k, .null)])).1 (sdbPath base kMeta) ≠ some .dir := by
    rw [w1.others _ (sdb_not_prefix base kMeta) (fun e => absurd (sdb_inj e) (by decide))]
    exact hm
  generalize hw : writeTo .none fs base Again.d (serBytes env [(Again.k, .null)]) = r1 at t1 d1 hk1
  have h2 : unlink r1.1 base Again.d = (.done, r1.1.set (sdbPath base Again.d) none) := by
    unfold unlink
    rw [target_plain hpl d1.2]
    simp only [d1.1]
  have hb2 : (r1.1.set (sdbPath base Again.d) none) base = some .dir := by
    rw [FS.set_ne _ _ (sdb_ne_base _ _).symm]; exact d1.2
  have w3 := wrote_dir (fs := r1.1.set (sdbPath base Again.d) none) plain_meta (serBytes env (metaStore [Again.d])) .none hb2
  have t3 := w3.iff.mpr ⟨rfl, by
    rw [FS.set_ne _ _ (fun e => absurd (sdb_inj e) (by decide))]; exact hk1⟩
  have d3 := w3.done t3
  have o3 := w3.others (sdbPath base Again.d) (sdb_not_prefix base _) (fun e => absurd (sdb_inj e) (by decide))
  rw [FS.set_self] at o3
  have hx : AMap.get Again.d (Again.c15 env).dbs = some [(Again.k, .null)] := by rw [hd]; rfl
  refine ⟨(Again.trA env fs).dropLast, _, _, _, _, _, Again.run env base fs r1.1 _ _ hd (by rw [hw]; exact Prod.ext rfl t1) h2
    (Prod.ext rfl t3), ?_, ?_, ?_, ?_, rfl, rfl, hx, FS.set_self .., rfl, hx, o3, d3.1⟩ <;>
    simp [Again.trA, STrace.events, Again.N, Again.W]

/-- C74 is violated in the same way: there is a save whose writes all succeed, and a database that exists at
the moment that it stores and has no file when the files are written. -/
theorem C74_refuted_recreated {env : Env} (hmo : HashOrder env.mapOrd) (base : Path) (fs : FS) (hb : fs base = some .dir)
    (hf : fs (sdbPath base Again.d) ≠ some .dir) (hm : fs (sdbPath base kMeta) ≠ some .dir) :
    ∃ (trA trB : STrace) (x y : Sys),
      SRun env base (Sys.init [(Again.d, [])] fs) (trA ++ (.begin true, x) :: (trB ++ [(.release, y)])) ∧
      (∀ n f, .write n f ∈ trB.events → f = .none) ∧
      AMap.get Again.d x.conf.dbs = some [(Again.k, .null)] ∧ y.fs (sdbPath base Again.d) = none := by
  obtain ⟨trA, trB, trC, w, x, y, h, -, -, -, -, hB, -, hx, hy, -⟩ := C51_refuted_recreated hmo base fs hb hf hm
  refine ⟨trA ++ [(.signal, w)], trB, x, y, ?_, ?_, hx, hy⟩
  · have h' : SRun env base (Sys.init [(Again.d, [])] fs)
      (((trA ++ [(.signal, w)]) ++ (.begin true, x) :: (trB ++ [(.release, y)])) ++ trC) := by simpa using h
    exact (h'.split _ _).1
  · intro n f hn
    rw [hB] at hn
    simp only [List.mem_cons, SEv.write.injEq, reduceCtorEq, List.not_mem_nil, or_false] at hn
    exact hn.2

/-- A save of one database, on the sample disk, with no request. -/
example : ∃ (x w y : Sys), SRun sampleEnv [['e', 't', 'c'], ['s']] (Sys.init [(['d'], [])] sampleFs)
      ([] ++ (.begin false, x) :: ([(.write ['d'] .none, w)] ++ [(.release, y)])) ∧
    BaseOk x.fs [['e', 't', 'c'], ['s']] ∧ (∀ m, ¬ x.deleting m) ∧
    x.fs (sdbPath [['e', 't', 'c'], ['s']] ['d']) ≠ some .dir := by
  refine ⟨_, _, _, .cons (.begin rfl rfl rfl (fun e => by cases e) (.refl _)) (.cons (.write .none rfl rfl)
    (.cons (.release rfl rfl) .nil)), .inl (by decide), ?_, by decide⟩
  rintro m (h | ⟨t, io, h⟩) <;> cases h

/-! ## C75 -/

/-- A step of the saver. -/
def SEv.ofSaver : SEv → Bool
  | .begin _ | .write _ _ | .release | .list _ _ => true
  | _ => false

/-- The saver's steps up to the end of the save. -/
def SPc.rank : SPc → Nat
  | .idle | .finished => 0
  | .writing _ todo _ => todo.length + 2
  | .listing _ _ => 1

/-- C75: no deadlock. As long as a request has not been answered, a request can take a step, or the saver has
the lock and can take a step. (`hio`: the answer of the file system to a deletion, which the model keeps with
the request, is what the file system would answer.) -/
theorem C75_progress {env : Env} {base : Path} {dbs : Dbs} {fs : FS} {tr : STrace} {s : Sys}
    (h : SRun env base (Sys.init dbs fs) tr) (hs : STrace.last (Sys.init dbs fs) tr = s) (hx : s.exited = false)
    (hio : ∀ t n io, s.conf.tasks t = some (.removeDb n io, .unlinking) → io = .failed ∨ (unlink s.fs base n).1 = io)
    {t : Nat} {op : Op} {pc : Pc} (ht : s.conf.tasks t = some (op, pc)) (hpc : ¬ pc.ended) :
    (∃ e s', SStep env base s (.req e) s' ∧ e.isWork) ∨
    (s.saver.holds ∧ ∃ e s', SStep env base s e s' ∧ e.ofSaver = true) := by
  have hr := h.requests
  rw [hs] at hr
  by_cases hh : s.saver.holds
  · right
    refine ⟨hh, ?_⟩
    cases hsv : s.saver with
    | writing last todo names =>
      cases todo with
      | nil => exact ⟨_, _, .release hx hsv, rfl⟩
      | cons x todo => exact ⟨_, _, .write .none hx hsv, rfl⟩
    | idle | listing _ _ | finished => rw [hsv] at hh; exact absurd hh id
  · left
    have ht' : (Trace.last (Conf.init dbs) tr.requests).tasks t = some (op, pc) := by
      have := hr.2
      rw [show (Sys.init dbs fs).conf = Conf.init dbs from rfl] at this
      rw [this]; exact ht
    obtain ⟨e, c', hst, hw⟩ := C55_progress (dbs := dbs) hr.1 ht' (by rintro r rfl; exact hpc trivial)
      (by rintro rfl; exact hpc trivial)
    rw [show Trace.last (Conf.init dbs) tr.requests = s.conf from hr.2] at hst
    by_cases hu : ∃ u n io, e.task = some u ∧ s.conf.tasks u = some (.removeDb n io, .unlinking)
    · obtain ⟨u, n, io, _, h2⟩ := hu
      rcases hio u n io h2 with rfl | hio
      · exact ⟨_, _, .delete hx h2 (.inr ⟨rfl, rfl⟩), trivial⟩
      · exact ⟨_, _, .delete hx h2 (.inl (Prod.ext hio rfl)), trivial⟩
    · exact ⟨e, _, .req hx hst (fun _ _ => hh) (fun u n io h1 h2 => hu ⟨u, n, io, h1, h2⟩), hw⟩

/-- C75: the daemon stops. After the stop signal, until the process has exited, the saver or a request can take
a step, or the process can exit. -/
theorem C75_stops {env : Env} {base : Path} {dbs : Dbs} {fs : FS} {tr : STrace} {s : Sys}
    (h : SRun env base (Sys.init dbs fs) tr) (hs : STrace.last (Sys.init dbs fs) tr = s) (hx : s.exited = false)
    (hio : ∀ t n io, s.conf.tasks t = some (.removeDb n io, .unlinking) → io = .failed ∨ (unlink s.fs base n).1 = io)
    (hstop : s.stop ≠ .no) :
    (∃ e s', SStep env base s (.req e) s' ∧ e.isWork) ∨ (∃ e s', SStep env base s e s' ∧ e.ofSaver = true) ∨
    ∃ s', SStep env base s .exit s' := by
  by_cases hall : ∀ t op pc, s.conf.tasks t = some (op, pc) → pc.ended
  · right
    cases hsv : s.saver with
    | writing last todo names =>
      cases todo with
      | nil => exact .inl ⟨_, _, .release hx hsv, rfl⟩
      | cons x todo => exact .inl ⟨_, _, .write .none hx hsv, rfl⟩
    | listing last names => exact .inl ⟨_, _, .list .none hx hsv, rfl⟩
    | finished => exact .inr ⟨_, .exit hx hsv hall⟩
    | idle =>
      have hr := h.requests
      rw [hs] at hr
      have hl : s.conf.lock = none := by
        cases hl : s.conf.lock with
        | none => rfl
        | some u =>
          have si := Run.shapeInv (dbs := dbs) hr.1
          rw [show Trace.last (Conf.init dbs) tr.requests = s.conf from hr.2] at si
          obtain ⟨op, pc, hu, hh⟩ := si.held u hl
          have := hall u op pc hu
          cases pc <;> first | exact absurd this id | exact absurd hh id
      exact .inl ⟨_, _, .beginLast hx hsv hl hstop (.refl _), rfl⟩
  · simp only [not_forall] at hall
    obtain ⟨t, op, pc, ht, hpc⟩ := hall
    rcases C75_progress h hs hx hio ht hpc with h1 | ⟨_, h2⟩
    · exact .inl h1
    · exact .inr (.inl h2)

/-- C75: a save ends. Between the beginning of a save and that of the next one, the saver takes at most as
many steps as there are databases at the beginning, and two more. -/
theorem C75_save_bounded {env : Env} {base : Path} {dbs : Dbs} {fs : FS} {trA trB : STrace} {x : Sys} {last : Bool}
    (h : SRun env base (Sys.init dbs fs) (trA ++ (.begin last, x) :: trB)) (hno : ∀ l, .begin l ∉ trB.events) :
    trB.events.countP SEv.ofSaver ≤ x.conf.dbs.length + 2 := by
  have key : ∀ {s : Sys} {tr : STrace}, SRun env base s tr → (∀ l, .begin l ∉ tr.events) →
      tr.events.countP SEv.ofSaver + (STrace.last s tr).saver.rank = s.saver.rank := by
    intro s tr hr
    induction hr with
    | nil => intro _; simp [STrace.events, STrace.last]
    | @snoc tr e s' hr hst ih =>
      intro hno
      have ih := ih (fun l hl => hno l (by rw [STrace.events_append]; exact List.mem_append_left _ hl))
      rw [STrace.events_append, List.countP_append, STrace.last_snoc, ← ih]
      have hne : ∀ l, e ≠ .begin l := by
        rintro l rfl
        exact hno l (by simp [STrace.events])
      have hc : (STrace.events [(e, s')]).countP SEv.ofSaver = if e.ofSaver then 1 else 0 := by
        simp only [STrace.events, List.map_cons, List.map_nil, List.countP_cons, List.countP_nil, Nat.zero_add]
      rw [hc]
      generalize STrace.last s tr = z at hst
      cases hst with
      | begin _ _ _ _ _ => exact absurd rfl (hne _)
      | beginLast _ _ _ _ _ => exact absurd rfl (hne _)
      | write f _ hw => rw [hw]; simp only [SEv.ofSaver, SPc.rank, List.length_cons, if_true]; omega
      | release _ hw => rw [hw]; simp only [SEv.ofSaver, SPc.rank, List.length_nil, if_true]
      | @list last names f _ hw =>
        rw [hw]
        cases last <;> simp [SEv.ofSaver, SPc.rank]
      | req _ _ _ _ => simp [SEv.ofSaver]
      | delete _ _ _ => simp [SEv.ofSaver]
      | abandon _ _ _ => simp [SEv.ofSaver]
      | lateDelete _ _ => simp [SEv.ofSaver]
      | signal _ _ => simp [SEv.ofSaver]
      | exit _ _ _ => simp [SEv.ofSaver]
  obtain ⟨-, todo, -, -, hp, h4, -⟩ := save_begins h
  have h5 := key h4 hno
  have h6 : x.saver.rank = x.conf.dbs.length + 2 := by
    rw [hp.pc]
    have := hp.all.length_eq
    simp only [List.nil_append] at this
    simp [SPc.rank, this]
  omega

/-- C75: after the stop signal at most two saves begin, of which one is the last. -/
theorem C75_saves_after_stop {env : Env} {base : Path} {dbs : Dbs} {fs : FS} {trA trB : STrace} {x : Sys}
    (h : SRun env base (Sys.init dbs fs) (trA ++ (.signal, x) :: trB)) :
    trB.events.countP (fun e => e matches .begin false) ≤ 1 ∧ trB.events.countP (fun e => e matches .begin true) ≤ 1 := by
  have h4 := (h.split _ _).2.uncons
  have hx : x.stop = .sent := by
    have := h4.1
    generalize STrace.last (Sys.init dbs fs) trA = s at this
    cases this
    rfl
  have key : ∀ {tr : STrace}, SRun env base x tr →
      (STrace.last x tr).stop ≠ .no ∧
      ((STrace.last x tr).stop = .sent → tr.events.countP (fun e => e matches .begin false) = 0) ∧
      tr.events.countP (fun e => e matches .begin false) ≤ 1 ∧
      ((∃ l n, (STrace.last x tr).saver = .writing true l n) ∨ (∃ n, (STrace.last x tr).saver = .listing true n) ∨
        (STrace.last x tr).saver = .finished ∨ tr.events.countP (fun e => e matches .begin true) = 0) ∧
      tr.events.countP (fun e => e matches .begin true) ≤ 1 := by
    intro tr hr
    induction hr with
    | nil => refine ⟨by simp [STrace.last, hx], ?_, ?_, .inr (.inr (.inr ?_)), ?_⟩ <;> simp [STrace.events]
    | @snoc tr e s' hr hst ih =>
      obtain ⟨i1, i2, i3, i4, i5⟩ := ih
      rw [STrace.events_append, List.countP_append, List.countP_append, STrace.last_snoc]
      generalize STrace.last x tr = z at hst i1 i2 i4
      cases hst with
      | begin _ hw _ hs _ =>
        have hz : z.stop = .sent := by
          cases hz : z.stop with
          | no => exact absurd hz i1
          | sent => rfl
          | due => exact absurd hz hs
        have i2 := i2 hz
        have i4 : tr.events.countP (fun e => e matches .begin true) = 0 := by
          rcases i4 with ⟨_, _, h⟩ | ⟨_, h⟩ | h | h
          · rw [hw] at h; cases h
          · rw [hw] at h; cases h
          · rw [hw] at h; cases h
          · exact h
        rw [i2, i4]
        refine ⟨?_, ?_, by simp [STrace.events], .inr (.inr (.inr (by simp [STrace.events]))), by simp [STrace.events]⟩
        · simp [hz]
        · simp [hz]
      | beginLast _ hw _ hs _ =>
        have i4 : tr.events.countP (fun e => e matches .begin true) = 0 := by
          rcases i4 with ⟨_, _, h⟩ | ⟨_, h⟩ | h | h
          · rw [hw] at h; cases h
          · rw [hw] at h; cases h
          · rw [hw] at h; cases h
          · exact h
        refine ⟨i1, by simpa [STrace.events] using i2, by simpa [STrace.events] using i3, .inl ⟨_, _, rfl⟩,
          by rw [i4]; simp [STrace.events]⟩
      | write f _ hw =>
        refine ⟨i1, by simpa [STrace.events] using i2, by simpa [STrace.events] using i3, ?_, by simpa [STrace.events] using i5⟩
        rcases i4 with ⟨_, _, h⟩ | ⟨_, h⟩ | h | h
        · rw [hw] at h; cases h; exact .inl ⟨_, _, rfl⟩
        · rw [hw] at h; cases h
        · rw [hw] at h; cases h
        · exact .inr (.inr (.inr (by simpa [STrace.events] using h)))
      | release _ hw =>
        refine ⟨i1, by simpa [STrace.events] using i2, by simpa [STrace.events] using i3, ?_, by simpa [STrace.events] using i5⟩
        rcases i4 with ⟨_, _, h⟩ | ⟨_, h⟩ | h | h
        · rw [hw] at h; cases h; exact .inr (.inl ⟨_, rfl⟩)
        · rw [hw] at h; cases h
        · rw [hw] at h; cases h
        · exact .inr (.inr (.inr (by simpa [STrace.events] using h)))
      | list f _ hw =>
        refine ⟨i1, by simpa [STrace.events] using i2, by simpa [STrace.events] using i3, ?_, by simpa [STrace.events] using i5⟩
        rcases i4 with ⟨_, _, h⟩ | ⟨_, h⟩ | h | h
        · rw [hw] at h; cases h
        · rw [hw] at h; cases h; exact .inr (.inr (.inl rfl))
        · rw [hw] at h; cases h
        · exact .inr (.inr (.inr (by simpa [STrace.events] using h)))
      | signal _ hs => exact absurd hs i1
      | req _ _ _ _ =>
        exact ⟨i1, by simpa [STrace.events] using i2, by simpa [STrace.events] using i3,
          by simpa [STrace.events] using i4, by simpa [STrace.events] using i5⟩
      | delete _ _ _ =>
        exact ⟨i1, by simpa [STrace.events] using i2, by simpa [STrace.events] using i3,
          by simpa [STrace.events] using i4, by simpa [STrace.events] using i5⟩
      | abandon _ _ _ =>
        exact ⟨i1, by simpa [STrace.events] using i2, by simpa [STrace.events] using i3,
          by simpa [STrace.events] using i4, by simpa [STrace.events] using i5⟩
      | lateDelete _ _ =>
        exact ⟨i1, by simpa [STrace.events] using i2, by simpa [STrace.events] using i3,
          by simpa [STrace.events] using i4, by simpa [STrace.events] using i5⟩
      | exit _ _ _ =>
        exact ⟨i1, by simpa [STrace.events] using i2, by simpa [STrace.events] using i3,
          by simpa [STrace.events] using i4, by simpa [STrace.events] using i5⟩
  have := key h4.2
  exact ⟨this.2.2.1, this.2.2.2.2⟩

end Souris
