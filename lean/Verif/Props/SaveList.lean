import Verif.Props.SavePast

/-! # C114: the list of databases on the disk -/

namespace Souris

/-- No write of the file of a database went wrong. -/
def AllWritten (base : Path) (l : List Sys) (evs : List SEv) : Prop :=
  (∀ m f, .write m f ∈ evs → f = .none) ∧ ∀ z ∈ l, ∀ m, z.fs (sdbPath base m) ≠ some .dir

/-- The names are of databases that existed together in one of the states `l`, each at most once; all of those that existed then,
when no write of a file went wrong. -/
def NamesOf (base : Path) (l : List Sys) (evs : List SEv) (names : List (List Char)) : Prop :=
  ∃ z ∈ l, names.Subperm (z.conf.dbs.map Prod.fst) ∧ (AllWritten base l evs → names.Perm (z.conf.dbs.map Prod.fst))

/-- The list on the disk is as in `fs`, or has the first bytes of a list of databases that existed together in one of the states
`l`; all of the bytes, when no write of it in `evs` went wrong. -/
def ListSince (env : Env) (base : Path) (fs : FS) (l : List Sys) (evs : List SEv) (now : FS) : Prop :=
  now (sdbPath base kMeta) = fs (sdbPath base kMeta) ∨
  ∃ names b, NamesOf base l evs names ∧ now (sdbPath base kMeta) = some (.file b) ∧ b <+: serBytes env (metaStore names) ∧
    ((∀ f ok, .list f ok ∈ evs → f = .none) → b = serBytes env (metaStore names))

theorem AllWritten.anti {base : Path} {l l' : List Sys} {evs evs' : List SEv} (h : AllWritten base l' evs')
    (hl : ∀ z ∈ l, z ∈ l') (he : ∀ e ∈ evs, e ∈ evs') : AllWritten base l evs :=
  ⟨fun m f hm => h.1 m f (he _ hm), fun z hz => h.2 z (hl z hz)⟩

theorem NamesOf.mono {base : Path} {l l' : List Sys} {evs evs' : List SEv} {names : List (List Char)}
    (h : NamesOf base l evs names) (hl : ∀ z ∈ l, z ∈ l') (he : ∀ e ∈ evs, e ∈ evs') : NamesOf base l' evs' names := by
  obtain ⟨z, hz, h1, h2⟩ := h
  exact ⟨z, hl z hz, h1, fun hg => h2 (hg.anti hl he)⟩

theorem ListSince.mono {env : Env} {base : Path} {fs : FS} {l l' : List Sys} {evs evs' : List SEv} {now now' : FS}
    (h : ListSince env base fs l evs now) (hl : ∀ z ∈ l, z ∈ l') (he : ∀ e ∈ evs, e ∈ evs')
    (hn : now' (sdbPath base kMeta) = now (sdbPath base kMeta)) : ListSince env base fs l' evs' now' := by
  rcases h with h | ⟨names, b, h1, h2, h3, h4⟩
  · exact .inl (hn.trans h)
  · exact .inr ⟨names, b, h1.mono hl he, hn.trans h2, h3, fun hf => h4 fun f ok hm => hf f ok (he _ hm)⟩

/-- C114, partial: from any moment at which no save is under way, the list of databases on the disk stays as it is, or names
databases that existed together at a moment since, each once, and all of those that existed then, when no write of a file went
wrong. Only a write of the list that goes wrong leaves the beginning of such a list. This is for names that are one path component
and not `meta`. Missing: moments at which a save is under way (`C114_refuted_removed`). -/
theorem C114_list_partial {env : Env} {base : Path} {dbs : Dbs} {fs : FS} {trA tr : STrace} {y : Sys}
    (h : SRun env base (Sys.init dbs fs) (trA ++ tr)) (hy : STrace.last (Sys.init dbs fs) trA = y) (hs : y.saver = .idle)
    (hb : BaseOk y.fs base)
    (hpl : ∀ z ∈ STrace.states y tr, (∀ m ∈ z.conf.dbs.map Prod.fst, PlainName m ∧ m ≠ kMeta) ∧
      ∀ m, z.deleting m → PlainName m ∧ m ≠ kMeta) :
    ListSince env base y.fs (STrace.states y tr) tr.events (STrace.last y tr).fs := by
  obtain ⟨-, hr⟩ := h.split
  rw [hy] at hr
  suffices key : BaseOk (STrace.last y tr).fs base ∧
      (∀ last todo names, (STrace.last y tr).saver = .writing last todo names → ∃ done : Dbs,
        (done ++ todo).Perm (STrace.last y tr).conf.dbs ∧ names.Sublist (done.map Prod.fst) ∧
        (AllWritten base (STrace.states y tr) tr.events → names = done.map Prod.fst)) ∧
      (∀ last names, (STrace.last y tr).saver = .listing last names → NamesOf base (STrace.states y tr) tr.events names) ∧
      ListSince env base y.fs (STrace.states y tr) tr.events (STrace.last y tr).fs from key.2.2.2
  induction hr with
  | nil =>
    have e : (STrace.last y []).saver = .idle := hs
    exact ⟨hb, (fun _ _ _ hw => by rw [e] at hw; cases hw), (fun _ _ hw => by rw [e] at hw; cases hw), .inl rfl⟩
  | @snoc tr e s' hr hst ih =>
    have hreach : SRun env base (Sys.init dbs fs) (trA ++ tr) := by
      rw [← List.append_assoc] at h
      exact h.split.1
    have hlast : STrace.last (Sys.init dbs fs) (trA ++ tr) = STrace.last y tr := by rw [STrace.last_append, hy]
    obtain ⟨h1, h2, h3, h4⟩ := ih hreach (fun z hz => hpl z (by rw [STrace.states_snoc]; exact List.mem_append_left _ hz))
    have hpl' := hpl _ (by rw [STrace.states_snoc]; exact List.mem_append_left _ (STrace.last_mem y tr))
    have hmem := STrace.last_mem y tr
    have hti : TaskInv (STrace.last y tr).conf (trA ++ tr : STrace).requests.events := by
      have h5 := hreach.requests
      rw [hlast] at h5
      rw [← h5.2]; exact Run.taskInv h5.1
    have hsaving := fun {last todo names} => saving_now hreach (last := last) (todo := todo) (names := names)
    rw [hlast] at hsaving
    have hl : ∀ z ∈ STrace.states y tr, z ∈ STrace.states y (tr ++ [(e, s')]) := fun z hz => by
      rw [STrace.states_snoc]; exact List.mem_append_left _ hz
    have he : ∀ e' ∈ tr.events, e' ∈ STrace.events (tr ++ [(e, s')]) := fun e' hz => by
      rw [STrace.events_append]; exact List.mem_append_left _ hz
    have hin : e ∈ STrace.events (tr ++ [(e, s')]) := by simp [STrace.events]
    rw [STrace.last_snoc]
    replace hmem := hl _ hmem
    generalize STrace.states y (tr ++ [(e, s')]) = L at hl hmem ⊢
    generalize STrace.events (tr ++ [(e, s')]) = E at he hin ⊢
    generalize STrace.last y tr = s at hst h1 h2 h3 h4 hpl' hmem hsaving hti
    have hdel : ∀ m, PlainName m ∧ m ≠ kMeta → BaseOk (unlink s.fs base m).2 base ∧
        ListSince env base y.fs L E (unlink s.fs base m).2 := by
      intro m hp
      obtain ⟨u1, u2, -⟩ := unlink_plain (fs := s.fs) (base := base) hp.1
      exact ⟨u2 h1, h4.mono hl he (u1 _ fun e => hp.2 (sdb_inj e).symm)⟩
    -- a step that leaves the saver where it is
    have hsame : s'.saver = s.saver → (∀ last todo names, s'.saver = .writing last todo names → ∃ done : Dbs,
        (done ++ todo).Perm s'.conf.dbs ∧ names.Sublist (done.map Prod.fst) ∧
        (AllWritten base L E → names = done.map Prod.fst)) ∧
        (∀ last names, s'.saver = .listing last names → NamesOf base L E names) := by
      intro h5
      constructor
      · intro last todo names hw
        rw [h5] at hw
        obtain ⟨done, h6, h7, h8⟩ := h2 last todo names hw
        have hd : s'.conf.dbs = s.conf.dbs := by
          rcases hst.conf with ⟨e', -, h9, -, h10⟩ | ⟨h9, -⟩
          · exact (h9.quiet hti.exclusive (hsaving hw).1 (fun t ht => absurd (by rw [hw]; trivial) (h10 t ht))).1
          · rw [h9]
        exact ⟨done, by rw [hd]; exact h6, h7, fun hg => h8 (hg.anti hl he)⟩
      · intro last names hw
        rw [h5] at hw
        exact (h3 last names hw).mono hl he
    cases hst with
    | @delete t m io fs' _ ht hio =>
      have := hdel m (hpl'.2 m (.inr ⟨t, io, ht⟩))
      rcases hio with hio | ⟨_, rfl⟩
      · rw [hio] at this; exact ⟨this.1, (hsame rfl).1, (hsame rfl).2, this.2⟩
      · exact ⟨h1, (hsame rfl).1, (hsame rfl).2, h4.mono hl he rfl⟩
    | @lateDelete m l1 l2 _ hl' =>
      have := hdel m (hpl'.2 m (.inl (by rw [hl']; simp)))
      exact ⟨this.1, (hsame rfl).1, (hsame rfl).2, this.2⟩
    | @begin todo _ _ _ _ hp =>
      refine ⟨h1, fun last td names hw => ?_, (fun last names hw => by cases hw), h4.mono hl he rfl⟩
      cases hw
      exact ⟨[], hp, .slnil, fun _ => rfl⟩
    | @beginLast todo _ _ _ _ hp =>
      refine ⟨h1, fun last td names hw => ?_, (fun last names hw => by cases hw), h4.mono hl he rfl⟩
      cases hw
      exact ⟨[], hp, .slnil, fun _ => rfl⟩
    | @write last m d todo names f _ hw =>
      have hd := (hsaving hw).2 (m, d) List.mem_cons_self
      have hp := hpl'.1 m (List.mem_map.mpr ⟨_, hd, rfl⟩)
      have w := wrote (fs := s.fs) hp.1 (serBytes env d) f h1
      obtain ⟨done, h6, h7, h8⟩ := h2 _ _ _ hw
      refine ⟨w.ready, fun last' td names' hw' => ?_, (fun last names hw => by cases hw),
        h4.mono hl he (w.others _ (sdb_not_prefix base kMeta) fun e => hp.2 (sdb_inj e).symm)⟩
      cases hw'
      refine ⟨done ++ [(m, d)], by simpa using h6, ?_, fun hg => ?_⟩
      · rw [List.map_append]
        split
        · exact h7.append (.refl _)
        · exact h7.trans (List.sublist_append_left _ _)
      · have hok := w.iff.mpr ⟨by rw [hg.1 m f hin]; rfl, hg.2 s hmem m⟩
        rw [if_pos hok, h8 (hg.anti hl he)]
        simp
    | @release last names _ hw =>
      refine ⟨h1, (fun last td names hw => by cases hw), fun last' names' hw' => ?_, h4.mono hl he rfl⟩
      cases hw'
      obtain ⟨done, h6, h7, h8⟩ := h2 _ _ _ hw
      rw [List.append_nil] at h6
      refine ⟨s, hmem, h7.subperm.trans (h6.map Prod.fst).subperm, fun hg => ?_⟩
      rw [h8 (hg.anti hl he)]
      exact h6.map Prod.fst
    | @list last names f _ hw =>
      have w := wrote (fs := s.fs) plain_meta (serBytes env (metaStore names)) f h1
      have hn := (h3 _ _ hw).mono hl he
      refine ⟨w.ready, fun last' td names' hw' => ?_, fun last' names' hw' => ?_, ?_⟩
      · simp only at hw'
        split at hw' <;> cases hw'
      · simp only at hw'
        split at hw' <;> cases hw'
      · cases hok : (writeTo f s.fs base kMeta (serBytes env (metaStore names))).2 with
        | true =>
          refine .inr ⟨names, _, hn, (w.done hok).1, ?_, fun hf => ?_⟩
          · cases f with
            | after k => exact List.take_prefix _ _
            | _ => simp [Fault.written]
          · rw [hf f _ hin]; rfl
        | false =>
          rcases w.failed hok with hsame | ⟨k, rfl, hk⟩
          · exact h4.mono hl he hsame
          · exact .inr ⟨names, _, hn, hk, List.take_prefix _ _, fun hf => by cases hf _ _ hin⟩
    | _ => exact ⟨h1, (hsame rfl).1, (hsame rfl).2, h4.mono hl he rfl⟩

/-- C114 is violated when a database is removed between the last file of a save and its list: `rm_db` was answered with success
and the file is gone, there is no database any more, and then the save puts the removed one on the list. -/
theorem C114_refuted_removed {env : Env} (base : Path) (fs : FS) (hb : fs base = some .dir)
    (hf : fs (sdbPath base Again.d) ≠ some .dir) (hm : fs (sdbPath base kMeta) ≠ some .dir) :
    ∃ (trA : STrace) (y z : Sys), SRun env base (Sys.init [(Again.d, [])] fs) (trA ++ [(.list .none true, z)]) ∧
      STrace.last (Sys.init [(Again.d, [])] fs) trA = y ∧
      .req (.call 1 (.removeDb Again.d .done)) ∈ trA.events ∧ .req (.ret 1 (.status 200)) ∈ trA.events ∧
      y.conf.dbs = [] ∧ z.conf.dbs = [] ∧ z.fs (sdbPath base Again.d) = none ∧
      z.fs (sdbPath base kMeta) = some (.file (serBytes env (metaStore [Again.d]))) := by
  have hpl : PlainName Again.d := ⟨by decide, by decide⟩
  have w1 := wrote_dir (fs := fs) hpl (serBytes env []) .none hb
  have t1 := w1.iff.mpr ⟨rfl, hf⟩
  have d1 := w1.done t1
  have hk1 : (writeTo .none fs base Again.d (serBytes env [])).1 (sdbPath base kMeta) ≠ some .dir := by
    rw [w1.others _ (sdb_not_prefix base kMeta) (fun e => absurd (sdb_inj e) (by decide))]
    exact hm
  have w := SStep.write (env := env) (base := base)
    (s := ⟨Again.c0, fs, .writing false [(Again.d, [])] [], [], .no, false⟩) .none rfl rfl
  rw [t1] at w
  generalize (writeTo .none fs base Again.d (serBytes env [])).1 = fs1 at d1 hk1 w
  have h2 : unlink fs1 base Again.d = (.done, fs1.set (sdbPath base Again.d) none) := by
    unfold unlink
    rw [target_plain hpl d1.2]
    simp only [d1.1]
  have hb2 : (fs1.set (sdbPath base Again.d) none) base = some .dir := by
    rw [FS.set_ne _ _ (sdb_ne_base _ _).symm]; exact d1.2
  have w3 := wrote_dir (fs := fs1.set (sdbPath base Again.d) none) plain_meta (serBytes env (metaStore [Again.d])) .none hb2
  have t3 := w3.iff.mpr ⟨rfl, by
    rw [FS.set_ne _ _ (fun e => absurd (sdb_inj e) (by decide))]; exact hk1⟩
  have d3 := w3.done t3
  have o3 := w3.others (sdbPath base Again.d) (sdb_not_prefix base _) (fun e => absurd (sdb_inj e) (by decide))
  rw [FS.set_self] at o3
  have l := SStep.list (env := env) (base := base) (s := ⟨(Again.c5 env).set 1 Again.R (.done (.status 200)),
    fs1.set (sdbPath base Again.d) none, .listing false [Again.d], [], .no, false⟩) .none rfl rfl
  rw [show (saveMeta env base .none [Again.d] (fs1.set (sdbPath base Again.d) none)).2 = true from t3] at l
  have go : ∀ {c c' : Conf} {e : Ev}, Step env c e c' → e.task = some 1 →
      (∀ n io, c.tasks 1 ≠ some (.removeDb n io, .unlinking)) →
      SStep env base ⟨c, fs1, .listing false [Again.d], [], .no, false⟩ (.req e) ⟨c', fs1, .listing false [Again.d], [], .no, false⟩ :=
    fun h he hc => .req rfl h (fun _ _ => id) (by
      intro t n io ht
      rw [he] at ht
      cases ht
      exact hc n io)
  refine ⟨[(.begin false, ⟨Again.c0, fs, .writing false [(Again.d, [])] [], [], .no, false⟩),
    (.write Again.d .none, ⟨Again.c0, fs1, .writing false [] [Again.d], [], .no, false⟩),
    (.release, ⟨Again.c0, fs1, .listing false [Again.d], [], .no, false⟩),
    (.req (.call 1 Again.R), ⟨Again.c1, fs1, .listing false [Again.d], [], .no, false⟩),
    (.req (.invalidate 1), ⟨Again.c2, fs1, .listing false [Again.d], [], .no, false⟩),
    (.req (.acquire 1), ⟨Again.c3, fs1, .listing false [Again.d], [], .no, false⟩),
    (.req (.act 1), ⟨Again.c4 env, fs1, .listing false [Again.d], [], .no, false⟩),
    (.req (.drop 1), ⟨Again.c5 env, fs1, .listing false [Again.d], [], .no, false⟩),
    (.req (.ret 1 (.status 200)), ⟨(Again.c5 env).set 1 Again.R (.done (.status 200)),
      fs1.set (sdbPath base Again.d) none, .listing false [Again.d], [], .no, false⟩)], _,
    ⟨(Again.c5 env).set 1 Again.R (.done (.status 200)), (saveMeta env base .none [Again.d] (fs1.set (sdbPath base Again.d) none)).1,
      .idle, [], .no, false⟩, ?_, rfl, ?_, ?_, rfl, ?_, ?_, ?_⟩
  rotate_left
  · simp [STrace.events, Again.R]
  · simp [STrace.events]
  · exact rfl
  · exact o3
  · exact d3.1
  refine .cons (.begin rfl rfl rfl (fun e => by cases e) (.refl _)) ?_
  refine .cons w ?_
  refine .cons (.release rfl rfl) ?_
  refine .cons (go (.call Again.R rfl) rfl (fun n io => by intro e; cases e)) ?_
  refine .cons (go (.invalidate rfl rfl) rfl (fun n io => by intro e; cases e)) ?_
  refine .cons (go (.acquire rfl rfl rfl) rfl (fun n io => by intro e; cases e)) ?_
  refine .cons (go (.act rfl) rfl (fun n io => by intro e; cases e)) ?_
  refine .cons (go (.drop rfl) rfl (fun n io => by intro e; cases e)) ?_
  refine .cons (.delete (t := 1) (n := Again.d) (io := .done) rfl rfl (.inl h2)) ?_
  exact .cons l .nil

/-- A save of one database, with the list: the hypotheses of `C114_list_partial` are met, all files are written, and the list is new. -/
example : ∃ (x w y z : Sys), SRun sampleEnv [['e', 't', 'c'], ['s']] (Sys.init [(['d'], [])] sampleFs)
      ([] ++ [(.begin false, x), (.write ['d'] .none, w), (.release, y), (.list .none true, z)]) ∧
    (Sys.init [(['d'], [])] sampleFs).saver = .idle ∧ BaseOk sampleFs [['e', 't', 'c'], ['s']] ∧
    (∀ u ∈ STrace.states (Sys.init [(['d'], [])] sampleFs) [(.begin false, x), (.write ['d'] .none, w), (.release, y),
        (.list .none true, z)],
      (∀ m ∈ u.conf.dbs.map Prod.fst, PlainName m ∧ m ≠ kMeta) ∧ ∀ m, u.deleting m → PlainName m ∧ m ≠ kMeta) ∧
    sampleFs (sdbPath [['e', 't', 'c'], ['s']] kMeta) = none ∧
    z.fs (sdbPath [['e', 't', 'c'], ['s']] kMeta) = some (.file (serBytes sampleEnv (metaStore [['d']]))) := by
  have w1 := wrote (fs := sampleFs) (base := [['e', 't', 'c'], ['s']]) (n := ['d']) ⟨by decide, by decide⟩
    (serBytes sampleEnv []) .none (.inl (by decide))
  have t1 := w1.iff.mpr ⟨rfl, by decide⟩
  have hk : (writeTo .none sampleFs [['e', 't', 'c'], ['s']] ['d'] (serBytes sampleEnv [])).1 (sdbPath [['e', 't', 'c'], ['s']] kMeta) = none := by
    rw [w1.others _ (sdb_not_prefix _ kMeta) (fun e => absurd (sdb_inj e) (by decide))]
    decide
  have w := SStep.write (env := sampleEnv) (base := [['e', 't', 'c'], ['s']])
    (s := ⟨Conf.init [(['d'], [])], sampleFs, .writing false [(['d'], [])] [], [], .no, false⟩) .none rfl rfl
  rw [t1] at w
  have hr1 := w1.ready
  generalize (writeTo .none sampleFs [['e', 't', 'c'], ['s']] ['d'] (serBytes sampleEnv [])).1 = fs1 at hk w hr1
  have w3 := wrote (fs := fs1) plain_meta (serBytes sampleEnv (metaStore [['d']])) .none hr1
  have t3 := w3.iff.mpr ⟨rfl, by rw [hk]; decide⟩
  have l := SStep.list (env := sampleEnv) (base := [['e', 't', 'c'], ['s']])
    (s := ⟨Conf.init [(['d'], [])], fs1, .listing false [['d']], [], .no, false⟩) .none rfl rfl
  rw [show (saveMeta sampleEnv [['e', 't', 'c'], ['s']] .none [['d']] fs1).2 = true from t3] at l
  refine ⟨_, _, _, _, .cons (.begin rfl rfl rfl (fun e => by cases e) (.refl _)) (.cons w (.cons (.release rfl rfl) (.cons l .nil))),
    rfl, .inl (by decide), ?_, by decide, (w3.done t3).1⟩
  intro u hu
  simp only [STrace.states, List.map_cons, List.map_nil, List.mem_cons, List.not_mem_nil, or_false] at hu
  rcases hu with rfl | rfl | rfl | rfl | rfl <;>
  · refine ⟨fun m hm => ?_, ?_⟩
    · have : m = ['d'] := by simpa [Sys.init, Conf.init] using hm
      subst this
      exact ⟨⟨by decide, by decide⟩, by decide⟩
    · rintro m (h | ⟨t, io, h⟩) <;> cases h

end Souris
