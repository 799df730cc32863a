import Verif.Props.Gone

/-! # C116: stopping and starting again while requests run -/

namespace Souris

/-- The names on the list of a save are among those of the databases that it has visited. -/
theorem Pass.listed {env : Env} {base : Path} {x : Sys} {last : Bool} {todo : Dbs} {tr : STrace}
    (h : Pass x x last [] todo []) (hr : SRun env base x tr) (hne : .release ∉ tr.events) :
    ∃ done rest names, Pass x (STrace.last x tr) last done rest names ∧ names.Sublist (done.map Prod.fst) := by
  induction hr with
  | nil => exact ⟨[], todo, [], h, .slnil⟩
  | @snoc tr e s' hr hs ih =>
    rw [STrace.events_append, List.mem_append, not_or] at hne
    obtain ⟨done, rest, names, h2, h3⟩ := ih hne.1
    rw [STrace.last_snoc]
    have hne' : e ≠ .release := by
      rintro rfl
      exact hne.2 (by simp [STrace.events])
    rcases h2.step hs hne' with ⟨m, d', rest', f, rfl, rfl, hfs, hps⟩ | ⟨hw, hps, hfs⟩
    · refine ⟨_, _, _, hps, ?_⟩
      rw [List.map_append]
      split
      · exact h3.append (.refl _)
      · exact h3.trans (List.sublist_append_left _ _)
    · exact ⟨done, rest, names, hps, h3⟩

/-- The list after the last save. -/
theorem list_stays {env : Env} {base : Path} {y : Sys} {tr : STrace} {names : List (List Char)} (h : SRun env base y tr)
    (hy : y.saver = .listing true names) (hyx : y.exited = false) (hb : BaseOk y.fs base)
    (hdir : y.fs (sdbPath base kMeta) ≠ some .dir)
    (hfl : ∀ z ∈ STrace.states y tr, ∀ m, z.deleting m → PlainName m ∧ m ≠ kMeta)
    (hf : ∀ f ok, .list f ok ∈ tr.events → f = .none) :
    ((STrace.last y tr).saver = .listing true names ∧ (STrace.last y tr).exited = false ∧ BaseOk (STrace.last y tr).fs base ∧
      (STrace.last y tr).fs (sdbPath base kMeta) ≠ some .dir) ∨
    ((STrace.last y tr).saver = .finished ∧ (STrace.last y tr).fs base = some .dir ∧
      (STrace.last y tr).fs (sdbPath base kMeta) = some (.file (serBytes env (metaStore names)))) := by
  induction h with
  | nil => exact .inl ⟨hy, hyx, hb, hdir⟩
  | @snoc tr e s' h hst ih =>
    have ih := ih (fun z hz => hfl z (by rw [STrace.states_snoc]; exact List.mem_append_left _ hz))
      (fun f ok hm => hf f ok (by rw [STrace.events_append]; exact List.mem_append_left _ hm))
    have hfl' := hfl _ (by rw [STrace.states_snoc]; exact List.mem_append_left _ (STrace.last_mem y tr))
    have hin : e ∈ STrace.events (tr ++ [(e, s')]) := by simp [STrace.events]
    rw [STrace.last_snoc]
    generalize STrace.events (tr ++ [(e, s')]) = E at hf hin
    generalize STrace.last y tr = s at hst ih hfl'
    have hsame : s'.saver = s.saver → s'.exited = s.exited → (BaseOk s.fs base → BaseOk s'.fs base) →
        (s.fs base = some .dir → s'.fs base = some .dir) → s'.fs (sdbPath base kMeta) = s.fs (sdbPath base kMeta) →
        (s'.saver = .listing true names ∧ s'.exited = false ∧ BaseOk s'.fs base ∧ s'.fs (sdbPath base kMeta) ≠ some .dir) ∨
        (s'.saver = .finished ∧ s'.fs base = some .dir ∧
          s'.fs (sdbPath base kMeta) = some (.file (serBytes env (metaStore names)))) := by
      intro e1 e2 e3 e4 e5
      rw [e1, e2, e5]
      rcases ih with ⟨h1, h2, h3, h4⟩ | ⟨h1, h2, h3⟩
      · exact .inl ⟨h1, h2, e3 h3, h4⟩
      · exact .inr ⟨h1, e4 h2, h3⟩
    have hdel : ∀ m, PlainName m ∧ m ≠ kMeta → (BaseOk s.fs base → BaseOk (unlink s.fs base m).2 base) ∧
        (s.fs base = some .dir → (unlink s.fs base m).2 base = some .dir) ∧
        (unlink s.fs base m).2 (sdbPath base kMeta) = s.fs (sdbPath base kMeta) := by
      intro m hp
      obtain ⟨u1, u2, -⟩ := unlink_plain (fs := s.fs) (base := base) hp.1
      exact ⟨u2, fun hd => by rw [u1 _ (sdb_ne_base base m).symm]; exact hd, u1 _ fun e => hp.2 (sdb_inj e).symm⟩
    cases hst with
    | @delete t m io fs' _ ht hio =>
      have := hdel m (hfl' m (.inr ⟨t, io, ht⟩))
      rcases hio with hio | ⟨_, rfl⟩
      · rw [hio] at this; exact hsame rfl rfl this.1 this.2.1 this.2.2
      · exact hsame rfl rfl id id rfl
    | @lateDelete m l1 l2 _ hl' =>
      have := hdel m (hfl' m (.inl (by rw [hl']; simp)))
      exact hsame rfl rfl this.1 this.2.1 this.2.2
    | begin _ hw _ _ _ => rcases ih with h2 | h2 <;> rw [h2.1] at hw <;> cases hw
    | beginLast _ hw _ _ _ => rcases ih with h2 | h2 <;> rw [h2.1] at hw <;> cases hw
    | write f _ hw => rcases ih with h2 | h2 <;> rw [h2.1] at hw <;> cases hw
    | release _ hw => rcases ih with h2 | h2 <;> rw [h2.1] at hw <;> cases hw
    | list f _ hw =>
      rcases ih with ⟨h1, h2, h3, h4⟩ | h2
      · rw [h1] at hw
        cases hw
        have w := wrote (fs := s.fs) plain_meta (serBytes env (metaStore names)) f h3
        have hff := hf f _ hin
        subst hff
        have hok := w.iff.mpr ⟨rfl, h4⟩
        exact .inr ⟨rfl, (w.done hok).2, (w.done hok).1⟩
      · rw [h2.1] at hw; cases hw
    | exit _ hw _ =>
      rcases ih with h2 | h2
      · rw [h2.1] at hw; cases hw
      · exact .inr h2
    | _ => exact hsame rfl rfl id id rfl

/-- C116, partial: the daemon is stopped while requests run, and started again. With any deserialiser that reads back the stores in
question (which `Store::deser` does not, `C116_refuted`), it has exactly the databases that result from the requests up to the
beginning of the last save, among them all that were answered by then. This is for names that are one path component and not
`meta`, when no write goes wrong and no `rm_db` is about to delete a file of these databases from the beginning of that save on. -/
theorem C116_restart_partial {env : Env} {base : Path} {dbs : Dbs} {fs : FS} {trA trB trC : STrace} {x y : Sys}
    (h : SRun env base (Sys.init dbs fs) (trA ++ (.begin true, x) :: (trB ++ (.release, y) :: trC)))
    (hone : .release ∉ trB.events) (hx : (STrace.last y trC).exited = true) (hnd : (dbs.map Prod.fst).Nodup)
    (hb : BaseOk x.fs base) (hp : ∀ n ∈ x.conf.dbs.map Prod.fst, PlainName n ∧ n ≠ kMeta)
    (hdir : ∀ n, n = kMeta ∨ n ∈ x.conf.dbs.map Prod.fst → x.fs (sdbPath base n) ≠ some .dir)
    (hfl : ∀ z ∈ STrace.states x (trB ++ (.release, y) :: trC), ∀ m, z.deleting m →
      PlainName m ∧ m ≠ kMeta ∧ m ∉ x.conf.dbs.map Prod.fst)
    (hf : ∀ n f, .write n f ∈ trB.events → f = .none) (hl : ∀ f ok, .list f ok ∈ trC.events → f = .none)
    (de : List UInt8 → Out StoreSerError Store)
    (hde : ∀ n s, (n, s) ∈ x.conf.dbs → ∃ s', de (serBytes env s) = .ok s' ∧ s'.Perm s)
    (hdm : ∀ names : List (List Char), names.Perm (x.conf.dbs.map Prod.fst) →
      ∃ s', de (serBytes env (metaStore names)) = .ok s' ∧ s'.Perm (metaStore names)) :
    ∃ S dbs', Linearization env (Conf.init dbs) trA.requests S ∧ startWith de (STrace.last y trC).fs base = .ok dbs' ∧
      SameDbs (replay env dbs (S.map fun z => z.2.1)).2 dbs' := by
  have h' : SRun env base (Sys.init dbs fs) ((trA ++ (.begin true, x) :: (trB ++ [(.release, y)])) ++ trC) := by
    simpa using h
  have hpre := (h'.split _ _).1
  obtain ⟨S, todo, hS, hd, hpass, h4, hn⟩ := save_begins hpre
  have hn := hn hnd
  obtain ⟨h5, h6⟩ := h4.split
  obtain ⟨h7, -⟩ := h6.uncons
  obtain ⟨done, rest, names, h9, hsub⟩ := hpass.listed h5 hone
  have hy : rest = [] ∧ y.saver = .listing true names ∧ y.fs = (STrace.last x trB).fs ∧ y.exited = false := by
    generalize STrace.last x trB = s at h7 h9
    cases h7 with
    | release hx0 hs => rw [h9.pc] at hs; cases hs; exact ⟨rfl, rfl, rfl, hx0⟩
  obtain ⟨rfl, hy1, hy2, hy3⟩ := hy
  have hall := h9.all
  rw [List.append_nil] at hall
  have h13 : SRun env base y trC := by
    have := (h'.split _ _).2
    rwa [STrace.last_append, STrace.last_cons, STrace.last_snoc] at this
  have hstates : ∀ z ∈ STrace.states y trC, z ∈ STrace.states x (trB ++ (.release, y) :: trC) := by
    intro z hz
    simp only [STrace.states, List.map_append, List.map_cons, List.mem_cons, List.mem_append] at hz ⊢
    tauto
  have hxin : x ∈ STrace.states x (trB ++ (.release, y) :: trC) := by simp [STrace.states]
  -- the files when they have been written
  have hfile : ∀ n s, (n, s) ∈ x.conf.dbs → n ∈ names ∧ y.fs (sdbPath base n) = some (.file (serBytes env s)) := by
    intro n s hmem
    have hmem' : n ∈ x.conf.dbs.map Prod.fst := List.mem_map_of_mem (f := Prod.fst) hmem
    obtain ⟨done', rest', names', h10, -, -, h11⟩ := hpass.file h5 hone hn (fun m hm => (hp m hm).1) hb hmem
      (fun m hm => ⟨(hfl x hxin m hm).1, fun e => (hfl x hxin m hm).2.2 (e ▸ hmem')⟩) (hdir n (.inr hmem')) (fun f hm => hf n f hm)
    have e := h9.pc.symm.trans h10.pc
    simp only [SPc.writing.injEq, true_and] at e
    obtain ⟨rfl, rfl⟩ := e
    have := h10.all
    rw [List.append_nil] at this
    rw [hy2]
    exact h11 (this.mem_iff.mpr hmem)
  -- the base directory and the place of the list
  have hready : BaseOk y.fs base ∧ y.fs (sdbPath base kMeta) ≠ some .dir := by
    rw [hy2]
    clear h9 hsub hall hy2 h6 h7 hfile
    have key : ∀ {tr : STrace}, SRun env base x tr → .release ∉ tr.events → (∀ z ∈ STrace.states x tr, ∀ m, z.deleting m →
        PlainName m ∧ m ≠ kMeta) → ∃ done rest names, Pass x (STrace.last x tr) true done rest names ∧
        BaseOk (STrace.last x tr).fs base ∧ (STrace.last x tr).fs (sdbPath base kMeta) ≠ some .dir := by
      intro tr hr hne hfl
      induction hr with
      | nil => exact ⟨[], todo, [], hpass, hb, hdir _ (.inl rfl)⟩
      | @snoc tr e s' hr hs ih =>
        rw [STrace.events_append, List.mem_append, not_or] at hne
        obtain ⟨done, rest, names, h2, h3, h4⟩ := ih hne.1
          (fun z hz => hfl z (by rw [STrace.states_snoc]; exact List.mem_append_left _ hz))
        rw [STrace.last_snoc]
        have hne' : e ≠ .release := by
          rintro rfl
          exact hne.2 (by simp [STrace.events])
        rcases h2.step hs hne' with ⟨m, d', rest', f, rfl, rfl, hfs, hps⟩ | ⟨hw, hps, hfs⟩
        · have hmem : (m, d') ∈ x.conf.dbs := h2.all.mem_iff.mp (by simp)
          have hpm := hp m (List.mem_map_of_mem (f := Prod.fst) hmem)
          have w := wrote (fs := (STrace.last x tr).fs) hpm.1 (serBytes env d') f h3
          refine ⟨_, _, _, hps, by rw [hfs]; exact w.ready, ?_⟩
          rw [hfs, w.others _ (sdb_not_prefix base kMeta) (fun e => hpm.2 (sdb_inj e).symm)]
          exact h4
        · refine ⟨_, _, _, hps, ?_⟩
          rcases hfs with hfs | ⟨m, hm, hfs⟩
          · rw [hfs]; exact ⟨h3, h4⟩
          · have hpm := hfl x (by simp [STrace.states]) m hm
            obtain ⟨u1, u2, -⟩ := unlink_plain (fs := (STrace.last x tr).fs) (base := base) hpm.1
            rw [hfs]
            exact ⟨u2 h3, by rw [u1 _ fun e => hpm.2 (sdb_inj e).symm]; exact h4⟩
    obtain ⟨_, _, _, -, h10, h11⟩ := key h5 hone (fun z hz m hm => by
      have := hfl z (by
        simp only [STrace.states, List.map_append, List.map_cons, List.mem_cons, List.mem_append] at hz ⊢
        tauto) m hm
      exact ⟨this.1, this.2.1⟩)
    exact ⟨h10, h11⟩
  -- the files and the list at the end
  have hend : ∀ n s, (n, s) ∈ x.conf.dbs → (STrace.last y trC).fs (sdbPath base n) = some (.file (serBytes env s)) := by
    intro n s hmem
    have hmem' : n ∈ x.conf.dbs.map Prod.fst := List.mem_map_of_mem (f := Prod.fst) hmem
    rw [← (hfile n s hmem).2]
    refine (keeps h13 (by rw [hy1]; exact id) (last_save h13 hy1).1 hready.1 (hp n hmem').2 ?_).2.2
    intro z hz m hm
    have := hfl z (hstates z hz) m hm
    exact ⟨this.1, fun e => this.2.2 (e ▸ hmem')⟩
  have hlist : (STrace.last y trC).fs base = some .dir ∧
      (STrace.last y trC).fs (sdbPath base kMeta) = some (.file (serBytes env (metaStore names))) := by
    rcases list_stays h13 hy1 hy3 hready.1 hready.2 (fun z hz m hm => by
      have := hfl z (hstates z hz) m hm
      exact ⟨this.1, this.2.1⟩) hl with ⟨-, h14, -⟩ | ⟨-, h14⟩
    · rw [hx] at h14; cases h14
    · exact h14
  have hperm : names.Perm (x.conf.dbs.map Prod.fst) := by
    have hp2 := hall.map Prod.fst
    have hnd2 : (done.map Prod.fst).Nodup := hp2.nodup_iff.mpr hn
    refine (List.perm_ext_iff_of_nodup (hnd2.sublist hsub) hn).mpr fun n => ⟨fun hm => hp2.mem_iff.mp (hsub.subset hm), fun hm => ?_⟩
    obtain ⟨⟨n', s⟩, hmem, rfl⟩ := List.mem_map.mp hm
    exact (hfile n' s hmem).1
  refine ⟨S, ?_⟩
  rw [show (replay env dbs (S.map fun z => z.2.1)).2 = x.conf.dbs from hd.symm]
  generalize (STrace.last y trC).fs = fs' at hend hlist
  obtain ⟨h1, h2⟩ := hlist
  obtain ⟨s', hm1, hm2⟩ := hdm names hperm
  have hm3 : s' = metaStore names := List.perm_singleton.mp hm2
  subst hm3
  have hgm : getStore de fs' base kMeta = .ok (metaStore names) := by
    unfold getStore
    rw [target_plain plain_meta h1]
    simp only [h2, hm1]
    rfl
  have hread : ∀ n s, (n, s) ∈ x.conf.dbs → ∃ s', getStore de fs' base n = .ok s' ∧ s'.Perm s := by
    intro n s hmem
    obtain ⟨s', h3, h4⟩ := hde n s hmem
    refine ⟨s', ?_, h4⟩
    unfold getStore
    rw [target_plain (hp n (List.mem_map_of_mem (f := Prod.fst) hmem)).1 h1]
    simp only [hend n s hmem, h3]
    rfl
  have hcontent : ∃ content : List Char → Store, ∀ n ∈ names, getStore de fs' base n = .ok (content n) := by
    refine ⟨fun n => match getStore de fs' base n with | .ok s => s | _ => [], ?_⟩
    intro n hmem
    obtain ⟨⟨n', s⟩, hx, rfl⟩ := List.mem_map.mp (hperm.mem_iff.mp hmem)
    obtain ⟨s', h3, _⟩ := hread n' s hx
    simp only [h3]
  obtain ⟨content, hcontent⟩ := hcontent
  obtain ⟨dbs', h3, h4⟩ := loadAll_spec names content hcontent []
  refine ⟨dbs', hS, ?_, ?_⟩
  · unfold startWith
    rw [hgm]
    simp only [metaStore, AMap.get, if_true]
    exact h3
  · intro n
    rw [h4 n]
    by_cases hmem : n ∈ names
    · obtain ⟨⟨n', s⟩, hx, rfl⟩ := List.mem_map.mp (hperm.mem_iff.mp hmem)
      have h5 : AMap.get n' x.conf.dbs = some s := AMap.get_of_mem hn hx
      obtain ⟨s', h6, h7⟩ := hread n' s hx
      rw [hcontent n' hmem] at h6
      cases h6
      rw [if_pos hmem, h5]
      exact .some h7
    · have h5 : AMap.get n x.conf.dbs = none := by
        rcases Option.eq_none_or_eq_some (AMap.get n x.conf.dbs) with h | ⟨s, h⟩
        · exact h
        · exact absurd (hperm.mem_iff.mpr (List.mem_map_of_mem (f := Prod.fst) (AMap.get_mem h))) hmem
      rw [if_neg hmem, h5]
      exact .none

/-- The shortest run: the stop signal, the last save of one empty database, and the end. -/
theorem short_stop {env : Env} (base : Path) (fs : FS) (hb : fs base = some .dir)
    (hf : fs (sdbPath base Again.d) ≠ some .dir) (hm : fs (sdbPath base kMeta) ≠ some .dir) :
    ∃ (u x w y z v : Sys), SRun env base (Sys.init [(Again.d, [])] fs)
        ([(.signal, u)] ++ (.begin true, x) :: ([(.write Again.d .none, w)] ++ (.release, y) :: [(.list .none true, z), (.exit, v)])) ∧
      v.exited = true ∧ x.conf.dbs = [(Again.d, [])] ∧ x.fs = fs ∧
      (∀ s ∈ STrace.states x ([(.write Again.d .none, w)] ++ (.release, y) :: [(.list .none true, z), (.exit, v)]),
        ∀ m, ¬ s.deleting m) ∧
      v.fs base = some .dir ∧ v.fs (sdbPath base kMeta) = some (.file (serBytes env (metaStore [Again.d]))) := by
  have hpl : PlainName Again.d := ⟨by decide, by decide⟩
  have w1 := wrote_dir (fs := fs) hpl (serBytes env []) .none hb
  have t1 := w1.iff.mpr ⟨rfl, hf⟩
  have d1 := w1.done t1
  have hk1 : (writeTo .none fs base Again.d (serBytes env [])).1 (sdbPath base kMeta) ≠ some .dir := by
    rw [w1.others _ (sdb_not_prefix base kMeta) (fun e => absurd (sdb_inj e) (by decide))]
    exact hm
  have w := SStep.write (env := env) (base := base)
    (s := ⟨Again.c0, fs, .writing true [(Again.d, [])] [], [], .sent, false⟩) .none rfl rfl
  rw [t1] at w
  generalize (writeTo .none fs base Again.d (serBytes env [])).1 = fs1 at d1 hk1 w
  have w3 := wrote_dir (fs := fs1) plain_meta (serBytes env (metaStore [Again.d])) .none d1.2
  have t3 := w3.iff.mpr ⟨rfl, hk1⟩
  have d3 := w3.done t3
  have l := SStep.list (env := env) (base := base) (s := ⟨Again.c0, fs1, .listing true [Again.d], [], .sent, false⟩) .none rfl rfl
  rw [show (saveMeta env base .none [Again.d] fs1).2 = true from t3] at l
  refine ⟨_, _, _, _, _, _, .cons (.signal rfl rfl) (.cons (.beginLast rfl rfl rfl (fun e => by cases e) (.refl _)) (.cons w
    (.cons (.release rfl rfl) (.cons l (.cons (.exit rfl rfl ?_) .nil))))), rfl, rfl, rfl, ?_, d3.2, d3.1⟩
  · intro t op pc ht
    cases ht
  · intro s hs
    simp only [STrace.states, List.map_append, List.map_cons, List.map_nil, List.mem_append, List.mem_cons, List.not_mem_nil,
      or_false] at hs
    rcases hs with rfl | (rfl | rfl | rfl | rfl) <;> rintro m (h | ⟨t, io, h⟩) <;> cases h

/-- C116 is violated always, as C45: the daemon is stopped without any fault, and does not start again. -/
theorem C116_refuted {env : Env} (base : Path) (fs : FS) (hb : fs base = some .dir)
    (hf : fs (sdbPath base Again.d) ≠ some .dir) (hm : fs (sdbPath base kMeta) ≠ some .dir) :
    ∃ (trA trB trC : STrace) (x y : Sys),
      SRun env base (Sys.init [(Again.d, [])] fs) (trA ++ (.begin true, x) :: (trB ++ (.release, y) :: trC)) ∧
      (STrace.last y trC).exited = true ∧ trB.events = [.write Again.d .none] ∧ trC.events = [.list .none true, .exit] ∧
      ∀ dbs', start env (STrace.last y trC).fs base ≠ .ok dbs' := by
  obtain ⟨u, x, w, y, z, v, h, h1, -, -, -, h2, h3⟩ := short_stop (env := env) base fs hb hf hm
  refine ⟨_, _, _, _, _, h, h1, rfl, rfl, ?_⟩
  intro dbs' e
  have e : startWith (Store.deser env) v.fs base = .ok dbs' := e
  have hg : ∀ s, getStore (Store.deser env) v.fs base kMeta ≠ .ok s := by
    intro s hs
    unfold getStore at hs
    rw [target_plain plain_meta h2] at hs
    simp only [h3] at hs
    cases hd : Store.deser env (serBytes env (metaStore [Again.d])) with
    | ok s' => exact C33_refuted env _ s' hd
    | err _ => rw [hd] at hs; cases hs
    | panic _ => rw [hd] at hs; cases hs
  unfold startWith at e
  split at e
  · cases e
  · cases e
  · next s hs => exact hg s hs

/-- With a deserialiser that reads back these two files, the hypotheses of `C116_restart_partial` are met. -/
example : ∃ (trA trB trC : STrace) (x y : Sys) (de : List UInt8 → Out StoreSerError Store),
    SRun sampleEnv [['e', 't', 'c'], ['s']] (Sys.init [(Again.d, [])] sampleFs) (trA ++ (.begin true, x) :: (trB ++ (.release, y) :: trC)) ∧
    (STrace.last y trC).exited = true ∧ x.conf.dbs = [(Again.d, [])] ∧
    (∀ n s, (n, s) ∈ x.conf.dbs → ∃ s', de (serBytes sampleEnv s) = .ok s' ∧ s'.Perm s) ∧
    (∀ names : List (List Char), names.Perm (x.conf.dbs.map Prod.fst) →
      ∃ s', de (serBytes sampleEnv (metaStore names)) = .ok s' ∧ s'.Perm (metaStore names)) := by
  obtain ⟨u, x, w, y, z, v, h, h1, h2, -⟩ := short_stop (env := sampleEnv) [['e', 't', 'c'], ['s']] sampleFs (by decide) (by decide)
    (by decide)
  have hne : serBytes sampleEnv (metaStore [Again.d]) ≠ serBytes sampleEnv [] := by
    obtain ⟨h1, mb1, ct1, comp1, e1, -, -, -, a1, -⟩ := ser_shape sampleEnv (fun _ => .refl _) (fun _ => .refl _) (metaStore [Again.d])
    obtain ⟨h2, mb2, ct2, comp2, e2, -, -, -, -, b2⟩ := ser_shape sampleEnv (fun _ => .refl _) (fun _ => .refl _) []
    unfold serBytes
    rw [e1, e2]
    simp only [ne_eq, List.append_cancel_left_eq, List.cons.injEq, not_and]
    intro e
    exfalso
    cases h1 with
    | none => exact absurd (a1 rfl kExisting (.key (List.mem_singleton.mpr rfl))) (by decide)
    | some c1 =>
      cases h2 with
      | some c2 =>
        obtain ⟨⟨t, ht, -⟩, -⟩ := b2 c2 rfl
        cases ht <;> rename_i hm <;> cases hm
      | none =>
        simp only [Option.isSome_some, Option.isSome_none, if_true, Bool.false_eq_true, if_false] at e
        revert e
        cases ct1 <;> cases ct2 <;> decide
  refine ⟨_, _, _, _, _, fun b => if b = serBytes sampleEnv [] then .ok [] else .ok (metaStore [Again.d]), h, h1, h2, ?_, ?_⟩
  · intro n s hm
    rw [h2] at hm
    cases List.mem_singleton.mp hm
    exact ⟨[], if_pos rfl, .refl _⟩
  · intro names hp
    rw [h2] at hp
    cases List.perm_singleton.mp hp
    exact ⟨_, if_neg hne, .refl _⟩

end Souris
