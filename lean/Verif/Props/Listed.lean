import Verif.Props.StopStart

/-! # C114: only databases whose files were written are put on the list -/

namespace Souris

/-- C114: a save puts a database on the list only if it wrote its file before, and the write was not reported to have failed. -/
theorem C114_written {env : Env} {base : Path} {dbs : Dbs} {fs : FS} {trA trB trC : STrace} {x y z : Sys} {last ok : Bool} {f : Fault}
    (h : SRun env base (Sys.init dbs fs) (trA ++ (.begin last, x) :: (trB ++ (.release, y) :: (trC ++ [(.list f ok, z)]))))
    (hone : .release ∉ trB.events) (htwo : ∀ g o, .list g o ∉ trC.events) (hb : BaseOk x.fs base)
    (hp : ∀ n ∈ x.conf.dbs.map Prod.fst, PlainName n) (hdel : ∀ m, x.deleting m → PlainName m) :
    ∃ names, z.fs = (saveMeta env base f names (STrace.last y trC).fs).1 ∧
      ∀ n ∈ names, ∃ (tr1 tr2 : STrace) (w : Sys) (d : Store) (g : Fault), trB = tr1 ++ (.write n g, w) :: tr2 ∧
        (n, d) ∈ x.conf.dbs ∧ g.reported (serBytes env d).length = false ∧
        w.fs (sdbPath base n) = some (.file (g.written (serBytes env d))) := by
  have h' : SRun env base (Sys.init dbs fs) ((trA ++ (.begin last, x) :: (trB ++ [(.release, y)])) ++ (trC ++ [(.list f ok, z)])) := by
    simpa using h
  obtain ⟨S, todo, hS, hd, hpass, h4, -⟩ := save_begins (h'.split _ _).1
  obtain ⟨h5, h6⟩ := h4.split
  obtain ⟨h7, -⟩ := h6.uncons
  have key : ∀ {tr : STrace}, SRun env base x tr → .release ∉ tr.events → ∃ done rest names,
      Pass x (STrace.last x tr) last done rest names ∧ BaseOk (STrace.last x tr).fs base ∧
      ∀ n ∈ names, ∃ (tr1 tr2 : STrace) (w : Sys) (d : Store) (g : Fault), tr = tr1 ++ (.write n g, w) :: tr2 ∧
        (n, d) ∈ x.conf.dbs ∧ g.reported (serBytes env d).length = false ∧
        w.fs (sdbPath base n) = some (.file (g.written (serBytes env d))) := by
    intro tr hr hne
    induction hr with
    | nil => exact ⟨[], todo, [], hpass, hb, by simp⟩
    | @snoc tr e s' hr hs ih =>
      rw [STrace.events_append, List.mem_append, not_or] at hne
      obtain ⟨done, rest, names, h2, h3, h8⟩ := ih hne.1
      rw [STrace.last_snoc]
      have hne' : e ≠ .release := by
        rintro rfl
        exact hne.2 (by simp [STrace.events])
      have hold : ∀ n ∈ names, ∃ (tr1 tr2 : STrace) (w : Sys) (d : Store) (g : Fault),
          tr ++ [(e, s')] = tr1 ++ (.write n g, w) :: tr2 ∧ (n, d) ∈ x.conf.dbs ∧
          g.reported (serBytes env d).length = false ∧ w.fs (sdbPath base n) = some (.file (g.written (serBytes env d))) := by
        intro n hn
        obtain ⟨tr1, tr2, w, d, g, rfl, h9⟩ := h8 n hn
        exact ⟨tr1, tr2 ++ [(e, s')], w, d, g, by simp, h9⟩
      rcases h2.step hs hne' with ⟨m, d', rest', g, rfl, rfl, hfs, hps⟩ | ⟨hw, hps, hfs⟩
      · have hmem : (m, d') ∈ x.conf.dbs := h2.all.mem_iff.mp (by simp)
        have w := wrote (fs := (STrace.last x tr).fs) (hp m (List.mem_map_of_mem (f := Prod.fst) hmem)) (serBytes env d') g h3
        refine ⟨_, _, _, hps, by rw [hfs]; exact w.ready, fun n hn => ?_⟩
        split at hn
        · next hok =>
          rcases List.mem_append.mp hn with hn | hn
          · exact hold n hn
          · cases List.mem_singleton.mp hn
            exact ⟨tr, [], s', d', g, rfl, hmem, (w.iff.mp hok).1, by rw [hfs]; exact (w.done hok).1⟩
        · exact hold n hn
      · refine ⟨_, _, _, hps, ?_, hold⟩
        rcases hfs with hfs | ⟨m, hm, hfs⟩
        · rw [hfs]; exact h3
        · rw [hfs]; exact (unlink_plain (fs := (STrace.last x tr).fs) (base := base) (hdel m hm)).2.1 h3
  obtain ⟨done, rest, names, h9, -, h10⟩ := key h5 hone
  have hy : y.saver = .listing last names := by
    generalize STrace.last x trB = s at h7 h9
    cases h7 with
    | release hx0 hs => rw [h9.pc] at hs; cases hs; rfl
  have h13 : SRun env base y (trC ++ [(.list f ok, z)]) := by
    have := (h'.split _ _).2
    rwa [STrace.last_append, STrace.last_cons, STrace.last_snoc] at this
  obtain ⟨h14, h15⟩ := h13.split
  obtain ⟨h16, -⟩ := h15.uncons
  have hstay : (STrace.last y trC).saver = .listing last names := by
    clear h h' h13 h15 h16
    induction h14 with
    | nil => exact hy
    | @snoc tr e s' hr hs ih =>
      have ih := ih (fun g o hm => htwo g o (by rw [STrace.events_append]; exact List.mem_append_left _ hm))
      have hin : e ∈ STrace.events (tr ++ [(e, s')]) := by simp [STrace.events]
      rw [STrace.last_snoc]
      generalize STrace.last y tr = s at hs ih
      cases hs with
      | begin _ hw _ _ _ => rw [ih] at hw; cases hw
      | beginLast _ hw _ _ _ => rw [ih] at hw; cases hw
      | write f _ hw => rw [ih] at hw; cases hw
      | release _ hw => rw [ih] at hw; cases hw
      | list f _ hw => exact absurd hin (htwo _ _)
      | exit _ hw _ => rw [ih] at hw; cases hw
      | _ => exact ih
  refine ⟨names, ?_, h10⟩
  generalize STrace.last y trC = s at h16 hstay
  generalize he : SEv.list f ok = e at h16
  cases h16 with
  | list f' hx hw =>
    rw [hstay] at hw
    cases hw
    cases he
    rfl
  | _ => cases he

/-- A save of one database, with its list. -/
example : ∃ (trA : STrace) (x w y z : Sys), SRun sampleEnv [['e', 't', 'c'], ['s']] (Sys.init [(Again.d, [])] sampleFs)
      (trA ++ (.begin true, x) :: ([(.write Again.d .none, w)] ++ (.release, y) :: ([] ++ [(.list .none true, z)]))) ∧
    BaseOk x.fs [['e', 't', 'c'], ['s']] ∧ (∀ n ∈ x.conf.dbs.map Prod.fst, PlainName n) ∧ ∀ m, x.deleting m → PlainName m := by
  obtain ⟨u, x, w, y, z, v, h, -, h2, h3, h4, -⟩ := short_stop (env := sampleEnv) [['e', 't', 'c'], ['s']] sampleFs (by decide)
    (by decide) (by decide)
  have h' : SRun sampleEnv [['e', 't', 'c'], ['s']] (Sys.init [(Again.d, [])] sampleFs)
      (([(.signal, u)] ++ (.begin true, x) :: ([(.write Again.d .none, w)] ++ (.release, y) :: ([] ++ [(.list .none true, z)]))) ++
        [(.exit, v)]) := h
  refine ⟨_, x, w, y, z, (h'.split _ _).1, by rw [h3]; exact .inl (by decide), fun n hn => ?_,
    fun m hm => absurd hm (h4 x (by simp [STrace.states]) m)⟩
  rw [h2] at hn
  cases List.mem_singleton.mp hn
  exact ⟨by decide, by decide⟩

end Souris
