import Verif.Props.SaveList

/-! # C115: the file of a removed database is gone -/

namespace Souris

theorem STrace.mem_requests {tr : STrace} {e : Ev} (h : .req e ∈ tr.events) : e ∈ tr.requests.events := by
  obtain ⟨⟨e', x⟩, hx, rfl⟩ := List.mem_map.mp h
  exact List.mem_map.mpr ⟨(e, x.conf), List.mem_filterMap.mpr ⟨_, hx, rfl⟩, rfl⟩

/-- Deleting a file with success leaves none. -/
theorem unlink_gone {fs fs' : FS} {base : Path} {n : List Char} {io : IoResult} (hn : PlainName n) (hb : fs base = some .dir)
    (h : unlink fs base n = (io, fs')) (hio : io ≠ .failed) : fs' (sdbPath base n) = none := by
  unfold unlink at h
  rw [target_plain hn hb] at h
  simp only at h
  split at h
  · next h1 => cases h; exact h1
  · cases h; exact absurd rfl hio
  · cases h; exact FS.set_self ..

/-- C115: when `rm_db` has been answered with success, the database has no file, and gets none, whatever requests, saves and late
deletions do, as long as no database of that name exists. This is for names that are one path component, and not `meta`. -/
theorem C115_gone {env : Env} {base : Path} {dbs : Dbs} {fs : FS} {trA tr : STrace} {y : Sys} {t : Nat} {n : List Char} {io : IoResult}
    (h : SRun env base (Sys.init dbs fs) (trA ++ (.req (.ret t (.status 200)), y) :: tr))
    (hc : .req (.call t (.removeDb n io)) ∈ trA.events) (hnd : (dbs.map Prod.fst).Nodup)
    (hb : (STrace.last (Sys.init dbs fs) trA).fs base = some .dir)
    (hpl : ∀ z ∈ STrace.states y tr, (∀ m ∈ z.conf.dbs.map Prod.fst, PlainName m) ∧ ∀ m, z.deleting m → PlainName m)
    (hn : PlainName n) (hm : n ≠ kMeta) (hno : ∀ z ∈ STrace.states y tr, AMap.get n z.conf.dbs = none) :
    (STrace.last y tr).fs (sdbPath base n) = none := by
  have h' : SRun env base (Sys.init dbs fs) ((trA ++ [(.req (.ret t (.status 200)), y)]) ++ tr) := by simpa using h
  obtain ⟨hA, h1⟩ := h.split
  obtain ⟨hst, -⟩ := h1.uncons
  have key : y.fs (sdbPath base n) = none ∧ BaseOk y.fs base := by
    have hr := hA.requests
    have hti : TaskInv (STrace.last (Sys.init dbs fs) trA).conf trA.requests.events := by
      rw [← hr.2]; exact Run.taskInv hr.1
    obtain ⟨pc, hpc⟩ := hti.running t _ (STrace.mem_requests hc)
    generalize STrace.last (Sys.init dbs fs) trA = s at hst hpc hb
    generalize he : Reply.status 200 = r at hst
    cases hst with
    | req hx hs hl hu =>
      exfalso
      cases hs with
      | refuse h2 => rw [hpc] at h2; cases h2
      | hit h2 => rw [hpc] at h2; cases h2
      | ret h2 h3 =>
        rw [hpc] at h2
        cases h2
        rw [h3.2] at he
        cases he
      | unlink h2 => exact hu _ _ _ rfl h2
    | @delete _ m io' fs' hx h2 hio =>
      rw [hpc] at h2
      cases h2
      have hio' : io ≠ .failed := by rintro rfl; cases he
      rcases hio with hio | ⟨rfl, -⟩
      · refine ⟨unlink_gone hn hb hio hio', ?_⟩
        have := (unlink_plain (fs := s.fs) (base := base) hn).2.1 (.inl hb)
        rwa [hio] at this
      · exact absurd rfl hio'
  rcases C113_since h' (STrace.last_snoc ..) hnd key.2 hpl hm with h2 | h2 | ⟨z, hz, d, b, h2, -⟩
  · rw [h2]; exact key.1
  · exact h2
  · rw [hno z hz] at h2; cases h2

/-- A database with a file is removed: the hypotheses of `C115_gone` are met, and there was a file before. -/
example : ∃ (trA : STrace) (y z : Sys), SRun sampleEnv [['e', 't', 'c'], ['s']]
      (Sys.init [(Again.d, [])] (sampleFs.set (sdbPath [['e', 't', 'c'], ['s']] Again.d) (some (.file [7]))))
      (trA ++ [(.req (.ret 1 (.status 200)), y), (.signal, z)]) ∧
    .req (.call 1 (.removeDb Again.d .done)) ∈ trA.events ∧
    (STrace.last (Sys.init [(Again.d, [])] (sampleFs.set (sdbPath [['e', 't', 'c'], ['s']] Again.d) (some (.file [7])))) trA).fs
      (sdbPath [['e', 't', 'c'], ['s']] Again.d) = some (.file [7]) ∧
    (∀ u ∈ STrace.states y [(.signal, z)], u.conf.dbs = [] ∧ ∀ m, u.deleting m → PlainName m) := by
  have h2 : unlink (sampleFs.set (sdbPath [['e', 't', 'c'], ['s']] Again.d) (some (.file [7]))) [['e', 't', 'c'], ['s']] Again.d =
      (.done, (sampleFs.set (sdbPath [['e', 't', 'c'], ['s']] Again.d) (some (.file [7]))).set
        (sdbPath [['e', 't', 'c'], ['s']] Again.d) none) := by
    unfold unlink
    rw [target_plain ⟨by decide, by decide⟩ (by rw [FS.set_ne _ _ (sdb_ne_base _ _).symm]; decide)]
    simp only [FS.set_self]
  generalize hfs : sampleFs.set (sdbPath [['e', 't', 'c'], ['s']] Again.d) (some (.file [7])) = fs at h2
  have go : ∀ {c c' : Conf} {e : Ev}, Step sampleEnv c e c' → e.task = some 1 →
      (∀ n io, c.tasks 1 ≠ some (.removeDb n io, .unlinking)) →
      SStep sampleEnv [['e', 't', 'c'], ['s']] (Again.sys fs c) (.req e) (Again.sys fs c') :=
    fun h he hc => .req rfl h (fun _ _ => id) (by
      intro t n io ht
      rw [he] at ht
      cases ht
      exact hc n io)
  refine ⟨[(.req (.call 1 Again.R), Again.sys fs Again.c1), (.req (.invalidate 1), Again.sys fs Again.c2),
    (.req (.acquire 1), Again.sys fs Again.c3), (.req (.act 1), Again.sys fs (Again.c4 sampleEnv)),
    (.req (.drop 1), Again.sys fs (Again.c5 sampleEnv))], _, _, .cons (go (.call Again.R rfl) rfl (fun n io => by intro e; cases e))
    (.cons (go (.invalidate rfl rfl) rfl (fun n io => by intro e; cases e))
    (.cons (go (.acquire rfl rfl rfl) rfl (fun n io => by intro e; cases e))
    (.cons (go (.act rfl) rfl (fun n io => by intro e; cases e)) (.cons (go (.drop rfl) rfl (fun n io => by intro e; cases e))
    (.cons (.delete (t := 1) (n := Again.d) (io := .done) rfl rfl (.inl h2)) (.cons (.signal rfl rfl) .nil)))))), ?_, ?_, ?_⟩
  · simp [STrace.events, Again.R]
  · show fs _ = _
    rw [← hfs]
    exact FS.set_self ..
  · intro u hu
    have hdel : ∀ m, m ∈ ([] : List (List Char)) ∨ (∃ t io, ((Again.c5 sampleEnv).set 1 Again.R (.done (.status 200))).tasks t =
        some (.removeDb m io, .unlinking)) → PlainName m := by
      rintro m (h | ⟨t, io, h⟩)
      · cases h
      · by_cases ht : t = 1
        · subst ht; cases h
        · simp [Again.c5, Again.c4, Again.c3, Again.c2, Again.c1, Again.c0, Conf.set, Conf.init, ht] at h
    simp only [STrace.states, List.map_cons, List.map_nil, List.mem_cons, List.not_mem_nil, or_false] at hu
    rcases hu with rfl | rfl <;> exact ⟨rfl, hdel⟩

end Souris
