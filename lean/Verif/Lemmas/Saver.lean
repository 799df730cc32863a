import Verif.Spec.Saver
import Verif.Lemmas.Concurrent
import Verif.Props.Disk

/-! # Lemmas on the saver beside the requests -/

namespace Souris

namespace STrace

theorem last_snoc (s : Sys) (tr : STrace) (e : SEv) (s' : Sys) : last s (tr ++ [(e, s')]) = s' := by
  simp [last]

theorem last_append (s : Sys) (tr tr' : STrace) : last s (tr ++ tr') = last (last s tr) tr' := by
  unfold last
  rw [List.getLast?_append]
  cases tr'.getLast? <;> simp

theorem last_cons (s : Sys) (e : SEv) (x : Sys) (tr : STrace) : last s ((e, x) :: tr) = last x tr := by
  rw [show (e, x) :: tr = [(e, x)] ++ tr from rfl, last_append]
  rfl

theorem events_append (tr tr' : STrace) : events (tr ++ tr') = events tr ++ events tr' := by simp [events]

theorem requests_append (tr tr' : STrace) : requests (tr ++ tr') = requests tr ++ requests tr' := by simp [requests]

theorem written_append (tr tr' : STrace) : written (tr ++ tr') = written tr ++ written tr' := by simp [written]

end STrace

theorem SRun.split {env : Env} {base : Path} {s : Sys} (tr tr' : STrace) (h : SRun env base s (tr ++ tr')) :
    SRun env base s tr ∧ SRun env base (STrace.last s tr) tr' := by
  induction tr' using List.reverseRecOn with
  | nil => exact ⟨by simpa using h, .nil⟩
  | append_singleton tr' x ih =>
    rw [← List.append_assoc] at h
    generalize hg : (tr ++ tr') ++ [x] = l at h
    cases h with
    | nil => simp at hg
    | @snoc tr0 e s' h hs =>
      obtain ⟨rfl, hx⟩ := List.append_inj' hg rfl
      simp only [List.cons.injEq, and_true] at hx
      subst hx
      obtain ⟨h1, h2⟩ := ih h
      refine ⟨h1, .snoc h2 ?_⟩
      rw [← STrace.last_append]
      exact hs

theorem SRun.cons {env : Env} {base : Path} {s x : Sys} {e : SEv} {tr : STrace} (h : SStep env base s e x)
    (t : SRun env base x tr) : SRun env base s ((e, x) :: tr) := by
  induction t with
  | nil => exact .snoc (tr := []) .nil h
  | @snoc tr e' s' t hs ih =>
    rw [show (e, x) :: (tr ++ [(e', s')]) = ((e, x) :: tr) ++ [(e', s')] from rfl]
    refine .snoc ih ?_
    rw [STrace.last_cons]
    exact hs

theorem SRun.uncons {env : Env} {base : Path} {s x : Sys} {e : SEv} {tr : STrace} (h : SRun env base s ((e, x) :: tr)) :
    SStep env base s e x ∧ SRun env base x tr := by
  rw [show (e, x) :: tr = [(e, x)] ++ tr from rfl] at h
  obtain ⟨h1, h2⟩ := h.split
  refine ⟨?_, h2⟩
  generalize hl : [(e, x)] = l at h1
  cases h1 with
  | nil => cases hl
  | @snoc tr0 e' s' h hs =>
    obtain ⟨rfl, hx⟩ := List.append_inj' (s₁ := []) hl rfl
    cases hx
    exact hs

/-- What a step is for the requests. -/
theorem SStep.conf {env : Env} {base : Path} {s s' : Sys} {e : SEv} (h : SStep env base s e s') :
    (∃ e', e = .req e' ∧ Step env s.conf e' s'.conf ∧ s'.saver = s.saver ∧ ∀ t, e' = .acquire t → ¬ s.saver.holds) ∨
    (s'.conf = s.conf ∧ ∀ e', e ≠ .req e') := by
  cases h with
  | req hx h hl hu => exact .inl ⟨_, rfl, h, rfl, hl⟩
  | delete hx h hio => exact .inl ⟨_, rfl, .unlink h, rfl, by simp⟩
  | abandon hx h hl => exact .inl ⟨_, rfl, .cancel h trivial, rfl, by simp⟩
  | lateDelete _ _ | signal _ _ | begin _ _ _ _ _ | beginLast _ _ _ _ _ | write _ _ _ | release _ _ | list _ _ _ | exit _ _ _ =>
    exact .inr ⟨rfl, by simp⟩

theorem SRun.requests {env : Env} {base : Path} {s : Sys} {tr : STrace} (h : SRun env base s tr) :
    Run env s.conf tr.requests ∧ Trace.last s.conf tr.requests = (STrace.last s tr).conf := by
  induction h with
  | nil => exact ⟨.nil, rfl⟩
  | @snoc tr e s' h hs ih =>
    rw [STrace.requests_append, STrace.last_snoc]
    rcases hs.conf with ⟨e', rfl, hs, -, -⟩ | ⟨hc, hne⟩
    · have : STrace.requests [(SEv.req e', s')] = [(e', s'.conf)] := rfl
      rw [this, Trace.last_snoc]
      refine ⟨.snoc ih.1 ?_, rfl⟩
      rw [ih.2]
      exact hs
    · have : STrace.requests [(e, s')] = [] := by
        cases e <;> first | rfl | exact absurd rfl (hne _)
      rw [this, List.append_nil, hc]
      exact ih

/-- While nobody has the lock and nobody obtains it, the databases stay as they are. -/
theorem Step.quiet {env : Env} {c c' : Conf} {e : Ev}
    (hex : ∀ t op pc, c.tasks t = some (op, pc) → pc.holds → c.lock = some t) (hl : c.lock = none)
    (hs : Step env c e c') (ha : ∀ t, e ≠ .acquire t) :
    c'.dbs = c.dbs ∧ c'.lock = none ∧
    ∀ t n io, c'.tasks t = some (.removeDb n io, .unlinking) → c.tasks t = some (.removeDb n io, .unlinking) := by
  have no : ∀ t op pc, c.tasks t = some (op, pc) → ¬ pc.holds := by
    intro t op pc h hh
    have := hex t op pc h hh
    rw [hl] at this
    cases this
  have key : ∀ (t : Nat) (op : Op) (pc : Pc), pc ≠ .unlinking → ∀ (i : Nat) (n : List Char) (io : IoResult),
      (if i = t then some (op, pc) else c.tasks i) = some (.removeDb n io, .unlinking) →
      c.tasks i = some (.removeDb n io, .unlinking) := by
    intro t op pc hp i n io h
    split at h
    · cases h; exact absurd rfl hp
    · exact h
  cases hs with
  | call op h => exact ⟨rfl, hl, key _ _ _ (by simp)⟩
  | refuse h hb => exact ⟨rfl, hl, key _ _ _ (by simp)⟩
  | invalidate h hi => exact ⟨rfl, hl, key _ _ _ (by simp)⟩
  | hit h hc => exact ⟨rfl, hl, key _ _ _ (by simp)⟩
  | miss h hc => exact ⟨rfl, hl, key _ _ _ (by simp)⟩
  | acquire h _ _ => exact absurd rfl (ha _)
  | act h => exact absurd trivial (no _ _ _ h)
  | uncache h => exact absurd trivial (no _ _ _ h)
  | fill h => exact absurd trivial (no _ _ _ h)
  | @ret t op pc r h hr => exact ⟨rfl, rfl, key _ _ _ (by simp)⟩
  | drop h => exact absurd trivial (no _ _ _ h)
  | unlink h => exact ⟨rfl, hl, key _ _ _ (by simp)⟩
  | cancel h _ => exact ⟨rfl, hl, key _ _ _ (by simp)⟩
  | cancelLocked h _ => exact absurd trivial (no _ _ _ h)
  | evict n => exact ⟨rfl, hl, fun _ _ _ h => h⟩

/-! ## Deletions -/

theorem unlink_cases (fs : FS) (base : Path) (m : List Char) :
    (unlink fs base m).2 = fs ∨
    ∃ p b, target fs base m = .ok p ∧ fs p = some (.file b) ∧ (unlink fs base m).2 = fs.set p none := by
  unfold unlink
  split
  · exact .inl rfl
  · exact .inl rfl
  · next p hp =>
    split
    · exact .inl rfl
    · exact .inl rfl
    · next b hb => exact .inr ⟨p, b, hp, hb, rfl⟩

/-- Deleting a file directly in the base directory leaves the base directory and the other files. -/
theorem unlink_plain {fs : FS} {base : Path} {m : List Char} (hm : PlainName m) :
    (∀ p, p ≠ sdbPath base m → (unlink fs base m).2 p = fs p) ∧ (BaseOk fs base → BaseOk (unlink fs base m).2 base) ∧
    ((unlink fs base m).2 (sdbPath base m) = fs (sdbPath base m) ∨ (unlink fs base m).2 (sdbPath base m) = none) := by
  rcases unlink_cases fs base m with h | ⟨p, b, hp, hb, h⟩
  · rw [h]; exact ⟨fun _ _ => rfl, id, .inl rfl⟩
  · have he : p = sdbPath base m := (C49_contained_partial fs base m hm.1).1 p hp
    subst he
    rw [h]
    refine ⟨fun q hq => FS.set_ne _ _ hq, ?_, .inr (FS.set_self ..)⟩
    rintro (hd | ⟨hd, hc⟩)
    · left; rw [FS.set_ne _ _ (sdb_ne_base base m).symm]; exact hd
    · right
      refine ⟨by rw [FS.set_ne _ _ (sdb_ne_base base m).symm]; exact hd, fun i b => ?_⟩
      have : base.take i ≠ sdbPath base m := by
        intro e
        have := congrArg List.length e
        simp [sdbPath] at this
        omega
      rw [FS.set_ne _ _ this]
      exact hc i b

/-! ## A save -/

/-- The saver is in the middle of the save that it began in `x`, and has written `done`. -/
structure Pass (x s : Sys) (last : Bool) (done todo : Dbs) (names : List (List Char)) : Prop where
  pc : s.saver = .writing last todo names
  all : (done ++ todo).Perm x.conf.dbs
  dbs : s.conf.dbs = x.conf.dbs
  lock : s.conf.lock = none
  tasks : ∃ evs, TaskInv s.conf evs
  flights : ∀ m, s.deleting m → x.deleting m

/-- A step during a save: a file is written, or the databases are left alone. -/
theorem Pass.step {env : Env} {base : Path} {x s s' : Sys} {last : Bool} {done todo : Dbs} {names : List (List Char)}
    {e : SEv} (h : Pass x s last done todo names) (hs : SStep env base s e s') (hne : e ≠ .release) :
    (∃ n d rest f, e = .write n f ∧ todo = (n, d) :: rest ∧ s'.fs = (writeTo f s.fs base n (serBytes env d)).1 ∧
      Pass x s' last (done ++ [(n, d)]) rest
        (if (writeTo f s.fs base n (serBytes env d)).2 then names ++ [n] else names)) ∨
    ((∀ n f, e ≠ .write n f) ∧ Pass x s' last done todo names ∧
      (s'.fs = s.fs ∨ ∃ m, x.deleting m ∧ s'.fs = (unlink s.fs base m).2)) := by
  obtain ⟨evs, hti⟩ := h.tasks
  have hholds : s.saver.holds := by rw [h.pc]; trivial
  -- what a step of a request does
  have hreq : ∀ (e' : Ev), e = .req e' → (∀ m, s'.deleting m → x.deleting m) → Pass x s' last done todo names := by
    intro e' he hfl
    rcases hs.conf with ⟨e'', he', hst, hsv, hacq⟩ | ⟨_, hn⟩
    · rw [he] at he'
      cases he'
      have hq := hst.quiet hti.exclusive h.lock (fun t ht => hacq t ht hholds)
      exact ⟨hsv.trans h.pc, h.all, hq.1.trans h.dbs, hq.2.1, ⟨_, hti.step hst⟩, hfl⟩
    · exact absurd he (hn _)
  cases hs with
  | @req e c' hx hst hl hu =>
    have hq := hst.quiet hti.exclusive h.lock (fun t ht => hl t ht hholds)
    refine .inr ⟨by simp, hreq _ rfl ?_, .inl rfl⟩
    rintro m (hm | ⟨t, io, hm⟩)
    · exact h.flights m (.inl hm)
    · exact h.flights m (.inr ⟨t, io, hq.2.2 t m io hm⟩)
  | @delete t n io fs' hx ht hio =>
    have hn : x.deleting n := h.flights n (.inr ⟨t, io, ht⟩)
    refine .inr ⟨by simp, hreq _ rfl ?_, ?_⟩
    · rintro m (hm | ⟨u, io', hm⟩)
      · exact h.flights m (.inl hm)
      · refine h.flights m (.inr ⟨u, io', ?_⟩)
        simp only [Conf.set] at hm
        split at hm
        · cases hm
        · exact hm
    · rcases hio with hio | ⟨_, hio⟩
      · exact .inr ⟨n, hn, by rw [hio]⟩
      · exact .inl hio
  | @abandon t n io late' hx ht hl =>
    have hn : x.deleting n := h.flights n (.inr ⟨t, io, ht⟩)
    refine .inr ⟨by simp, hreq _ rfl ?_, .inl rfl⟩
    rintro m (hm | ⟨u, io', hm⟩)
    · rcases hl with rfl | rfl
      · exact h.flights m (.inl hm)
      · rcases List.mem_cons.mp hm with rfl | hm
        · exact hn
        · exact h.flights m (.inl hm)
    · refine h.flights m (.inr ⟨u, io', ?_⟩)
      simp only [Conf.set] at hm
      split at hm
      · cases hm
      · exact hm
  | @lateDelete n l1 l2 hx hl =>
    have hn : x.deleting n := h.flights n (.inl (by rw [hl]; simp))
    refine .inr ⟨by simp, ⟨h.pc, h.all, h.dbs, h.lock, ⟨_, hti⟩, ?_⟩, .inr ⟨n, hn, rfl⟩⟩
    rintro m (hm | hm)
    · refine h.flights m (.inl ?_)
      rw [hl]
      simp only [List.mem_append, List.mem_cons] at hm ⊢
      tauto
    · exact h.flights m (.inr hm)
  | signal hx hs => exact .inr ⟨by simp, ⟨h.pc, h.all, h.dbs, h.lock, ⟨_, hti⟩, h.flights⟩, .inl rfl⟩
  | begin hx hs => rw [h.pc] at hs; cases hs
  | beginLast hx hs => rw [h.pc] at hs; cases hs
  | @write last' n d rest names' f hx hs =>
    rw [h.pc] at hs
    cases hs
    refine .inl ⟨n, d, rest, f, rfl, rfl, rfl, ⟨rfl, ?_, h.dbs, h.lock, ⟨_, hti⟩, h.flights⟩⟩
    simpa using h.all
  | release hx hs => exact absurd rfl hne
  | list f hx hs => rw [h.pc] at hs; cases hs
  | exit hx hs => rw [h.pc] at hs; cases hs

/-- Where a save begins. -/
theorem Pass.begin {env : Env} {base : Path} {s x : Sys} {last : Bool} (hs : SStep env base s (.begin last) x)
    (ht : ∃ evs, TaskInv s.conf evs) : ∃ todo, Pass x x last [] todo [] := by
  cases hs with
  | @begin todo hx h hl hs hp => exact ⟨todo, rfl, by simpa using hp, rfl, hl, ht, fun _ h => h⟩
  | @beginLast todo hx h hl hs hp => exact ⟨todo, rfl, by simpa using hp, rfl, hl, ht, fun _ h => h⟩

/-- During a save. -/
theorem Pass.run {env : Env} {base : Path} {x : Sys} {last : Bool} {todo : Dbs} {tr : STrace}
    (h : Pass x x last [] todo []) (hr : SRun env base x tr) (hne : .release ∉ tr.events) :
    (∀ s ∈ STrace.states x tr, s.conf.dbs = x.conf.dbs) ∧
    ∃ done rest names, Pass x (STrace.last x tr) last done rest names ∧ done.map Prod.fst = tr.written := by
  induction hr with
  | nil => exact ⟨by simp [STrace.states], [], todo, [], h, rfl⟩
  | @snoc tr e s' hr hs ih =>
    rw [STrace.events_append, List.mem_append, not_or] at hne
    obtain ⟨h1, done, rest, names, h2, h3⟩ := ih hne.1
    rw [STrace.last_snoc, STrace.written_append]
    have hne' : e ≠ .release := by
      rintro rfl
      exact hne.2 (by simp [STrace.events])
    have hst : ∀ s, s ∈ STrace.states x (tr ++ [(e, s')]) → s ∈ STrace.states x tr ∨ s = s' := by
      intro s hs
      simp only [STrace.states, List.map_append, List.mem_cons, List.mem_append, List.map_cons, List.map_nil,
        List.not_mem_nil, or_false] at hs ⊢
      tauto
    rcases h2.step hs hne' with ⟨n, d, rest', f, rfl, rfl, hfs, hp⟩ | ⟨hw, hp, hfs⟩
    · refine ⟨?_, _, _, _, hp, ?_⟩
      · intro s hs
        rcases hst s hs with hs | rfl
        · exact h1 s hs
        · exact hp.dbs
      · rw [List.map_append, h3]; rfl
    · refine ⟨?_, _, _, _, hp, ?_⟩
      · intro s hs
        rcases hst s hs with hs | rfl
        · exact h1 s hs
        · exact hp.dbs
      · rw [h3]
        have : STrace.written [(e, s')] = [] := by cases e <;> first | rfl | exact absurd rfl (hw _ _)
        rw [this, List.append_nil]

/-- The file of a database during a save that writes it without a fault. -/
theorem Pass.file {env : Env} {base : Path} {x : Sys} {last : Bool} {todo : Dbs} {tr : STrace}
    (h : Pass x x last [] todo []) (hr : SRun env base x tr) (hne : .release ∉ tr.events)
    (hnd : (x.conf.dbs.map Prod.fst).Nodup) (hp : ∀ m ∈ x.conf.dbs.map Prod.fst, PlainName m)
    (hb : BaseOk x.fs base) {n : List Char} {d : Store} (hn : (n, d) ∈ x.conf.dbs)
    (hfl : ∀ m, x.deleting m → PlainName m ∧ m ≠ n) (hdir : x.fs (sdbPath base n) ≠ some .dir)
    (hf : ∀ f, .write n f ∈ tr.events → f = .none) :
    ∃ done rest names, Pass x (STrace.last x tr) last done rest names ∧ BaseOk (STrace.last x tr).fs base ∧
      ((STrace.last x tr).fs (sdbPath base n) ≠ some .dir) ∧
      ((n, d) ∈ done → n ∈ names ∧ (STrace.last x tr).fs (sdbPath base n) = some (.file (serBytes env d))) := by
  induction hr with
  | nil => exact ⟨[], todo, [], h, hb, hdir, by simp⟩
  | @snoc tr e s' hr hs ih =>
    rw [STrace.events_append, List.mem_append, not_or] at hne
    obtain ⟨done, rest, names, h2, h3, h4, h5⟩ := ih hne.1
      (fun f hm => hf f (by rw [STrace.events_append]; exact List.mem_append_left _ hm))
    rw [STrace.last_snoc]
    have hne' : e ≠ .release := by
      rintro rfl
      exact hne.2 (by simp [STrace.events])
    rcases h2.step hs hne' with ⟨m, d', rest', f, rfl, rfl, hfs, hps⟩ | ⟨hw, hps, hfs⟩
    · have hmem : (m, d') ∈ x.conf.dbs := h2.all.mem_iff.mp (by simp)
      have w := wrote (fs := (STrace.last x tr).fs) (hp m (List.mem_map_of_mem hmem)) (serBytes env d') f h3
      refine ⟨_, _, _, hps, by rw [hfs]; exact w.ready, ?_, ?_⟩
      · rw [hfs]
        by_cases hmn : n = m
        · subst hmn
          have hff : f = .none := hf f (by simp [STrace.events])
          subst hff
          rw [(w.done (w.iff.mpr ⟨rfl, h4⟩)).1]
          simp
        · rw [w.others _ (sdb_not_prefix base n) (fun e => hmn (sdb_inj e))]
          exact h4
      · intro hd
        rw [hfs]
        by_cases hmn : n = m
        · subst hmn
          have hff : f = .none := hf f (by simp [STrace.events])
          subst hff
          have ht := w.iff.mpr ⟨rfl, h4⟩
          have hdd : d = d' := by
            have e1 := AMap.get_of_mem hnd hn
            have e2 := AMap.get_of_mem hnd hmem
            rw [e1] at e2
            exact Option.some.inj e2
          subst hdd
          rw [ht, (w.done ht).1]
          exact ⟨by simp, rfl⟩
        · have hd' : (n, d) ∈ done := by
            rcases List.mem_append.mp hd with hd | hd
            · exact hd
            · simp only [List.mem_singleton, Prod.mk.injEq] at hd
              exact absurd hd.1 hmn
          obtain ⟨h6, h7⟩ := h5 hd'
          rw [w.others _ (sdb_not_prefix base n) (fun e => hmn (sdb_inj e))]
          refine ⟨?_, h7⟩
          split
          · simp [h6]
          · exact h6
    · rcases hfs with hfs | ⟨m, hm, hfs⟩
      · exact ⟨_, _, _, hps, by rw [hfs]; exact h3, by rw [hfs]; exact h4, by rw [hfs]; exact h5⟩
      · obtain ⟨hpm, hmn⟩ := hfl m hm
        obtain ⟨u1, u2, u3⟩ := unlink_plain (fs := (STrace.last x tr).fs) (base := base) hpm
        have hne2 : sdbPath base n ≠ sdbPath base m := fun e => hmn (sdb_inj e).symm
        refine ⟨_, _, _, hps, by rw [hfs]; exact u2 h3, by rw [hfs, u1 _ hne2]; exact h4, ?_⟩
        rw [hfs, u1 _ hne2]
        exact h5

end Souris
