import Verif.Props.Saver

/-! # C113: what appears in the file of a database is what the database contained at a moment since -/

namespace Souris

theorem STrace.states_snoc (s : Sys) (tr : STrace) (e : SEv) (x : Sys) :
    STrace.states s (tr ++ [(e, x)]) = STrace.states s tr ++ [x] := by simp [STrace.states]

theorem STrace.last_mem (s : Sys) (tr : STrace) : STrace.last s tr ∈ STrace.states s tr := by
  unfold STrace.last STrace.states
  cases ht : tr.getLast? with
  | none => simp
  | some z =>
    simp only [Option.map_some, Option.getD_some, List.mem_cons, List.mem_map]
    exact .inr ⟨z, List.mem_of_getLast? ht, rfl⟩

/-- The file `p` is as in `fs`, or deleted, or has the first bytes of what the database `n` is saved as with the contents that it had
in one of the states `l`; all of the bytes, when no write of it in `evs` went wrong. -/
def FromSince (env : Env) (fs : FS) (l : List Sys) (evs : List SEv) (n : List Char) (p : Path) (now : FS) : Prop :=
  now p = fs p ∨ now p = none ∨
  ∃ z ∈ l, ∃ d b, AMap.get n z.conf.dbs = some d ∧ now p = some (.file b) ∧ b <+: serBytes env d ∧
    ((∀ f, .write n f ∈ evs → f = .none) → b = serBytes env d)

theorem FromSince.mono {env : Env} {fs : FS} {l l' : List Sys} {evs evs' : List SEv} {n : List Char} {p : Path} {now now' : FS}
    (h : FromSince env fs l evs n p now) (hl : ∀ z ∈ l, z ∈ l') (he : ∀ e ∈ evs, e ∈ evs') (hn : now' p = now p) :
    FromSince env fs l' evs' n p now' := by
  rcases h with h | h | ⟨z, hz, d, b, h1, h2, h3, h4⟩
  · exact .inl (hn.trans h)
  · exact .inr (.inl (hn.trans h))
  · exact .inr (.inr ⟨z, hl z hz, d, b, h1, hn.trans h2, h3, fun hf => h4 fun f hm => hf f (he _ hm)⟩)

/-- While a save is writing files, what it has still to write is what the databases contain. -/
theorem saving_now {env : Env} {base : Path} {dbs : Dbs} {fs : FS} {tr : STrace} (h : SRun env base (Sys.init dbs fs) tr)
    {last : Bool} {todo : Dbs} {names : List (List Char)}
    (hw : (STrace.last (Sys.init dbs fs) tr).saver = .writing last todo names) :
    (STrace.last (Sys.init dbs fs) tr).conf.lock = none ∧
    ∀ x ∈ todo, x ∈ (STrace.last (Sys.init dbs fs) tr).conf.dbs := by
  induction h generalizing last todo names with
  | nil => cases hw
  | @snoc tr e s' hr hst ih =>
    have hti : TaskInv (STrace.last (Sys.init dbs fs) tr).conf tr.requests.events := by
      have h1 := hr.requests
      rw [← h1.2]; exact Run.taskInv h1.1
    rw [STrace.last_snoc] at hw ⊢
    generalize STrace.last (Sys.init dbs fs) tr = s at hst ih hti
    have hsame : s'.saver = s.saver → (s'.saver.holds → s'.conf.lock = none ∧ s'.conf.dbs = s.conf.dbs) := by
      intro h1 h2
      rw [h1] at h2 hw
      rcases hst.conf with ⟨e', -, h3, -, h4⟩ | ⟨h3, -⟩
      · have := h3.quiet hti.exclusive (ih hw).1 (fun t ht => h4 t ht h2)
        exact ⟨this.2.1, this.1⟩
      · rw [h3]; exact ⟨(ih hw).1, rfl⟩
    have hholds : s'.saver.holds := by rw [hw]; trivial
    have hsame' : s'.saver = s.saver → s'.conf.lock = none ∧ ∀ x ∈ todo, x ∈ s'.conf.dbs := by
      intro h1
      obtain ⟨h2, h3⟩ := hsame h1 hholds
      refine ⟨h2, ?_⟩
      rw [h3]
      exact (ih (h1.symm.trans hw)).2
    cases hst with
    | begin _ _ hl _ hp => cases hw; exact ⟨hl, fun x hx => hp.mem_iff.mp hx⟩
    | beginLast _ _ hl _ hp => cases hw; exact ⟨hl, fun x hx => hp.mem_iff.mp hx⟩
    | write f _ h =>
      cases hw
      obtain ⟨h1, h2⟩ := ih h
      exact ⟨h1, fun x hx => h2 x (List.mem_cons_of_mem _ hx)⟩
    | release _ _ => cases hw
    | list f _ _ => simp only at hw; split at hw <;> cases hw
    | _ => exact hsame' rfl

/-- C113: from any moment on, whatever requests and saves do, the file of a database stays as it is, or is deleted, or has contents
that the database had in memory at a moment since: never older ones, never those of another database, and never a mixture. Only a
write that goes wrong leaves the beginning of such a file. This is for names that are one path component, and not `meta`. -/
theorem C113_since {env : Env} {base : Path} {dbs : Dbs} {fs : FS} {trA tr : STrace} {y : Sys}
    (h : SRun env base (Sys.init dbs fs) (trA ++ tr)) (hy : STrace.last (Sys.init dbs fs) trA = y)
    (hnd : (dbs.map Prod.fst).Nodup) (hb : BaseOk y.fs base)
    (hpl : ∀ z ∈ STrace.states y tr, (∀ m ∈ z.conf.dbs.map Prod.fst, PlainName m) ∧ ∀ m, z.deleting m → PlainName m)
    {n : List Char} (hm : n ≠ kMeta) :
    FromSince env y.fs (STrace.states y tr) tr.events n (sdbPath base n) (STrace.last y tr).fs := by
  obtain ⟨-, hr⟩ := h.split
  rw [hy] at hr
  suffices key : BaseOk (STrace.last y tr).fs base ∧
      FromSince env y.fs (STrace.states y tr) tr.events n (sdbPath base n) (STrace.last y tr).fs from key.2
  induction hr with
  | nil => exact ⟨hb, .inl rfl⟩
  | @snoc tr e s' hr hst ih =>
    have hreach : SRun env base (Sys.init dbs fs) (trA ++ tr) := by
      rw [← List.append_assoc] at h
      exact h.split.1
    have hlast : STrace.last (Sys.init dbs fs) (trA ++ tr) = STrace.last y tr := by rw [STrace.last_append, hy]
    obtain ⟨h1, h3⟩ := ih hreach (fun z hz => hpl z (by rw [STrace.states_snoc]; exact List.mem_append_left _ hz))
    have hpl' := hpl _ (by rw [STrace.states_snoc]; exact List.mem_append_left _ (STrace.last_mem y tr))
    have hmem := STrace.last_mem y tr
    have hnow : ((STrace.last y tr).conf.dbs.map Prod.fst).Nodup := by
      have h4 := hreach.requests
      rw [hlast] at h4
      rw [← h4.2]
      exact h4.1.names hnd
    have hsaving := fun {last todo names} => saving_now hreach (last := last) (todo := todo) (names := names)
    rw [hlast] at hsaving
    have hl : ∀ z ∈ STrace.states y tr, z ∈ STrace.states y (tr ++ [(e, s')]) := fun z hz => by
      rw [STrace.states_snoc]; exact List.mem_append_left _ hz
    have he : ∀ e' ∈ tr.events, e' ∈ STrace.events (tr ++ [(e, s')]) := fun e' hz => by
      rw [STrace.events_append]; exact List.mem_append_left _ hz
    have hin : e ∈ STrace.events (tr ++ [(e, s')]) := by simp [STrace.events]
    rw [STrace.last_snoc]
    replace hmem := hl _ hmem
    generalize STrace.states y (tr ++ [(e, s')]) = L at hl hmem ⊢
    generalize STrace.events (tr ++ [(e, s')]) = E at he hin ⊢
    generalize STrace.last y tr = s at hst h1 h3 hpl' hmem hnow hsaving
    have hdel : ∀ m, PlainName m → BaseOk (unlink s.fs base m).2 base ∧
        FromSince env y.fs L E n (sdbPath base n) (unlink s.fs base m).2 := by
      intro m hp
      obtain ⟨u1, u2, u3⟩ := unlink_plain (fs := s.fs) (base := base) hp
      refine ⟨u2 h1, ?_⟩
      by_cases hmn : m = n
      · subst hmn
        rcases u3 with u3 | u3
        · exact h3.mono hl he u3
        · exact .inr (.inl u3)
      · exact h3.mono hl he (u1 _ fun e => hmn (sdb_inj e).symm)
    cases hst with
    | @delete t m io fs' _ ht hio =>
      have := hdel m (hpl'.2 m (.inr ⟨t, io, ht⟩))
      rcases hio with hio | ⟨_, rfl⟩
      · rw [hio] at this; exact this
      · exact ⟨h1, h3.mono hl he rfl⟩
    | @lateDelete m l1 l2 _ hl' => exact hdel m (hpl'.2 m (.inl (by rw [hl']; simp)))
    | @write last m d todo names f _ hw =>
      have hd := (hsaving hw).2 (m, d) List.mem_cons_self
      have hp := hpl'.1 m (List.mem_map.mpr ⟨_, hd, rfl⟩)
      have hget := AMap.get_of_mem hnow hd
      have w := wrote (fs := s.fs) hp (serBytes env d) f h1
      refine ⟨w.ready, ?_⟩
      by_cases hmn : m = n
      · subst hmn
        cases hok : (writeTo f s.fs base m (serBytes env d)).2 with
        | true =>
          refine .inr (.inr ⟨s, hmem, d, _, hget, (w.done hok).1, ?_, fun hf => ?_⟩)
          · cases f with
            | after k => exact List.take_prefix _ _
            | _ => simp [Fault.written]
          · rw [hf f hin]; rfl
        | false =>
          rcases w.failed hok with hsame | ⟨k, rfl, hk⟩
          · exact h3.mono hl he hsame
          · exact .inr (.inr ⟨s, hmem, d, _, hget, hk, List.take_prefix _ _, fun hf => by cases hf _ hin⟩)
      · exact h3.mono hl he (w.others _ (sdb_not_prefix base n) fun e => hmn (sdb_inj e).symm)
    | @list last names f _ hw =>
      have w := wrote (fs := s.fs) plain_meta (serBytes env (metaStore names)) f h1
      exact ⟨w.ready, h3.mono hl he (w.others _ (sdb_not_prefix base n) fun e => hm (sdb_inj e))⟩
    | _ => exact ⟨h1, h3.mono hl he rfl⟩

/-- A save of a database that has no file yet: the file has the contents of the database. -/
example : ∃ (x w : Sys), SRun sampleEnv [['e', 't', 'c'], ['s']] (Sys.init [(['d'], [])] sampleFs)
      ([] ++ [(.begin false, x), (.write ['d'] .none, w)]) ∧
    BaseOk (Sys.init [(['d'], [])] sampleFs).fs [['e', 't', 'c'], ['s']] ∧
    (∀ z ∈ STrace.states (Sys.init [(['d'], [])] sampleFs) [(.begin false, x), (.write ['d'] .none, w)],
      (∀ m ∈ z.conf.dbs.map Prod.fst, PlainName m) ∧ ∀ m, z.deleting m → PlainName m) ∧
    sampleFs (sdbPath [['e', 't', 'c'], ['s']] ['d']) = none ∧
    w.fs (sdbPath [['e', 't', 'c'], ['s']] ['d']) = some (.file (serBytes sampleEnv [])) := by
  refine ⟨_, _, .cons (.begin rfl rfl rfl (fun e => by cases e) (.refl _)) (.cons (.write .none rfl rfl) .nil),
    .inl (by decide), ?_, by decide, ?_⟩
  · intro z hz
    simp only [STrace.states, List.map_cons, List.map_nil, List.mem_cons, List.not_mem_nil, or_false] at hz
    rcases hz with rfl | rfl | rfl <;>
    · refine ⟨fun m hm => ?_, ?_⟩
      · have : m = ['d'] := by simpa [Sys.init, Conf.init] using hm
        subst this
        exact ⟨by decide, by decide⟩
      · rintro m (h | ⟨t, io, h⟩) <;> cases h
  · have w := wrote (fs := sampleFs) (base := [['e', 't', 'c'], ['s']]) (n := ['d']) ⟨by decide, by decide⟩
      (serBytes sampleEnv []) .none (.inl (by decide))
    exact (w.done (w.iff.mpr ⟨rfl, by decide⟩)).1

end Souris
