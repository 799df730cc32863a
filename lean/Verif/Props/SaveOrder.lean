import Verif.Props.Listed

/-! # C113 in terms of the requests -/

namespace Souris

/-- A state of a run is the end of a part of it. -/
theorem STrace.of_states {s z : Sys} {tr : STrace} (h : z ∈ STrace.states s tr) :
    ∃ tr1 tr2 : STrace, tr = tr1 ++ tr2 ∧ STrace.last s tr1 = z := by
  simp only [STrace.states, List.mem_cons, List.mem_map] at h
  rcases h with rfl | ⟨⟨e, z'⟩, h, rfl⟩
  · exact ⟨[], tr, rfl, rfl⟩
  · obtain ⟨l₁, l₂, rfl⟩ := List.append_of_mem h
    exact ⟨l₁ ++ [(e, z')], l₂, by simp, STrace.last_snoc ..⟩

/-- C113 in terms of the requests: what appears in the file of a database after a moment (the end of `trA`) is what the database
contains after some order of requests that explains their replies, and in which is every request that was answered before that
moment. So nothing that was acknowledged before is missing in it. -/
theorem C113_requests {env : Env} {base : Path} {dbs : Dbs} {fs : FS} {trA tr : STrace} {y : Sys}
    (h : SRun env base (Sys.init dbs fs) (trA ++ tr)) (hy : STrace.last (Sys.init dbs fs) trA = y)
    (hnd : (dbs.map Prod.fst).Nodup) (hb : BaseOk y.fs base)
    (hpl : ∀ z ∈ STrace.states y tr, (∀ m ∈ z.conf.dbs.map Prod.fst, PlainName m) ∧ ∀ m, z.deleting m → PlainName m)
    {n : List Char} (hm : n ≠ kMeta) (hf : ∀ f, .write n f ∈ tr.events → f = .none) :
    (STrace.last y tr).fs (sdbPath base n) = y.fs (sdbPath base n) ∨ (STrace.last y tr).fs (sdbPath base n) = none ∨
    ∃ (tr1 tr2 : STrace) (S : List (Nat × Op × Reply)) (d : Store), tr = tr1 ++ tr2 ∧
      Linearization env (Conf.init dbs) (trA ++ tr1 : STrace).requests S ∧
      (∀ t op r, .req (.call t op) ∈ trA.events → .req (.ret t r) ∈ trA.events → op.isGetDb = false → (t, op, r) ∈ S) ∧
      AMap.get n (replay env dbs (S.map fun x => x.2.1)).2 = some d ∧
      (STrace.last y tr).fs (sdbPath base n) = some (.file (serBytes env d)) := by
  rcases C113_since h hy hnd hb hpl hm with h1 | h1 | ⟨z, hz, d, b, h1, h2, -, h3⟩
  · exact .inl h1
  · exact .inr (.inl h1)
  · obtain ⟨tr1, tr2, rfl, rfl⟩ := STrace.of_states hz
    rw [← List.append_assoc] at h
    have hr := h.split.1.requests
    obtain ⟨S, hS⟩ := C39_linearizable (dbs := dbs) hr.1
    refine .inr (.inr ⟨tr1, tr2, S, d, rfl, hS, ?_, ?_, by rw [h2, h3 hf]⟩)
    · intro t op r hc hret hg
      have hA : ∀ e : Ev, .req e ∈ trA.events → e ∈ (trA ++ tr1 : STrace).requests.events := fun e he =>
        STrace.mem_requests (by rw [STrace.events_append]; exact List.mem_append_left _ he)
      exact hS.complete t op r (hA _ hc) hg (hA _ hret)
    · have hl := hS.legal
      rw [show (Conf.init dbs).dbs = dbs from rfl] at hl
      rw [hl]
      rw [STrace.last_append, hy] at hr
      rw [← hr.2] at h1
      exact h1

/-- A run as above: a save of a database that has no file yet, from the start on. -/
example : ∃ (x w : Sys), SRun sampleEnv [['e', 't', 'c'], ['s']] (Sys.init [(Again.d, [])] sampleFs)
      ([] ++ [(.begin false, x), (.write Again.d .none, w)]) ∧
    sampleFs (sdbPath [['e', 't', 'c'], ['s']] Again.d) = none ∧
    w.fs (sdbPath [['e', 't', 'c'], ['s']] Again.d) = some (.file (serBytes sampleEnv [])) := by
  refine ⟨_, _, .cons (.begin rfl rfl rfl (fun e => by cases e) (.refl _)) (.cons (.write .none rfl rfl) .nil), by decide, ?_⟩
  have w := wrote (fs := sampleFs) (base := [['e', 't', 'c'], ['s']]) (n := Again.d) ⟨by decide, by decide⟩
    (serBytes sampleEnv []) .none (.inl (by decide))
  exact (w.done (w.iff.mpr ⟨rfl, by decide⟩)).1

end Souris
