import Verif.Props.MouseChoice

/-! # C70 and C71: commands of `mouse` that never do what was asked -/

namespace Souris

open Mouse

/-- A run that exports ends as one that views: neither gets past fetching the database. -/
theorem export_is_view {env : Env} (hord : HashOrder env.mapOrd) (T : Term) (path : List Char) (types : Bool) (s : Session)
    (hs : s.Fresh env) : run env T (.exportToJson path types) s = run env T .viewAll s := by
  have h := C68_refuted_fetch hord T .viewAll trivial s hs
  have bind {α β : Type} (x : Cli α) (f : α → Cli β) (s : Session) : (x >>= f) s = match x s with
    | (.ok a, s) => f a s
    | (.err e, s) => (.err e, s)
    | (.panic p, s) => (.panic p, s) := rfl
  unfold run command at h ⊢
  rw [bind] at h ⊢
  rw [bind]
  generalize Cli.call env (Client.Sync.new env) s = r at h ⊢
  rcases r with ⟨o, t⟩
  cases o with
  | err e => rfl
  | panic p => rfl
  | ok u =>
    simp only at h ⊢
    rw [bind] at h ⊢
    rw [bind]
    generalize pickDb env t = r at h ⊢
    rcases r with ⟨o, t⟩
    cases o with
    | err e => rfl
    | panic p => rfl
    | ok x => exact (h rfl).elim

/-- **C71** is violated: `ExportToJSON` never writes anything and never ends well, whatever databases there are and
whatever the user answers. -/
theorem C71_refuted_export {env : Env} (hord : HashOrder env.mapOrd) (T : Term) (path : List Char) (types : Bool) (s : Session)
    (hs : s.Fresh env) : (run env T (.exportToJson path types) s).1 ≠ .ok () ∧
      ∀ p t, .wrote p t ∉ (run env T (.exportToJson path types) s).2.log := by
  refine ⟨C68_refuted_fetch hord T (.exportToJson path types) trivial s hs, fun p t h => ?_⟩
  rw [export_is_view hord T path types s hs] at h
  obtain ⟨_, e⟩ := C71_files env T .viewAll s hs.log p t h
  cases e

/-- **C71** is violated: `ImportFromJSON` never ends well, and no exchange with the daemon changes what it holds. -/
theorem C71_refuted_import {env : Env} (hb : HashOrder env.byteOrd) (hc : HashOrder env.charOrd) (hord : HashOrder env.mapOrd)
    (T : Term) (path : List Char) (s : Session) (hs : s.Fresh env) :
    (run env T (.importFromJson path) s).1 ≠ .ok () ∧
      ∀ before after, .talked before after ∈ (run env T (.importFromJson path) s).2.log → after.view = before.view := by
  rcases run_cases (run_holds hord (import_holds (T := T) hb hc hord path) hs) with ⟨_, h⟩ | ⟨hn, hq, _⟩
  · exact h.elim
  · exact ⟨hn, hq⟩

/-- **C70** is violated: whoever removes or updates an entry does not get what they asked for, however they choose and
whatever they confirm. -/
theorem C70_refuted_entry {env : Env} (hord : HashOrder env.mapOrd) (T : Term) (c : Command)
    (hc : c = .removeEntry ∨ c = .updateEntry) (s : Session) (hs : s.Fresh env) : (run env T c s).1 ≠ .ok () ∧
      ∀ before after, .talked before after ∈ (run env T c s).2.log → after.view = before.view := by
  have hf : c.Fetches := by rcases hc with rfl | rfl <;> trivial
  rcases run_cases (run_holds hord (fetch_holds (T := T) hord hf) hs) with ⟨_, h⟩ | ⟨hn, hq, _⟩
  · exact h.elim
  · exact ⟨hn, hq⟩

-- the sample session has the database `d` with the key `j`
example : (run sampleEnv sampleTerm (.exportToJson ['o'] true) (sampleStart [])).1 ≠ .ok () ∧ ∀ p t,
    .wrote p t ∉ (run sampleEnv sampleTerm (.exportToJson ['o'] true) (sampleStart [])).2.log :=
  C71_refuted_export (env := sampleEnv) (fun _ => .refl _) _ _ _ _ (Session.Fresh.of_history (fun _ => .refl _) _ _ _)
example : (run sampleEnv sampleTerm .removeEntry (sampleStart [.pick 0, .confirm true])).1 ≠ .ok () :=
  (C70_refuted_entry (env := sampleEnv) (fun _ => .refl _) _ _ (.inl rfl) _ (Session.Fresh.of_history (fun _ => .refl _) _ _ _)).1
example : ((sampleStart []).daemon.view ['d']).isSome = true := rfl

end Souris
