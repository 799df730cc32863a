import Verif.Props.MouseChoice

/-! # Removing and updating keys with `mouse` works, once a database has been fetched (C70) -/

namespace Souris

open Mouse Cli Value

theorem pickKey_of {store : Store} {i : Nat} {k : List Char} {rest : List Answer} {s : Session} (hk : (store.map Prod.fst)[i]? = some k)
    (e : s.script = .pick i :: rest) : pickKey store s = (.ok k, { s with script := rest }) := by
  have hi : i < store.length := by simpa using (List.getElem?_eq_some_iff.mp hk).1
  unfold pickKey
  rw [cli_bind_of (dialog_of (select_iff.mpr ⟨hi, e⟩))]
  simp only [hk]
  rfl

theorem removeEntry_present (env : Env) {d : Daemon} {n k : List Char} {m : List Char → Option Value} (hm : d.view n = some m)
    (hv : m k ≠ none) : ∃ x, (Client.Sync.removeEntryFromDb env n k d).1 = .ok x := by
  unfold Daemon.view at hm
  rw [Option.map_eq_some_iff] at hm
  obtain ⟨s, hs, rfl⟩ := hm
  obtain ⟨x, hx⟩ := Option.ne_none_iff_exists'.mp hv
  refine ⟨(), ?_⟩
  simp only [Client.Sync.removeEntryFromDb, Client.request, Daemon.handle, Request.route, Daemon.exec, Daemon.removeKey, Daemon.invalidate, Dbs.removeKey, hs]
  rw [show AMap.get k s = some x from hx]
  rfl

/-- C70: whoever picks a key of the database that was fetched and agrees gets it removed, if it is still there.
(`RemoveEntry` never gets that far, `C68_refuted_fetch`.) -/
theorem C70_remove_entry_works {env : Env} (hord : HashOrder env.mapOrd) (name : List Char) (store : Store) (s : Session)
    (hs : s.Fresh env) {i : Nat} {k : List Char} {rest : List Answer} (hk : (store.map Prod.fst)[i]? = some k)
    (e : s.script = .pick i :: .confirm true :: rest) {m : List Char → Option Value}
    (hm : (s.daemon.history env (s.others.headD [])).view name = some m) (hv : m k ≠ none) :
    (removeFrom env name store s).1 = .ok () ∧ (removeFrom env name store s).2.script = rest ∧
      (removeFrom env name store s).2.log.getLast? = some (.said .removedKey) ∧
      (removeFrom env name store s).2.daemon.view =
        Abs.put (s.daemon.history env (s.others.headD [])).view name (some (Abs.put m k none)) := by
  have hne : store ≠ [] := by
    rintro rfl
    cases hk
  unfold removeFrom
  rw [if_neg hne, cli_bind_of (pickKey_of hk e), cli_bind_of (ask_of (rest := rest) rfl)]
  simp only [if_true]
  generalize hs2 : (⟨rest, s.daemon, s.others, _⟩ : Session) = s2
  have e2 : s2.next env = s.daemon.history env (s.others.headD []) := by rw [← hs2]; rfl
  have h3 : Sound env (s2.next env) := by
    rw [← hs2]
    exact next_sound hord (s := ⟨rest, s.daemon, s.others, _⟩) ⟨hs.dbs, hs.cache⟩
  obtain ⟨_, h⟩ := removeEntryFromDb_ok hord h3 name k
  cases e7 : (Client.Sync.removeEntryFromDb env name k (s2.next env)).1 with
  | panic p => rw [e7] at h; exact h.elim
  | err x =>
    rw [e7] at h
    exfalso
    rw [e2] at e7
    obtain ⟨x, hx⟩ := removeEntry_present env hm hv
    rw [hx] at e7
    cases e7
  | ok c =>
    rw [e7] at h
    rw [cli_bind_of (call_of e7)]
    obtain ⟨m', x, h1, _, h2⟩ := h
    have h1 : (s.daemon.history env (s.others.headD [])).view name = some m' := by rw [← e2]; exact h1
    rw [hm, Option.some.injEq] at h1
    subst h1
    refine ⟨rfl, by rw [← hs2]; rfl, ?_, by rw [← e2]; exact h2⟩
    simp [tell]

/-- C70, partial: whoever picks a key of the database that was fetched, types a value and agrees gets this value
stored. Missing: the values that the format does not carry, see C26. (`UpdateEntry` never gets that far,
`C68_refuted_fetch`.) -/
theorem C70_update_entry_works_partial {env : Env} (hlz : env.lz.Lossless) (hb : HashOrder env.byteOrd) (hord : HashOrder env.mapOrd)
    (T : Term) (name : List Char) (store : Store) (s : Session) (hs : s.Fresh env) {i : Nat} {k : List Char} {v : Value}
    {spelled rest : List Answer} (hk : (store.map Prod.fst)[i]? = some k) (hp : Spells env T v spelled)
    (hv : Storable env none v) (hlen : ∀ bytes, Value.ser env none v = .ok bytes → bytes.length < 2 ^ 64)
    (e : s.script = .pick i :: (spelled ++ .confirm true :: rest)) :
    (updateIn env T name store s).1 = .ok () ∧ (updateIn env T name store s).2.script = rest ∧
      ∃ w, (updateIn env T name store s).2.daemon.Fetches env name k w ∧ SameAs v w := by
  have hne : store ≠ [] := by
    rintro rfl
    cases hk
  obtain ⟨bytes, w, e1, e2, e3, e4⟩ := C26_stable_partial hlz hb hv
  have e5 := e3 [] [] (by simpa using hlen _ e1)
  simp only [List.nil_append, List.append_nil, List.length_nil] at e5
  unfold updateIn
  rw [if_neg hne, cli_bind_of (pickKey_of hk e),
    cli_bind_of (dialog_of ((C65_entry_partial env T _ v (.confirm true :: rest)).mpr ⟨spelled, rfl, hp⟩)), cli_bind_of (ask_of (rest := rest) rfl)]
  simp only [if_true]
  generalize hs2 : (⟨rest, s.daemon, s.others, _⟩ : Session) = s2
  have h3 : Sound env (s2.next env) := by
    rw [← hs2]
    exact next_sound hord (s := ⟨rest, s.daemon, s.others, _⟩) ⟨hs.dbs, hs.cache⟩
  obtain ⟨_, h⟩ := addEntryToDb_ok hb hord h3 name k v
  cases e7 : (Client.Sync.addEntryToDb env name true true k v (s2.next env)).1 with
  | panic p => rw [e7] at h; exact h.elim
  | err x => rw [e7] at h; exact absurd e5 (h.2 bytes _ e1)
  | ok c =>
    rw [e7] at h
    obtain ⟨_, _, _, w', bytes', r', e8, e9, e10⟩ := h
    have e11 : w' = w := by
      rw [e1, Out.ok.injEq] at e8
      subst e8
      exact (Prod.mk.inj (Out.ok.inj (e9.symm.trans e5))).1
    subst e11
    rw [cli_bind_of (call_of e7)]
    refine ⟨rfl, by rw [← hs2]; rfl, w', fetches_of_view ?_ e4 e5, e2⟩
    show ((Client.Sync.addEntryToDb env name true true k v (s2.next env)).2.view name).bind (· k) = some w'
    rw [e10]
    simp [Abs.put]

/-- C70: of an empty database there is nothing to pick: nothing is asked, nothing changes. -/
theorem C70_empty_database (env : Env) (T : Term) (name : List Char) (s : Session) :
    removeFrom env name [] s = (.ok (), { s with log := s.log ++ [.said .alreadyEmpty] }) ∧
    updateIn env T name [] s = (.ok (), { s with log := s.log ++ [.said .isEmpty] }) := ⟨rfl, rfl⟩

-- a session that `C70_remove_entry_works` is about: the database `d` has the key `j`
example : (sampleStart [.pick 0, .confirm true]).Fresh sampleEnv ∧
    ∃ m, ((sampleStart [.pick 0, .confirm true]).daemon.history sampleEnv []).view ['d'] = some m ∧ m ['j'] = some (.boolean true) :=
  ⟨Session.Fresh.of_history (fun _ => .refl _) _ _ _, _, rfl, rfl⟩

example : ((removeFrom sampleEnv ['d'] [(['j'], .boolean true)] (sampleStart [.pick 0, .confirm true])).2.daemon.dbs.map
    fun e => (e.1, e.2.map Prod.fst)) = [(['d'], [])] := rfl

end Souris
