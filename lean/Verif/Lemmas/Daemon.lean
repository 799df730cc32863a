import Verif.Spec.Daemon
import Verif.Lemmas.Store

/-! # Association lists, and the simulation of the daemon by a map of maps -/

namespace Souris

namespace AMap

variable {β : Type}

theorem get_insert (k k' : List Char) (v : β) (m : List (List Char × β)) :
    get k' (insert k v m) = if k' = k then some v else get k' m := by
  induction m with
  | nil =>
    simp only [insert, get]
    by_cases h : k' = k
    · simp [h]
    · have : ¬ k = k' := fun e => h e.symm
      simp [h, this]
  | cons e m ih =>
    obtain ⟨a, b⟩ := e
    by_cases h : a = k
    · subst h
      by_cases h' : k' = a
      · subst h'; simp [insert, get]
      · have : ¬ a = k' := fun e => h' e.symm
        simp [insert, get, h', this]
    · simp only [insert, if_neg h, get, ih]
      by_cases h' : k' = k
      · subst h'; simp [h]
      · simp [h']

theorem get_erase (k k' : List Char) (m : List (List Char × β)) :
    get k' (erase k m) = if k' = k then none else get k' m := by
  induction m with
  | nil => simp [erase, get]
  | cons e m ih =>
    obtain ⟨a, b⟩ := e
    by_cases h : a = k
    · subst h
      simp only [erase, if_pos, ih, get]
      by_cases h' : k' = a
      · simp [h']
      · have : ¬ a = k' := fun e => h' e.symm
        simp [h', this]
    · simp only [erase, if_neg h, get, ih]
      by_cases h' : k' = k
      · subst h'; simp [h]
      · simp [h']

theorem get_mem {k : List Char} {v : β} {m : List (List Char × β)} (h : get k m = some v) : (k, v) ∈ m := by
  induction m with
  | nil => cases h
  | cons e m ih =>
    obtain ⟨a, b⟩ := e
    simp only [get] at h
    split at h
    · next h' => cases h; subst h'; simp
    · exact List.mem_cons_of_mem _ (ih h)

theorem get_of_mem {k : List Char} {v : β} {m : List (List Char × β)} (hn : (m.map Prod.fst).Nodup)
    (h : (k, v) ∈ m) : get k m = some v := by
  induction m with
  | nil => cases h
  | cons e m ih =>
    obtain ⟨a, b⟩ := e
    simp only [List.map_cons, List.nodup_cons] at hn
    simp only [get]
    rcases List.mem_cons.mp h with h | h
    · cases h; simp
    · have : a ≠ k := by
        rintro rfl
        exact hn.1 (List.mem_map.mpr ⟨_, h, rfl⟩)
      rw [if_neg this]
      exact ih hn.2 h

theorem get_iff {k : List Char} {v : β} {m : List (List Char × β)} (hn : (m.map Prod.fst).Nodup) :
    get k m = some v ↔ (k, v) ∈ m := ⟨get_mem, get_of_mem hn⟩

theorem get_isSome {k : List Char} {m : List (List Char × β)} : (get k m).isSome ↔ k ∈ m.map Prod.fst := by
  induction m with
  | nil => simp [get]
  | cons e m ih =>
    obtain ⟨a, b⟩ := e
    simp only [get, List.map_cons, List.mem_cons]
    by_cases h : a = k
    · simp [h]
    · have : ¬ k = a := fun e => h e.symm
      simp [h, this, ih]

theorem keys_insert (k : List Char) (v : β) (m : List (List Char × β)) :
    (insert k v m).map Prod.fst = if k ∈ m.map Prod.fst then m.map Prod.fst else m.map Prod.fst ++ [k] := by
  induction m with
  | nil => simp [insert]
  | cons e m ih =>
    obtain ⟨a, b⟩ := e
    by_cases h : a = k
    · subst h; simp [insert]
    · have : ¬ k = a := fun e => h e.symm
      simp only [insert, if_neg h, List.map_cons, ih, List.mem_cons, this, false_or]
      split <;> simp

theorem nodup_insert {k : List Char} {v : β} {m : List (List Char × β)} (hn : (m.map Prod.fst).Nodup) :
    ((insert k v m).map Prod.fst).Nodup := by
  rw [keys_insert]
  split
  · exact hn
  · next h => exact List.nodup_append.mpr ⟨hn, by simp, by intro a ha b hb; simp at hb; rintro rfl; exact h (hb ▸ ha)⟩

theorem erase_sublist (k : List Char) (m : List (List Char × β)) : (erase k m).Sublist m := by
  induction m with
  | nil => exact List.Sublist.refl _
  | cons e m ih =>
    obtain ⟨a, b⟩ := e
    simp only [erase]
    split
    · exact ih.cons _
    · exact ih.cons_cons _

theorem nodup_erase {k : List Char} {m : List (List Char × β)} (hn : (m.map Prod.fst).Nodup) :
    ((erase k m).map Prod.fst).Nodup := hn.sublist ((erase_sublist k m).map _)

theorem mem_insert {k : List Char} {v : β} {m : List (List Char × β)} {e : List Char × β}
    (h : e ∈ insert k v m) : e = (k, v) ∨ e ∈ m := by
  induction m with
  | nil => simp [insert] at h; exact .inl h
  | cons x m ih =>
    obtain ⟨a, b⟩ := x
    simp only [insert] at h
    split at h
    · next h' =>
      rcases List.mem_cons.mp h with h | h
      · exact .inl (by rw [h, h'])
      · exact .inr (List.mem_cons_of_mem _ h)
    · rcases List.mem_cons.mp h with h | h
      · exact .inr (by rw [h]; simp)
      · rcases ih h with h | h
        · exact .inl h
        · exact .inr (List.mem_cons_of_mem _ h)

theorem get_perm {m m' : List (List Char × β)} (hn : (m.map Prod.fst).Nodup) (hp : m'.Perm m) (k : List Char) :
    get k m' = get k m := by
  have hn' : (m'.map Prod.fst).Nodup := (hp.map Prod.fst).nodup_iff.mpr hn
  cases h : get k m with
  | some v => exact get_of_mem hn' (hp.mem_iff.mpr (get_mem h))
  | none =>
    cases h' : get k m' with
    | none => rfl
    | some v =>
      rw [get_of_mem hn (hp.mem_iff.mp (get_mem h'))] at h
      cases h

end AMap

/-! ## Stores as maps -/

/-- The map of a store. -/
def absDb (s : Store) : AbsDb := fun k => AMap.get k s

/-- The map of maps of the databases. -/
def absDbs (dbs : Dbs) : Abs := fun n => (AMap.get n dbs).map absDb

theorem absDb_lists {s : Store} (h : (s.map Prod.fst).Nodup) : Abs.Lists s (absDb s) :=
  ⟨h, fun _ _ => (AMap.get_iff h).symm⟩

/-- The keys of the databases and of every store in them are different. -/
structure DbsOk (dbs : Dbs) : Prop where
  names : (dbs.map Prod.fst).Nodup
  keys : ∀ n s, (n, s) ∈ dbs → (s.map Prod.fst).Nodup

namespace DbsOk

theorem nil : DbsOk [] := ⟨List.nodup_nil, by intro n s h; cases h⟩

theorem insert {dbs : Dbs} (h : DbsOk dbs) {n : List Char} {s : Store} (hs : (s.map Prod.fst).Nodup) :
    DbsOk (AMap.insert n s dbs) := by
  refine ⟨AMap.nodup_insert h.names, fun n' s' hm => ?_⟩
  rcases AMap.mem_insert hm with e | e
  · cases e; exact hs
  · exact h.keys _ _ e

theorem erase {dbs : Dbs} (h : DbsOk dbs) (n : List Char) : DbsOk (AMap.erase n dbs) :=
  ⟨AMap.nodup_erase h.names, fun _ _ hm => h.keys _ _ ((AMap.erase_sublist n dbs).subset hm)⟩

theorem store {dbs : Dbs} (h : DbsOk dbs) {n : List Char} {s : Store} (e : AMap.get n dbs = some s) :
    (s.map Prod.fst).Nodup := h.keys _ _ (AMap.get_mem e)

end DbsOk

theorem storeInsert_nodup {env : Env} (hord : HashOrder env.mapOrd) {s : Store} (hs : (s.map Prod.fst).Nodup)
    (e : List Char × Value) : ((Dbs.storeInsert env s e).map Prod.fst).Nodup :=
  (((hord _).map Prod.fst).nodup_iff).mpr (AMap.nodup_insert hs)

theorem absDb_storeInsert {env : Env} (hord : HashOrder env.mapOrd) {s : Store} (hs : (s.map Prod.fst).Nodup)
    (k : List Char) (v : Value) : absDb (Dbs.storeInsert env s (k, v)) = Abs.put (absDb s) k (some v) := by
  funext x
  unfold absDb Dbs.storeInsert Abs.put
  rw [AMap.get_perm (AMap.nodup_insert hs) (hord _), AMap.get_insert]

theorem absDbs_insert (dbs : Dbs) (n : List Char) (s : Store) :
    absDbs (AMap.insert n s dbs) = Abs.put (absDbs dbs) n (some (absDb s)) := by
  funext x
  unfold absDbs Abs.put
  rw [AMap.get_insert]
  split <;> rfl

theorem absDbs_erase (dbs : Dbs) (n : List Char) : absDbs (AMap.erase n dbs) = Abs.put (absDbs dbs) n none := by
  funext x
  unfold absDbs Abs.put
  rw [AMap.get_erase]
  split <;> rfl

theorem absDb_insert (s : Store) (k : List Char) (v : Value) :
    absDb (AMap.insert k v s) = Abs.put (absDb s) k (some v) := by
  funext x
  unfold absDb Abs.put
  rw [AMap.get_insert]

theorem absDb_erase (s : Store) (k : List Char) : absDb (AMap.erase k s) = Abs.put (absDb s) k none := by
  funext x
  unfold absDb Abs.put
  rw [AMap.get_erase]

theorem absDb_nil : absDb [] = Abs.empty := rfl

theorem put_self {β : Type} (f : List Char → β) (a : List Char) (b : β) (h : f a = b) : Abs.put f a b = f := by
  funext x
  unfold Abs.put
  split
  · next e => rw [e, h]
  · rfl

/-- Inserting the entries of a store one by one. -/
theorem foldl_storeInsert {env : Env} (hord : HashOrder env.mapOrd) (c : Store) :
    ∀ s : Store, (s.map Prod.fst).Nodup → (c.map Prod.fst).Nodup →
      ((c.foldl (Dbs.storeInsert env) s).map Prod.fst).Nodup ∧
      absDb (c.foldl (Dbs.storeInsert env) s) = Abs.extend (absDb s) c := by
  induction c with
  | nil => intro s hs _; exact ⟨hs, rfl⟩
  | cons e c ih =>
    intro s hs hc
    obtain ⟨k, v⟩ := e
    simp only [List.map_cons, List.nodup_cons] at hc
    obtain ⟨h1, h2⟩ := ih (Dbs.storeInsert env s (k, v)) (storeInsert_nodup hord hs _) hc.2
    refine ⟨h1, ?_⟩
    rw [List.foldl_cons, h2, absDb_storeInsert hord hs]
    funext x
    unfold Abs.extend
    rw [List.find?_cons]
    by_cases h : k = x
    · subst h
      have : c.find? (fun e => decide (e.1 = k)) = none := by
        rw [List.find?_eq_none]
        intro e he
        simp only [decide_eq_true_eq]
        rintro rfl
        exact hc.1 (List.mem_map.mpr ⟨e, he, rfl⟩)
      rw [this]
      simp [Abs.put]
    · have h' : ¬ x = k := fun e => h e.symm
      simp only [h, decide_false, Abs.put, h', if_false]

theorem absDb_extend {c : Store} : absDb c = Abs.extend Abs.empty c := by
  funext x
  unfold absDb Abs.extend
  induction c with
  | nil => rfl
  | cons e c ih =>
    obtain ⟨k, v⟩ := e
    rw [List.find?_cons]
    simp only [AMap.get]
    by_cases h : k = x
    · simp [h]
    · simp only [h, decide_false, if_false]
      exact ih

theorem badName_iff (n : List Char) : badName n = true ↔ ¬ Abs.GoodName n := by
  unfold badName Abs.GoodName isAscii
  have : kMeta = "meta".toList := by decide
  rw [this]
  generalize "meta".toList = w
  by_cases h : n = w
  · simp [h]
  · have hb : (n == w) = false := by simpa using h
    rw [hb, Bool.false_or]
    simp [h]

/-! ## The simulation -/

/-- The contents given to `newDbWith` is a `HashMap`: its keys are different. -/
def Op.Ok : Op → Prop
  | .newDbWith _ _ c => (c.map Prod.fst).Nodup
  | _ => True

/-- What `exec` may change: the databases go on satisfying `DbsOk`, and change as the maps do. -/
theorem exec_dbs {env : Env} (hord : HashOrder env.mapOrd) {d : Daemon} (h : DbsOk d.dbs) {op : Op} (hop : op.Ok) :
    DbsOk (d.exec env op).2.dbs ∧ absDbs (d.exec env op).2.dbs = (absDbs d.dbs).after op := by
  cases op with
  | newDb n o =>
    simp only [Daemon.exec, Daemon.newDb, Abs.after]
    by_cases hb : badName n
    · rw [if_pos hb, if_neg ((badName_iff n).mp hb)]
      exact ⟨h, rfl⟩
    · have hg : Abs.GoodName n := by
        by_contra hg
        exact hb ((badName_iff n).mpr hg)
      rw [if_neg hb, if_pos hg]
      simp only [Daemon.invalidate, Dbs.newDb]
      cases hn : AMap.get n d.dbs with
      | none =>
        simp only
        refine ⟨h.insert List.nodup_nil, ?_⟩
        rw [absDbs_insert, absDb_nil]
        simp [absDbs, hn]
      | some s =>
        simp only
        cases o with
        | true =>
          refine ⟨h.insert List.nodup_nil, ?_⟩
          simp only [if_true]
          rw [absDbs_insert, absDb_nil]
        | false =>
          refine ⟨h, ?_⟩
          simp only [Bool.false_eq_true, if_false]
          rw [put_self _ _ _ (by simp [absDbs, hn])]
  | newDbWith n o c =>
    simp only [Daemon.exec, Daemon.newDbWith, Daemon.invalidate, Dbs.newDbWith, Abs.after]
    have hcur : (((AMap.get n d.dbs).getD []).map Prod.fst).Nodup := by
      cases hn : AMap.get n d.dbs with
      | none => simp
      | some s => exact h.store hn
    have habs : absDb ((AMap.get n d.dbs).getD []) = (absDbs d.dbs n).getD Abs.empty := by
      unfold absDbs
      cases hn : AMap.get n d.dbs <;> rfl
    cases o with
    | true =>
      simp only [if_true]
      exact ⟨h.insert hop, by rw [absDbs_insert, absDb_extend]⟩
    | false =>
      simp only [Bool.false_eq_true, if_false]
      obtain ⟨h1, h2⟩ := foldl_storeInsert hord c _ hcur hop
      exact ⟨h.insert h1, by rw [absDbs_insert, h2, habs]⟩
  | clearDb n =>
    simp only [Daemon.exec, Daemon.clearDb, Daemon.invalidate, Dbs.clearDb, Abs.after]
    cases hn : AMap.get n d.dbs with
    | none => simp only [absDbs, hn, Option.map_none]; exact ⟨h, trivial⟩
    | some s =>
      simp only
      refine ⟨h.insert List.nodup_nil, ?_⟩
      rw [absDbs_insert, absDb_nil]
      simp [absDbs, hn]
  | removeDb n io =>
    simp only [Daemon.exec, Daemon.removeDb, Daemon.invalidate, Dbs.removeDb, Abs.after]
    cases hn : AMap.get n d.dbs with
    | none =>
      simp only
      exact ⟨h, by rw [put_self _ _ _ (by simp [absDbs, hn])]⟩
    | some s => exact ⟨h.erase n, absDbs_erase _ _⟩
  | getDb n =>
    simp only [Daemon.exec, Daemon.getDb, Abs.after]
    split
    · exact ⟨h, rfl⟩
    · split <;> exact ⟨h, rfl⟩
  | addKv n k c o v =>
    simp only [Daemon.exec, Daemon.addKv, Daemon.invalidate, Dbs.addKv, Abs.after]
    cases hn : AMap.get n d.dbs with
    | none =>
      simp only [absDbs, hn, Option.map_none]
      cases c with
      | false => exact ⟨h, rfl⟩
      | true =>
        simp only [if_true]
        refine ⟨h.insert (storeInsert_nodup hord (by simp) _), ?_⟩
        have := absDbs_insert d.dbs n (Dbs.storeInsert env [] (k, v))
        rw [absDb_storeInsert hord (by simp), absDb_nil] at this
        exact this
    | some s =>
      have hs := h.store hn
      simp only [absDbs, hn, Option.map_some]
      have hk : absDb s k = AMap.get k s := rfl
      rw [hk]
      cases hv : AMap.get k s with
      | none =>
        simp only [Option.isSome_none, Bool.false_eq_true, false_and, if_false]
        refine ⟨h.insert (storeInsert_nodup hord hs _), ?_⟩
        have := absDbs_insert d.dbs n (Dbs.storeInsert env s (k, v))
        rw [absDb_storeInsert hord hs] at this
        exact this
      | some w =>
        simp only [Option.isSome_some, true_and]
        cases o with
        | false => exact ⟨h, rfl⟩
        | true =>
          simp only [if_true, not_true, if_false]
          refine ⟨h.insert (AMap.nodup_insert hs), ?_⟩
          have := absDbs_insert d.dbs n (AMap.insert k v s)
          rw [absDb_insert] at this
          exact this
  | getValue n k => exact ⟨h, rfl⟩
  | removeKey n k =>
    simp only [Daemon.exec, Daemon.removeKey, Daemon.invalidate, Dbs.removeKey, Abs.after]
    cases hn : AMap.get n d.dbs with
    | none => simp only [absDbs, hn, Option.map_none]; exact ⟨h, trivial⟩
    | some s =>
      have hs := h.store hn
      simp only [absDbs, hn, Option.map_some]
      cases hv : AMap.get k s with
      | none =>
        simp only
        refine ⟨h, ?_⟩
        rw [put_self (absDb s) _ _ hv]
        have : Abs.put (absDbs d.dbs) n (some (absDb s)) = absDbs d.dbs :=
          put_self _ _ _ (by simp [absDbs, hn])
        exact this.symm
      | some w =>
        simp only
        refine ⟨h.insert (AMap.nodup_erase hs), ?_⟩
        have := absDbs_insert d.dbs n (AMap.erase k s)
        rw [absDb_erase] at this
        exact this
  | allNames => exact ⟨h, rfl⟩

/-- The cache holds what serialising the databases gives. -/
def CacheOk (env : Env) (d : Daemon) : Prop :=
  ∀ n b, AMap.get n d.cache = some b → ∃ s, AMap.get n d.dbs = some s ∧ Store.ser env s = .ok b

theorem cacheOk_of {env : Env} {d d' : Daemon} {n : List Char} (h : CacheOk env d)
    (hc : ∀ x, x ≠ n → AMap.get x d'.cache = AMap.get x d.cache) (hn : AMap.get n d'.cache = none)
    (hd : ∀ x, x ≠ n → AMap.get x d'.dbs = AMap.get x d.dbs) : CacheOk env d' := by
  intro x b hb
  have hx : x ≠ n := by rintro rfl; rw [hn] at hb; cases hb
  rw [hc x hx] at hb
  rw [hd x hx]
  exact h x b hb

theorem exec_cache {env : Env} {d : Daemon} (h : CacheOk env d) (op : Op) : CacheOk env (d.exec env op).2 := by
  have he : ∀ n x, x ≠ n → AMap.get x (AMap.erase n d.cache) = AMap.get x d.cache := by
    intro n x hx; rw [AMap.get_erase, if_neg hx]
  have he' : ∀ n, AMap.get n (AMap.erase n d.cache) = none := by
    intro n; rw [AMap.get_erase, if_pos rfl]
  have hi : ∀ n (s : Store) x, x ≠ n → AMap.get x (AMap.insert n s d.dbs) = AMap.get x d.dbs := by
    intro n s x hx; rw [AMap.get_insert, if_neg hx]
  cases op with
  | newDb n o =>
    simp only [Daemon.exec, Daemon.newDb]
    split
    · exact h
    · refine cacheOk_of (n := n) h (he n) (he' n) (fun x hx => ?_)
      simp only [Daemon.invalidate, Dbs.newDb]
      split
      · split
        · exact hi _ _ _ hx
        · rfl
      · exact hi _ _ _ hx
  | newDbWith n o c => exact cacheOk_of (n := n) h (he n) (he' n) (fun x hx => hi _ _ _ hx)
  | clearDb n =>
    refine cacheOk_of (n := n) h (he n) (he' n) (fun x hx => ?_)
    simp only [Daemon.exec, Daemon.clearDb, Daemon.invalidate, Dbs.clearDb]
    split
    · exact hi _ _ _ hx
    · rfl
  | removeDb n io =>
    simp only [Daemon.exec, Daemon.removeDb, Daemon.invalidate]
    split
    · exact cacheOk_of (n := n) h (he n) (he' n) (fun x hx => rfl)
    · next dbs e =>
      refine cacheOk_of (n := n) h (he n) (he' n) (fun x hx => ?_)
      unfold Dbs.removeDb at e
      split at e
      · cases e
        show AMap.get x (AMap.erase n d.dbs) = _
        rw [AMap.get_erase, if_neg hx]
      · cases e
  | getDb n =>
    simp only [Daemon.exec, Daemon.getDb]
    split
    · exact h
    · split
      · next hnone _ b e =>
        intro x b' hb
        simp only [AMap.get_insert] at hb
        split at hb
        · next hx =>
          cases hb
          subst hx
          unfold Dbs.getDb at e
          split at e
          · cases e
          · next db hdb =>
            refine ⟨db, hdb, ?_⟩
            split at e
            · next b2 hs => cases e; exact hs
            · cases e
            · cases e
        · exact h x b' hb
      · exact h
  | addKv n k c o v =>
    refine cacheOk_of (n := n) h (he n) (he' n) (fun x hx => ?_)
    simp only [Daemon.exec, Daemon.addKv, Daemon.invalidate, Dbs.addKv]
    split
    · split
      · split
        · exact hi _ _ _ hx
        · rfl
      · exact hi _ _ _ hx
    · split
      · exact hi _ _ _ hx
      · rfl
  | getValue n k => exact h
  | removeKey n k =>
    refine cacheOk_of (n := n) h (he n) (he' n) (fun x hx => ?_)
    simp only [Daemon.exec, Daemon.removeKey, Daemon.invalidate, Dbs.removeKey]
    split
    · rfl
    · split
      · exact hi _ _ _ hx
      · rfl
  | allNames => exact h

end Souris
