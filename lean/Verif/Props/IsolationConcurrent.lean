import Verif.Props.Isolation
import Verif.Lemmas.Concurrent

/-! # C81 under concurrency: what others do with other databases cannot be seen -/

namespace Souris

/-- The event belongs to a request that names the database `x`, or drops its cached copy. -/
def Ev.Concerns (x : List Char) (evs : List Ev) (e : Ev) : Prop :=
  e = .evict x ∨ ∃ t op, e.task = some t ∧ .call t op ∈ evs ∧ op.names x

namespace AMap

variable {β : Type}

/-- The entries under one key. -/
def only (x : List Char) (l : List (List Char × β)) : List (List Char × β) := l.filter fun e => e.1 = x

theorem get_only (x : List Char) (l : List (List Char × β)) : get x (only x l) = get x l := by
  induction l with
  | nil => rfl
  | cons e l ih =>
    obtain ⟨k, v⟩ := e
    by_cases h : k = x
    · simp [only, get, h]
    · have hf : only x ((k, v) :: l) = only x l := by simp [only, h]
      rw [hf, ih]
      simp [get, h]

theorem only_insert_self (x : List Char) (v : β) (l : List (List Char × β)) :
    only x (insert x v l) = insert x v (only x l) := by
  induction l with
  | nil => simp [only, insert]
  | cons e l ih =>
    obtain ⟨k, w⟩ := e
    by_cases h : k = x
    · simp [only, insert, h]
    · have hf : ∀ l' : List (List Char × β), only x ((k, w) :: l') = only x l' := by intro l'; simp [only, h]
      rw [hf, ← ih]
      simp only [insert, if_neg h]
      rw [hf]

theorem only_insert_ne {x n : List Char} (hn : n ≠ x) (v : β) (l : List (List Char × β)) :
    only x (insert n v l) = only x l := by
  induction l with
  | nil => simp [only, insert, hn]
  | cons e l ih =>
    obtain ⟨k, w⟩ := e
    by_cases h : k = n
    · subst h; simp [only, insert, hn]
    · simp only [insert, if_neg h]
      simp only [only, List.filter_cons] at ih ⊢
      rw [ih]

theorem only_erase_self (x : List Char) (l : List (List Char × β)) : only x (erase x l) = erase x (only x l) := by
  induction l with
  | nil => rfl
  | cons e l ih =>
    obtain ⟨k, w⟩ := e
    by_cases h : k = x
    · have hf : only x ((k, w) :: l) = (k, w) :: only x l := by simp [only, h]
      rw [hf]
      simp only [erase, if_pos h, ih]
    · have hf : ∀ l' : List (List Char × β), only x ((k, w) :: l') = only x l' := by intro l'; simp [only, h]
      rw [hf, ← ih]
      simp only [erase, if_neg h]
      rw [hf]

theorem only_erase_ne {x n : List Char} (hn : n ≠ x) (l : List (List Char × β)) : only x (erase n l) = only x l := by
  induction l with
  | nil => rfl
  | cons e l ih =>
    obtain ⟨k, w⟩ := e
    by_cases h : k = n
    · subst h; simp only [erase, if_pos, ih]; simp [only, hn]
    · simp only [erase, if_neg h]
      simp only [only, List.filter_cons] at ih ⊢
      rw [ih]

end AMap

/-- A method does the same with the one database it names alone. -/
theorem Op.act_only (env : Env) {op : Op} {x : List Char} (h : op.names x) (dbs : Dbs) :
    op.act env (AMap.only x dbs) = ((op.act env dbs).1, AMap.only x (op.act env dbs).2) := by
  cases op with
  | allNames => cases h
  | newDb n o =>
    cases h
    simp only [Op.act, Dbs.newDb, AMap.get_only]
    cases AMap.get x dbs with
    | none => simp only [AMap.only_insert_self]
    | some _ => cases o <;> simp only [AMap.only_insert_self, if_true, Bool.false_eq_true, if_false]
  | newDbWith n o s => cases h; simp only [Op.act, Dbs.newDbWith, AMap.get_only, AMap.only_insert_self]
  | clearDb n =>
    cases h
    simp only [Op.act, Dbs.clearDb, AMap.get_only]
    cases AMap.get x dbs <;> simp only [AMap.only_insert_self]
  | removeDb n io =>
    cases h
    simp only [Op.act, Dbs.removeDb, AMap.get_only]
    cases AMap.get x dbs <;> simp only [AMap.only_erase_self]
  | getDb n => cases h; simp only [Op.act, Dbs.getDb, AMap.get_only]
  | getValue n k => cases h; simp only [Op.act, Dbs.getValue, AMap.get_only]
  | removeKey n k =>
    cases h
    simp only [Op.act, Dbs.removeKey, AMap.get_only]
    cases AMap.get x dbs with
    | none => rfl
    | some db => cases hk : AMap.get k db <;> simp only [hk, AMap.only_insert_self]
  | addKv n k c o v =>
    cases h
    simp only [Op.act, Dbs.addKv, AMap.get_only]
    cases AMap.get x dbs with
    | none => cases c <;> simp [AMap.only_insert_self]
    | some db =>
      cases hk : AMap.get k db with
      | none => simp only [hk, AMap.only_insert_self]
      | some _ => cases o <;> simp [hk, AMap.only_insert_self]

/-- A method leaves the databases alone that it does not name. -/
theorem Op.act_only_ne (env : Env) {op : Op} {x : List Char} (h : ¬ op.names x) (dbs : Dbs) :
    AMap.only x (op.act env dbs).2 = AMap.only x dbs := by
  have hne : ∀ {n : List Char}, ¬ (x = n) → n ≠ x := fun h e => h e.symm
  cases op with
  | allNames => rfl
  | newDb n o =>
    simp only [Op.act, Dbs.newDb]
    cases AMap.get n dbs with
    | none => exact AMap.only_insert_ne (hne h) _ _
    | some _ => cases o <;> simp [AMap.only_insert_ne (hne h)]
  | newDbWith n o s => exact AMap.only_insert_ne (hne h) _ _
  | clearDb n =>
    simp only [Op.act, Dbs.clearDb]
    cases AMap.get n dbs <;> simp [AMap.only_insert_ne (hne h)]
  | removeDb n io =>
    simp only [Op.act, Dbs.removeDb]
    cases AMap.get n dbs <;> simp [AMap.only_erase_ne (hne h)]
  | getDb n => rfl
  | getValue n k => rfl
  | removeKey n k =>
    simp only [Op.act, Dbs.removeKey]
    cases AMap.get n dbs with
    | none => rfl
    | some db => cases hk : AMap.get k db <;> simp [hk, AMap.only_insert_ne (hne h)]
  | addKv n k c o v =>
    simp only [Op.act, Dbs.addKv]
    cases AMap.get n dbs with
    | none => cases c <;> simp [AMap.only_insert_ne (hne h)]
    | some db =>
      cases hk : AMap.get k db with
      | none => simp [hk, AMap.only_insert_ne (hne h)]
      | some _ => cases o <;> simp [hk, AMap.only_insert_ne (hne h)]

/-- `p` is `c` without the tasks that do not name `x` and without the other databases. -/
structure Only (x : List Char) (c p : Conf) : Prop where
  dbs : p.dbs = AMap.only x c.dbs
  cache : p.cache = AMap.only x c.cache
  lock : ∀ t, p.lock = some t → c.lock = some t ∧ ∃ op pc, c.tasks t = some (op, pc) ∧ op.names x
  kept : ∀ t op pc, c.tasks t = some (op, pc) → op.names x → p.tasks t = some (op, pc)
  free : ∀ t, c.tasks t = none → p.tasks t = none
  gone : ∀ t op pc, c.tasks t = some (op, pc) → ¬ op.names x → p.tasks t = none

/-- A step of a task that names `x` is possible in `p` as well. -/
theorem Only.step {env : Env} {x : List Char} {c p c' : Conf} {e : Ev} {evs : List Ev} (h : Only x c p) (ti : TaskInv c evs)
    (hs : Step env c e c') :
    (e.Concerns x (evs ++ [e]) → ∃ p', Step env p e p' ∧ Only x c' p') ∧ (¬ e.Concerns x (evs ++ [e]) → Only x c' p) := by
  -- what the event concerns
  have hcon : ∀ {t : Nat} {op : Op} {pc : Pc}, c.tasks t = some (op, pc) → e.task = some t →
      (e.Concerns x (evs ++ [e]) ↔ op.names x) := by
    intro t op pc ht he
    constructor
    · rintro (rfl | ⟨t', op', ht', hc', hn'⟩)
      · cases he
      · rw [he] at ht'
        cases ht'
        rcases List.mem_append.mp hc' with hc' | hc'
        · obtain ⟨pc', h'⟩ := ti.running _ _ hc'
          rw [ht] at h'
          cases h'
          exact hn'
        · cases List.mem_singleton.mp hc'
          cases hs with
          | call _ h' => rw [ht] at h'; cases h'
    · intro hn
      exact .inr ⟨t, op, he, List.mem_append_left _ (ti.called _ _ _ ht), hn⟩
  -- tasks after a step of the task `t`
  have hkeep : ∀ {t : Nat} {op : Op} {pc pc' : Pc} {c₁ p₁ : Conf}, c.tasks t = some (op, pc) → op.names x →
      c₁.tasks = c.tasks → p₁.tasks = p.tasks → p₁.dbs = AMap.only x c₁.dbs → p₁.cache = AMap.only x c₁.cache →
      (∀ t', p₁.lock = some t' → c₁.lock = some t' ∧ ((t' = t) ∨ p.lock = some t')) →
      Only x (c₁.set t op pc') (p₁.set t op pc') := by
    intro t op pc pc' c₁ p₁ ht hn h1 h2 h3 h4 h5
    refine ⟨h3, h4, ?_, ?_, ?_, ?_⟩
    · intro t' hl
      obtain ⟨h6, h7⟩ := h5 t' hl
      refine ⟨h6, ?_⟩
      by_cases e : t' = t
      · exact ⟨op, pc', by simp [Conf.set, e], hn⟩
      · obtain ⟨_, o, q, h8, h9⟩ := h.lock t' (h7.resolve_left e)
        exact ⟨o, q, by simp [Conf.set, e, h1, h8], h9⟩
    · intro t' o q h6 h7
      by_cases e : t' = t
      · simp only [Conf.set, e, if_true] at h6 ⊢; exact h6
      · simp only [Conf.set, e, if_false, h1, h2] at h6 ⊢; exact h.kept _ _ _ h6 h7
    · intro t' h6
      by_cases e : t' = t
      · simp [Conf.set, e] at h6
      · simp only [Conf.set, e, if_false, h1, h2] at h6 ⊢; exact h.free _ h6
    · intro t' o q h6 h7
      by_cases e : t' = t
      · simp only [Conf.set, e, if_true, Option.some.injEq, Prod.mk.injEq] at h6
        exact absurd (h6.1 ▸ hn) h7
      · simp only [Conf.set, e, if_false, h1, h2] at h6 ⊢; exact h.gone _ _ _ h6 h7
  -- tasks after a step of a task that is not in `p`
  have hdrop : ∀ {t : Nat} {op : Op} {pc pc' : Pc} {c₁ : Conf}, c.tasks t = some (op, pc) → ¬ op.names x →
      c₁.tasks = c.tasks → AMap.only x c₁.dbs = AMap.only x c.dbs → AMap.only x c₁.cache = AMap.only x c.cache →
      (∀ t', c.lock = some t' → t' ≠ t → c₁.lock = some t') → Only x (c₁.set t op pc') p := by
    intro t op pc pc' c₁ ht hn h1 h3 h4 h5
    refine ⟨h.dbs.trans h3.symm, h.cache.trans h4.symm, ?_, ?_, ?_, ?_⟩
    · intro t' hl
      obtain ⟨h6, o, q, h7, h8⟩ := h.lock t' hl
      have e : t' ≠ t := by rintro rfl; rw [ht] at h7; cases h7; exact hn h8
      exact ⟨h5 t' h6 e, o, q, by simp [Conf.set, e, h1, h7], h8⟩
    · intro t' o q h6 h7
      by_cases e : t' = t
      · simp only [Conf.set, e, if_true, Option.some.injEq, Prod.mk.injEq] at h6
        exact absurd (h6.1 ▸ h7) hn
      · simp only [Conf.set, e, if_false, h1] at h6; exact h.kept _ _ _ h6 h7
    · intro t' h6
      by_cases e : t' = t
      · simp [Conf.set, e] at h6
      · simp only [Conf.set, e, if_false, h1] at h6; exact h.free _ h6
    · intro t' o q h6 h7
      by_cases e : t' = t
      · exact e ▸ h.gone _ _ _ ht hn
      · simp only [Conf.set, e, if_false, h1] at h6; exact h.gone _ _ _ h6 h7
  have hl0 : ∀ {t : Nat}, ∀ t', p.lock = some t' → c.lock = some t' ∧ (t' = t ∨ p.lock = some t') :=
    fun t' hl => ⟨(h.lock t' hl).1, .inr hl⟩
  -- who gives the lock back had it
  have hexcl : ∀ {t : Nat} {op : Op} {pc : Pc}, c.tasks t = some (op, pc) → pc.holds →
      ∀ t', c.lock = some t' → t' ≠ t → (none : Option Nat) = some t' := by
    intro t op pc ht hh t' hl hne
    rw [ti.exclusive _ _ _ ht hh] at hl
    exact absurd (Option.some.inj hl).symm hne
  have hcase : ∀ {t : Nat} {op : Op} {pc : Pc}, c.tasks t = some (op, pc) → e.task = some t →
      (op.names x → ∃ p', Step env p e p' ∧ Only x c' p') → (¬ op.names x → Only x c' p) →
      (e.Concerns x (evs ++ [e]) → ∃ p', Step env p e p' ∧ Only x c' p') ∧ (¬ e.Concerns x (evs ++ [e]) → Only x c' p) := by
    intro t op pc ht he h1 h2
    rw [hcon ht he]
    exact ⟨h1, h2⟩
  cases hs with
  | @call t op ht =>
    have hc : (Ev.call t op).Concerns x (evs ++ [.call t op]) ↔ op.names x := by
      constructor
      · rintro (h' | ⟨t', op', ht', hc', hn'⟩)
        · cases h'
        · cases ht'
          rcases List.mem_append.mp hc' with hc' | hc'
          · exact absurd rfl (ti.fresh _ ht _ hc')
          · cases List.mem_singleton.mp hc'; exact hn'
      · intro hn; exact .inr ⟨t, op, rfl, by simp, hn⟩
    have hlk : ∀ t', p.lock = some t' → c.lock = some t' ∧ ∃ o q, (c.set t op .start).tasks t' = some (o, q) ∧ o.names x := by
      intro t' hl
      obtain ⟨h6, o, q, h7, h8⟩ := h.lock t' hl
      have e : t' ≠ t := by rintro rfl; rw [ht] at h7; cases h7
      exact ⟨h6, o, q, by simp [Conf.set, e, h7], h8⟩
    rw [hc]
    constructor
    · intro hn
      refine ⟨_, .call op (h.free _ ht), h.dbs, h.cache, hlk, ?_, ?_, ?_⟩
      · intro t' o q h6 h7
        by_cases e : t' = t
        · simp only [Conf.set, e, if_true] at h6 ⊢; exact h6
        · simp only [Conf.set, e, if_false] at h6 ⊢; exact h.kept _ _ _ h6 h7
      · intro t' h6
        by_cases e : t' = t
        · simp [Conf.set, e] at h6
        · simp only [Conf.set, e, if_false] at h6 ⊢; exact h.free _ h6
      · intro t' o q h6 h7
        by_cases e : t' = t
        · simp only [Conf.set, e, if_true, Option.some.injEq, Prod.mk.injEq] at h6
          exact absurd (h6.1 ▸ hn) h7
        · simp only [Conf.set, e, if_false] at h6 ⊢; exact h.gone _ _ _ h6 h7
    · intro hn
      refine ⟨h.dbs, h.cache, hlk, ?_, ?_, ?_⟩
      · intro t' o q h6 h7
        by_cases e : t' = t
        · simp only [Conf.set, e, if_true, Option.some.injEq, Prod.mk.injEq] at h6
          exact absurd (h6.1 ▸ h7) hn
        · simp only [Conf.set, e, if_false] at h6; exact h.kept _ _ _ h6 h7
      · intro t' h6
        by_cases e : t' = t
        · simp [Conf.set, e] at h6
        · simp only [Conf.set, e, if_false] at h6; exact h.free _ h6
      · intro t' o q h6 h7
        by_cases e : t' = t
        · exact e ▸ h.free _ ht
        · simp only [Conf.set, e, if_false] at h6; exact h.gone _ _ _ h6 h7
  | @refuse t n o ht hb =>
    exact hcase ht rfl (fun hn => ⟨_, .refuse (h.kept _ _ _ ht hn) hb, hkeep ht hn rfl rfl h.dbs h.cache hl0⟩)
      (fun hn => hdrop ht hn rfl rfl rfl fun _ hl _ => hl)
  | @invalidate t op n ht hi =>
    have hnn : op.names x ↔ x = n := by cases op <;> simp_all [Op.invalidates, Op.names]
    refine hcase ht rfl (fun hn => ⟨_, .invalidate (h.kept _ _ _ ht hn) hi, hkeep ht hn rfl rfl h.dbs ?_ hl0⟩)
      (fun hn => hdrop ht hn rfl rfl ?_ fun _ hl _ => hl)
    · cases hnn.mp hn
      show AMap.erase x p.cache = AMap.only x (AMap.erase x c.cache)
      rw [AMap.only_erase_self, h.cache]
    · exact AMap.only_erase_ne (fun e => hn (hnn.mpr e.symm)) _
  | @hit t n b ht hc =>
    refine hcase ht rfl (fun hn => ⟨_, .hit (h.kept _ _ _ ht hn) ?_, hkeep ht hn rfl rfl h.dbs h.cache hl0⟩)
      (fun hn => hdrop ht hn rfl rfl rfl fun _ hl _ => hl)
    cases hn
    rw [h.cache, AMap.get_only]; exact hc
  | @miss t n ht hc =>
    refine hcase ht rfl (fun hn => ⟨_, .miss (h.kept _ _ _ ht hn) ?_, hkeep ht hn rfl rfl h.dbs h.cache hl0⟩)
      (fun hn => hdrop ht hn rfl rfl rfl fun _ hl _ => hl)
    cases hn
    rw [h.cache, AMap.get_only]; exact hc
  | @acquire t op pc ht ha hl =>
    refine hcase ht rfl (fun hn => ⟨_, .acquire (h.kept _ _ _ ht hn) ha ?_, hkeep ht hn rfl rfl h.dbs h.cache ?_⟩)
      (fun hn => hdrop ht hn rfl rfl rfl ?_)
    · cases e : p.lock with
      | none => rfl
      | some t' => rw [(h.lock t' e).1] at hl; cases hl
    · intro t' h'
      exact ⟨h', .inl (Option.some.inj h').symm⟩
    · intro t' h'
      rw [hl] at h'; cases h'
  | @act t op ht =>
    refine hcase ht rfl (fun hn => ?_) (fun hn => hdrop ht hn rfl (Op.act_only_ne env hn _) rfl fun _ hl _ => hl)
    have ha := Op.act_only env hn c.dbs
    have hstep := Step.act (env := env) (h.kept _ _ _ ht hn)
    rw [h.dbs, ha] at hstep
    exact ⟨_, hstep, hkeep ht hn rfl rfl rfl h.cache hl0⟩
  | @uncache t n o r ht =>
    refine hcase ht rfl (fun hn => ⟨_, .uncache (h.kept _ _ _ ht hn), hkeep ht hn rfl rfl h.dbs ?_ hl0⟩)
      (fun hn => hdrop ht hn rfl rfl ?_ fun _ hl _ => hl)
    · cases hn
      show AMap.erase x p.cache = AMap.only x (AMap.erase x c.cache)
      rw [AMap.only_erase_self, h.cache]
    · exact AMap.only_erase_ne (fun e => hn e.symm) _
  | @fill t n b ht =>
    refine hcase ht rfl (fun hn => ⟨_, .fill (h.kept _ _ _ ht hn), hkeep ht hn rfl rfl h.dbs ?_ hl0⟩)
      (fun hn => hdrop ht hn rfl rfl ?_ fun _ hl _ => hl)
    · cases hn
      show AMap.insert x b p.cache = AMap.only x (AMap.insert x b c.cache)
      rw [AMap.only_insert_self, h.cache]
    · exact AMap.only_insert_ne (fun e => hn e.symm) _ _
  | @ret t op pc r ht hr =>
    have hh : pc.holds := by
      cases op <;> simp only [Op.returns] at hr
      case getDb n => rcases hr with h | ⟨h, _⟩ <;> simp [h, Pc.holds]
      case removeDb n io => simp [hr.1, Pc.holds]
      all_goals simp [hr, Pc.holds]
    exact hcase ht rfl (fun hn => ⟨_, .ret (h.kept _ _ _ ht hn) hr, hkeep ht hn rfl rfl h.dbs h.cache
        (by intro t' hl; cases hl)⟩)
      (fun hn => hdrop ht hn rfl rfl rfl (hexcl ht hh))
  | @drop t n io ht =>
    exact hcase ht rfl (fun hn => ⟨_, .drop (h.kept _ _ _ ht hn), hkeep ht hn rfl rfl h.dbs h.cache
        (by intro t' hl; cases hl)⟩)
      (fun hn => hdrop ht hn rfl rfl rfl (hexcl ht trivial))
  | @unlink t n io ht =>
    exact hcase ht rfl (fun hn => ⟨_, .unlink (h.kept _ _ _ ht hn), hkeep ht hn rfl rfl h.dbs h.cache hl0⟩)
      (fun hn => hdrop ht hn rfl rfl rfl fun _ hl _ => hl)
  | @cancel t op pc ht ha =>
    exact hcase ht rfl (fun hn => ⟨_, .cancel (h.kept _ _ _ ht hn) ha, hkeep ht hn rfl rfl h.dbs h.cache hl0⟩)
      (fun hn => hdrop ht hn rfl rfl rfl fun _ hl _ => hl)
  | @cancelLocked t op r ht ha =>
    exact hcase ht rfl (fun hn => ⟨_, .cancelLocked (h.kept _ _ _ ht hn) ha, hkeep ht hn rfl rfl h.dbs h.cache
        (by intro t' hl; cases hl)⟩)
      (fun hn => hdrop ht hn rfl rfl rfl (hexcl ht trivial))
  | evict n =>
    have hc : (Ev.evict n).Concerns x (evs ++ [.evict n]) ↔ n = x := by
      constructor
      · rintro (h' | ⟨_, _, h', _⟩)
        · cases h'; rfl
        · cases h'
      · rintro rfl; exact .inl rfl
    rw [hc]
    constructor
    · rintro rfl
      refine ⟨_, .evict n, h.dbs, ?_, h.lock, h.kept, h.free, h.gone⟩
      show AMap.erase n p.cache = AMap.only n (AMap.erase n c.cache)
      rw [AMap.only_erase_self, h.cache]
    · intro hn
      exact ⟨h.dbs, h.cache.trans (AMap.only_erase_ne hn _).symm, h.lock, h.kept, h.free, h.gone⟩

open Classical in
/-- C81, with requests at the same time: take any run and leave out all that others do with other databases (and the
lists of names). What is left is a run of a daemon that has only this database: its requests may do the same in the
same order, with the same replies, and the database holds the same in the end. -/
theorem C81_concurrent {env : Env} {dbs : Dbs} {tr : Trace} (hr : Run env (Conf.init dbs) tr) (x : List Char) :
    ∃ tr', Run env (Conf.init (dbs.filter fun e => e.1 = x)) tr' ∧
      tr'.events = tr.events.filter (fun e => e.Concerns x tr.events) ∧
      (Trace.last (Conf.init (dbs.filter fun e => e.1 = x)) tr').dbs =
        (Trace.last (Conf.init dbs) tr).dbs.filter (fun e => e.1 = x) := by
  suffices h : ∃ tr', Run env (Conf.init (AMap.only x dbs)) tr' ∧
      tr'.events = tr.events.filter (fun e => e.Concerns x tr.events) ∧
      Only x (Trace.last (Conf.init dbs) tr) (Trace.last (Conf.init (AMap.only x dbs)) tr') by
    obtain ⟨tr', h1, h2, h3⟩ := h
    exact ⟨tr', h1, h2, h3.dbs⟩
  induction hr with
  | nil =>
    refine ⟨[], .nil, rfl, rfl, rfl, ?_, ?_, ?_, ?_⟩
    · intro t h; cases h
    · intro t op pc h; cases h
    · intro t _; rfl
    · intro t op pc h; cases h
  | @snoc tr e c' hr hs ih =>
    obtain ⟨tr', h1, h2, h3⟩ := ih
    have ti := hr.taskInv
    have hst := h3.step ti hs
    rw [Trace.last_snoc, Trace.events_snoc]
    have hold : ∀ e' ∈ tr.events, (e'.Concerns x (tr.events ++ [e]) ↔ e'.Concerns x tr.events) := by
      intro e' he'
      constructor
      · rintro (h | ⟨t, op, ht, hc, hn⟩)
        · exact .inl h
        · rcases List.mem_append.mp hc with hc | hc
          · exact .inr ⟨t, op, ht, hc, hn⟩
          · cases List.mem_singleton.mp hc
            cases hs with
            | call _ h' => exact absurd ht (ti.fresh _ h' _ he')
      · rintro (h | ⟨t, op, ht, hc, hn⟩)
        · exact .inl h
        · exact .inr ⟨t, op, ht, List.mem_append_left _ hc, hn⟩
    have hf : (tr.events ++ [e]).filter (fun e' => e'.Concerns x (tr.events ++ [e])) =
        tr'.events ++ [e].filter (fun e' => e'.Concerns x (tr.events ++ [e])) := by
      rw [List.filter_append, h2]
      congr 1
      exact List.filter_congr fun e' he' => by simp only [hold e' he']
    by_cases hcn : e.Concerns x (tr.events ++ [e])
    · obtain ⟨p', h4, h5⟩ := hst.1 hcn
      refine ⟨tr' ++ [(e, p')], h1.snoc h4, ?_, ?_⟩
      · rw [hf, Trace.events_snoc]; simp [hcn]
      · rw [Trace.last_snoc]; exact h5
    · refine ⟨tr', h1, ?_, hst.2 hcn⟩
      rw [hf]; simp [hcn]

/-- Two databases in use at the same time: a key of the first is read while the second is being cleared. -/
example (env : Env) : ∃ tr, Run env (Conf.init [(['a'], []), (['b'], [])]) tr ∧
    tr.events = [.call 0 (.getValue ['a'] ['k']), .call 1 (.clearDb ['b']), .invalidate 1, .acquire 0, .act 0,
      .ret 0 (.error .keyNotFound)] ∧
    Ev.Concerns ['a'] tr.events (.ret 0 (.error .keyNotFound)) ∧ ¬ Ev.Concerns ['a'] tr.events (.invalidate 1) := by
  have h1 := Run.snoc (env := env) (c := Conf.init [(['a'], []), (['b'], [])]) .nil (.call (t := 0) (.getValue ['a'] ['k']) rfl)
  have h2 := h1.snoc (.call (t := 1) (.clearDb ['b']) rfl)
  have h3 := h2.snoc (.invalidate (t := 1) (op := .clearDb ['b']) (n := ['b']) rfl rfl)
  have h4 := h3.snoc (.acquire (t := 0) (op := .getValue ['a'] ['k']) (pc := .start) rfl rfl rfl)
  have h5 := h4.snoc (.act (t := 0) (op := .getValue ['a'] ['k']) rfl)
  have h6 := h5.snoc (.ret (t := 0) (op := .getValue ['a'] ['k']) (r := .error .keyNotFound) rfl rfl)
  refine ⟨_, h6, rfl, .inr ⟨0, .getValue ['a'] ['k'], rfl, .head _, rfl⟩, ?_⟩
  rintro (h | ⟨t, op, ht, hc, hn⟩)
  · cases h
  · cases ht
    simp [Trace.events] at hc
    subst hc
    exact absurd (show ['a'] = ['b'] from hn) (by decide)

end Souris
