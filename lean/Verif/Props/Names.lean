import Verif.Props.Daemon

/-! # C43: which requests are to blame for a bad name -/

namespace Souris

/-- A database that is new after an operation was made by it. -/
theorem after_new {a : Abs} {op : Op} {n : List Char} (h : Abs.after a op n ≠ none) : a n ≠ none ∨
    (∃ o, op = .newDb n o ∧ Abs.GoodName n) ∨ (∃ o s, op = .newDbWith n o s) ∨ ∃ k o v, op = .addKv n k true o v := by
  have putted : ∀ {m : List Char} {x : Option AbsDb}, Abs.put a m x n ≠ none → n ≠ m → a n ≠ none := by
    intro m x h hne
    simp only [Abs.put, if_neg hne] at h
    exact h
  by_cases hn : a n = none
  · right
    cases op with
    | newDb m o =>
      simp only [Abs.after] at h
      split at h
      · next hg =>
        by_cases e : n = m
        · subst e; exact .inl ⟨o, rfl, hg⟩
        · exact absurd hn (putted h e)
      · exact absurd hn h
    | newDbWith m o s =>
      by_cases e : n = m
      · subst e; exact .inr (.inl ⟨o, s, rfl⟩)
      · exact absurd hn (putted h e)
    | clearDb m =>
      simp only [Abs.after] at h
      cases hm : a m with
      | some x =>
        rw [hm] at h
        by_cases e : n = m
        · subst e; rw [hn] at hm; cases hm
        · exact absurd hn (putted h e)
      | none => rw [hm] at h; exact absurd hn h
    | removeDb m io =>
      by_cases e : n = m
      · subst e; simp [Abs.after, Abs.put] at h
      · exact absurd hn (putted h e)
    | getDb m => exact absurd hn h
    | addKv m k c o v =>
      simp only [Abs.after] at h
      cases hm : a m with
      | some x =>
        rw [hm] at h
        simp only at h
        split at h
        · exact absurd hn h
        · by_cases e : n = m
          · subst e; rw [hn] at hm; cases hm
          · exact absurd hn (putted h e)
      | none =>
        rw [hm] at h
        simp only at h
        split at h
        · next hc =>
          by_cases e : n = m
          · subst e; subst hc; exact .inr (.inr ⟨k, o, v, rfl⟩)
          · exact absurd hn (putted h e)
        · exact absurd hn h
    | getValue m k => exact absurd hn h
    | removeKey m k =>
      simp only [Abs.after] at h
      cases hm : a m with
      | some x =>
        rw [hm] at h
        by_cases e : n = m
        · subst e; rw [hn] at hm; cases hm
        · exact absurd hn (putted h e)
      | none => rw [hm] at h; exact absurd hn h
    | allNames => exact absurd hn h
  · exact .inl hn

theorem afterAll_new {env : Env} (hs : List Happening) {a : Abs} {n : List Char} (h : Abs.afterAll env a hs n ≠ none) :
    a n ≠ none ∨ (∃ o, .request (.addDb n o) ∈ hs ∧ Abs.GoodName n) ∨
      ∃ k o body, .request (.addKv n k true o body) ∈ hs := by
  induction hs generalizing a with
  | nil => exact .inl h
  | cons x hs ih =>
    have later : ((∃ o, Happening.request (.addDb n o) ∈ hs ∧ Abs.GoodName n) ∨
        ∃ k o body, Happening.request (.addKv n k true o body) ∈ hs) →
        (∃ o, Happening.request (.addDb n o) ∈ x :: hs ∧ Abs.GoodName n) ∨
        ∃ k o body, Happening.request (.addKv n k true o body) ∈ x :: hs := by
      rintro (⟨o, h, g⟩ | ⟨k, o, b, h⟩)
      · exact .inl ⟨o, List.mem_cons_of_mem _ h, g⟩
      · exact .inr ⟨k, o, b, List.mem_cons_of_mem _ h⟩
    cases x with
    | evict m => exact (ih h).imp_right later
    | request r =>
      simp only [Abs.afterAll] at h
      cases e : r.route env with
      | inl reply => rw [e] at h; exact (ih h).imp_right later
      | inr op =>
        rw [e] at h
        rcases ih h with h1 | h1
        · rcases after_new h1 with h2 | ⟨o, rfl, g⟩ | ⟨o, s, rfl⟩ | ⟨k, o, v, rfl⟩
          · exact .inl h2
          · right; left
            cases r with
            | addDb m o' => cases e; exact ⟨o, List.mem_cons_self .., g⟩
            | addDbWithContent m o body =>
              simp only [Request.route] at e
              split at e <;> cases e
            | addKv m k c o body =>
              simp only [Request.route] at e
              split at e <;> cases e
            | _ => cases e
          · cases r with
            | addDbWithContent m o body =>
              simp only [Request.route] at e
              split at e
              · next s' hs' => exact absurd hs' (C33_refuted env body s')
              · cases e
              · cases e
            | addKv m k c o body =>
              simp only [Request.route] at e
              split at e <;> cases e
            | _ => cases e
          · right; right
            cases r with
            | addKv m k' c o' body =>
              simp only [Request.route] at e
              split at e
              · cases e; exact ⟨k, o, body, List.mem_cons_self ..⟩
              · cases e
              · cases e
            | addDbWithContent m o body =>
              simp only [Request.route] at e
              split at e <;> cases e
            | _ => cases e
        · exact .inr (later h1)

/-- C43: where databases come from. After any history, each was named by an `add_db` that found its name good, or by an
`add_kv` with `create_new_database=true`. Missing: that the latter looks at the name (`C43_refuted_any_name`). -/
theorem C43_origin_partial {env : Env} (hord : HashOrder env.mapOrd) (hs : List Happening) (n : List Char)
    (h : (Daemon.history env {} hs).view n ≠ none) :
    (∃ o, .request (.addDb n o) ∈ hs ∧ Abs.GoodName n) ∨ ∃ k o body, .request (.addKv n k true o body) ∈ hs := by
  obtain ⟨_, _, h3⟩ := history_sim hord hs {} DbsOk.nil (by intro n b h; cases h)
  rw [h3] at h
  rcases afterAll_new hs h with h | h
  · exact absurd rfl h
  · exact h

/-- C43, for each name: a database with a bad name was made by an `add_kv` with `create_new_database=true` that named it,
whatever other requests there were. -/
theorem C43_blame_partial {env : Env} (hord : HashOrder env.mapOrd) (hs : List Happening) (n : List Char)
    (h : (Daemon.history env {} hs).view n ≠ none) (hn : ¬ Abs.GoodName n) :
    ∃ k o body, .request (.addKv n k true o body) ∈ hs := by
  rcases C43_origin_partial hord hs n h with ⟨_, _, g⟩ | h
  · exact absurd g hn
  · exact h

/-- A history after which there is a database with a bad name. -/
example : (Daemon.history sampleEnv {} [.request (.addKv ['é'] ['k'] true false [0x90])]).view ['é'] ≠ none ∧
    ¬ Abs.GoodName ['é'] :=
  ⟨C43_refuted_any_name _ _ _, by simp [Abs.GoodName]⟩

end Souris
