import Verif.Props.Daemon

/-! # C81: replies depend only on what was asked of the same database; C82: retries -/

namespace Souris

open Value

/-- The request names this database. -/
def Request.on (x : List Char) : Request → Bool
  | .healthcheck | .allNames => false
  | .getDb n | .addDb n _ | .addDbWithContent n _ _ | .rmDb n _ | .clearDb n | .addKv n _ _ _ _ | .rmKv n _
  | .getValue n _ => n = x

/-- It is a request that names this database. -/
def Happening.on (x : List Char) : Happening → Bool
  | .request r => r.on x
  | .evict _ => false

/-- Two replies that a client cannot tell apart: they are equal, or files of the same database (the order of the
keys in a file is that of a hash map). -/
def Reply.Same (env : Env) (r r' : Reply) : Prop :=
  r = r' ∨ ∃ b b' s s' m, r = .bytes b ∧ r' = .bytes b' ∧ Store.ser env s = .ok b ∧ Store.ser env s' = .ok b' ∧
    Abs.Lists s m ∧ Abs.Lists s' m

namespace Abs

theorem put_ne {β : Type} (f : List Char → β) {a x : List Char} (b : β) (h : a ≠ x) : put f a b x = f x := by
  unfold put
  rw [if_neg]
  exact fun e => h e.symm

theorem put_self {β : Type} (f : List Char → β) (a : List Char) (b : β) : put f a b a = b := if_pos rfl

/-- An operation leaves the databases it does not name alone. -/
theorem after_ne (a : Abs) {op : Op} {x : List Char} (h : ¬ op.names x) : a.after op x = a x := by
  cases op with
  | getDb | getValue | allNames => rfl
  | newDb n o =>
    simp only [after]
    split
    · exact put_ne _ _ fun e => h e.symm
    · rfl
  | newDbWith n o s => exact put_ne _ _ fun e => h e.symm
  | clearDb n =>
    simp only [after]
    cases a n with
    | some _ => exact put_ne _ _ fun e => h e.symm
    | none => rfl
  | removeDb n _ => exact put_ne _ _ fun e => h e.symm
  | addKv n k c o v =>
    simp only [after]
    cases a n with
    | some m =>
      by_cases hk : (m k).isSome ∧ ¬ o
      · simp only [if_pos hk]
      · simp only [if_neg hk]; exact put_ne _ _ fun e => h e.symm
    | none =>
      cases c
      · rfl
      · exact put_ne _ _ fun e => h e.symm
  | removeKey n k =>
    simp only [after]
    cases a n with
    | some _ => exact put_ne _ _ fun e => h e.symm
    | none => rfl

/-- What it does to the database it names depends on that database only. -/
theorem after_congr {a a' : Abs} {op : Op} {x : List Char} (h : a x = a' x) : a.after op x = a'.after op x := by
  by_cases hx : op.names x
  · cases op with
    | getDb | getValue | allNames => exact h
    | newDb n o =>
      cases hx
      simp only [after]
      split
      · rw [put_self, put_self, h]
      · exact h
    | newDbWith n o s => cases hx; simp only [after, put_self, h]
    | clearDb n =>
      cases hx
      simp only [after, ← h]
      cases e : a x with
      | some _ => simp only [put_self]
      | none => simp only [← h, e]
    | removeDb n _ => cases hx; simp only [after, put_self]
    | addKv n k c o v =>
      cases hx
      simp only [after, ← h]
      cases e : a x with
      | some m =>
        by_cases hk : (m k).isSome ∧ ¬ o
        · simp only [if_pos hk]; exact h
        · simp only [if_neg hk, put_self]
      | none =>
        cases c
        · exact h
        · simp only [if_true, put_self]
    | removeKey n k =>
      cases hx
      simp only [after, ← h]
      cases e : a x with
      | some _ => simp only [put_self]
      | none => simp only [← h, e]
  · rw [after_ne a hx, after_ne a' hx, h]

/-- So do the replies to it. -/
theorem answers_congr {env : Env} {a a' : Abs} {op : Op} {x : List Char} (hx : op.names x) (h : a x = a' x) {r r' : Reply}
    (hr : a.Answers env op r) (hr' : a'.Answers env op r') (hop : ∀ n o s, op ≠ .newDbWith n o s) : r.Same env r' := by
  cases op with
  | allNames => cases hx
  | newDbWith n o s => exact absurd rfl (hop n o s)
  | newDb n o =>
    cases hx
    simp only [Answers, ← h] at hr hr'
    split at hr <;> rename_i hg
    · rw [if_pos hg] at hr'; exact .inl (hr.trans hr'.symm)
    · rw [if_neg hg] at hr'; exact .inl (hr.trans hr'.symm)
  | clearDb n =>
    cases hx
    simp only [Answers, ← h] at hr hr'
    split at hr <;> rename_i hg
    · rw [if_pos hg] at hr'; exact .inl (hr.trans hr'.symm)
    · rw [if_neg hg] at hr'; exact .inl (hr.trans hr'.symm)
  | removeDb n io =>
    cases hx
    simp only [Answers, ← h] at hr hr'
    by_cases h1 : (a x).isSome
    · rw [if_pos h1] at hr hr'
      by_cases h2 : io = .failed
      · rw [if_pos h2] at hr hr'; exact .inl (hr.trans hr'.symm)
      · rw [if_neg h2] at hr hr'; exact .inl (hr.trans hr'.symm)
    · rw [if_neg h1] at hr hr'; exact .inl (hr.trans hr'.symm)
  | getDb n =>
    cases hx
    simp only [Answers, ← h] at hr hr'
    cases e : a x with
    | none => rw [e] at hr hr'; exact .inl (hr.trans hr'.symm)
    | some m =>
      rw [e] at hr hr'
      obtain ⟨s, b, h1, h2, h3⟩ := hr
      obtain ⟨s', b', h1', h2', h3'⟩ := hr'
      exact .inr ⟨b, b', s, s', m, h1, h1', h2, h2', h3, h3'⟩
  | addKv n k c o v =>
    cases hx
    simp only [Answers, ← h] at hr hr'
    cases e : a x with
    | none => rw [e] at hr hr'; exact .inl (hr.trans hr'.symm)
    | some m =>
      rw [e] at hr hr'
      simp only at hr hr'
      split at hr <;> rename_i hg
      · rw [if_pos hg] at hr'; exact .inl (hr.trans hr'.symm)
      · rw [if_neg hg] at hr'; exact .inl (hr.trans hr'.symm)
  | getValue n k =>
    cases hx
    simp only [Answers, ← h] at hr hr'
    cases e : a x with
    | none => rw [e] at hr hr'; exact .inl (hr.trans hr'.symm)
    | some m =>
      rw [e] at hr hr'
      simp only at hr hr'
      cases e : m k <;> rw [e] at hr hr' <;> exact .inl (hr.trans hr'.symm)
  | removeKey n k =>
    cases hx
    simp only [Answers, ← h] at hr hr'
    cases e : a x with
    | none => rw [e] at hr hr'; exact .inl (hr.trans hr'.symm)
    | some m =>
      rw [e] at hr hr'
      simp only at hr hr'
      split at hr <;> rename_i hg
      · rw [if_pos hg] at hr'; exact .inl (hr.trans hr'.symm)
      · rw [if_neg hg] at hr'; exact .inl (hr.trans hr'.symm)

end Abs

/-- The operation of a request names the database of the request, and never brings a whole database. -/
theorem route_names {env : Env} {r : Request} {op : Op} (e : r.route env = .inr op) :
    (∀ x, op.names x ↔ r.on x = true) ∧ ∀ n o s, op ≠ .newDbWith n o s := by
  have hsymm : ∀ n x : List Char, x = n ↔ decide (n = x) = true := fun n x => by
    rw [decide_eq_true_eq]; exact eq_comm
  cases r with
  | healthcheck => cases e
  | addDbWithContent n o body =>
    simp only [Request.route] at e
    cases h : Store.deser env body with
    | ok s => exact absurd h (C33_refuted env body s)
    | err _ => rw [h] at e; cases e
    | panic _ => rw [h] at e; cases e
  | addKv n k c o body =>
    simp only [Request.route] at e
    cases h : Value.deser env none (Cursor.new body) with
    | ok x => rw [h] at e; cases e; exact ⟨fun x => hsymm n x, fun _ _ _ h => by cases h⟩
    | err _ => rw [h] at e; cases e
    | panic _ => rw [h] at e; cases e
  | allNames => cases e; exact ⟨fun x => ⟨fun h => h.elim, fun h => by cases h⟩, fun _ _ _ h => by cases h⟩
  | getDb n => cases e; exact ⟨fun x => hsymm n x, fun _ _ _ h => by cases h⟩
  | addDb n _ => cases e; exact ⟨fun x => hsymm n x, fun _ _ _ h => by cases h⟩
  | rmDb n _ => cases e; exact ⟨fun x => hsymm n x, fun _ _ _ h => by cases h⟩
  | clearDb n => cases e; exact ⟨fun x => hsymm n x, fun _ _ _ h => by cases h⟩
  | rmKv n _ => cases e; exact ⟨fun x => hsymm n x, fun _ _ _ h => by cases h⟩
  | getValue n _ => cases e; exact ⟨fun x => hsymm n x, fun _ _ _ h => by cases h⟩

theorem afterAll_filter (env : Env) (x : List Char) (hs : List Happening) {a a' : Abs} (h : a x = a' x) :
    Abs.afterAll env a hs x = Abs.afterAll env a' (hs.filter (Happening.on x)) x := by
  induction hs generalizing a a' with
  | nil => exact h
  | cons y hs ih =>
    cases y with
    | evict n => exact ih h
    | request r =>
      by_cases hx : Happening.on x (.request r) = true
      · rw [List.filter_cons_of_pos hx]
        cases e : r.route env with
        | inl reply => simp only [Abs.afterAll, e]; exact ih h
        | inr op => simp only [Abs.afterAll, e]; exact ih (Abs.after_congr h)
      · rw [List.filter_cons_of_neg hx]
        cases e : r.route env with
        | inl reply => simp only [Abs.afterAll, e]; exact ih h
        | inr op =>
          simp only [Abs.afterAll, e]
          exact ih ((Abs.after_ne a fun hn => hx (((route_names e).1 x).mp hn)).trans h)

/-- C81: the reply to a request about a database depends on nothing but the requests about that database that came
before it, and their order. Requests about other databases, reads of the list of names, evictions from the cache,
and where all of these came in between, make no difference. -/
theorem C81_isolated {env : Env} (hb : HashOrder env.byteOrd) (hc : HashOrder env.charOrd) (hord : HashOrder env.mapOrd)
    {x : List Char} {r : Request} (hr : r.on x = true) {hs hs' : List Happening}
    (he : hs.filter (Happening.on x) = hs'.filter (Happening.on x)) :
    Reply.Same env ((Daemon.history env {} hs).handle env r).1 ((Daemon.history env {} hs').handle env r).1 := by
  have h1 := C37_requests_partial hb hc hord hs r
  have h2 := C37_requests_partial hb hc hord hs' r
  cases e : r.route env with
  | inl reply =>
    rw [e] at h1 h2
    simp only at h1 h2
    rw [h1, h2]
    exact .inl rfl
  | inr op =>
    rw [e] at h1 h2
    obtain ⟨hn, hop⟩ := route_names e
    refine Abs.answers_congr ((hn x).mpr hr) ?_ h1.1 h2.1 hop
    rw [afterAll_filter env x hs (a' := fun _ => none) rfl, he, ← afterAll_filter env x hs' (a := fun _ => none) rfl]

/-- C81: what the database holds depends on nothing else, either. -/
theorem C81_contents {env : Env} (hord : HashOrder env.mapOrd) (x : List Char) {hs hs' : List Happening}
    (he : hs.filter (Happening.on x) = hs'.filter (Happening.on x)) :
    (Daemon.history env {} hs).view x = (Daemon.history env {} hs').view x := by
  have h1 := (history_sim hord hs {} DbsOk.nil (by intro n b h; cases h)).2.2
  have h2 := (history_sim hord hs' {} DbsOk.nil (by intro n b h; cases h)).2.2
  rw [h1, h2]
  show Abs.afterAll env (fun _ => none) hs x = Abs.afterAll env (fun _ => none) hs' x
  rw [afterAll_filter env x hs (a' := fun _ => none) rfl, he, ← afterAll_filter env x hs' (a := fun _ => none) rfl]

/-! ## C82 -/

/-- C82: a request that is sent twice in a row leaves the databases as if it had been sent once. -/
theorem C82_retry {env : Env} (hord : HashOrder env.mapOrd) (hs : List Happening) (r : Request) :
    (Daemon.history env {} (hs ++ [.request r, .request r])).view =
      (Daemon.history env {} (hs ++ [.request r])).view := by
  have h1 := (history_sim hord (hs ++ [.request r, .request r]) {} DbsOk.nil (by intro n b h; cases h)).2.2
  have h2 := (history_sim hord (hs ++ [.request r]) {} DbsOk.nil (by intro n b h; cases h)).2.2
  rw [h1, h2]
  have happ : ∀ (hs hs' : List Happening) (a : Abs),
      Abs.afterAll env a (hs ++ hs') = Abs.afterAll env (Abs.afterAll env a hs) hs' := by
    intro hs hs'
    induction hs with
    | nil => intro a; rfl
    | cons y hs ih =>
      intro a
      cases y with
      | evict n => exact ih a
      | request r =>
        simp only [List.cons_append, Abs.afterAll]
        split <;> exact ih _
  rw [happ, happ]
  generalize Abs.afterAll env _ hs = a
  cases e : r.route env with
  | inl _ => simp only [Abs.afterAll, e]
  | inr op =>
    simp only [Abs.afterAll, e]
    have hop := (route_names e).2
    have hput : ∀ {β : Type} (f : List Char → β) (n : List Char) (b b' : β), Abs.put (Abs.put f n b) n b' = Abs.put f n b' := by
      intro β f n b b'
      funext y
      unfold Abs.put
      split <;> rfl
    cases op with
    | newDbWith n o s => exact absurd rfl (hop n o s)
    | getDb | getValue | allNames => rfl
    | newDb n o =>
      simp only [Abs.after]
      split
      · rw [hput, Abs.put_self]
        cases o <;> simp
      · rfl
    | clearDb n =>
      simp only [Abs.after]
      cases h : a n with
      | none => simp only [h]
      | some m => simp only [Abs.put_self, hput]
    | removeDb n _ => simp only [Abs.after, hput]
    | addKv n k c o v =>
      simp only [Abs.after]
      cases h : a n with
      | none =>
        cases c with
        | true => simp only [if_true, Abs.put_self, hput]; split <;> rfl
        | false => simp [h]
      | some m =>
        by_cases hk : (m k).isSome ∧ ¬ o
        · simp only [if_pos hk, h]
        · simp only [if_neg hk, Abs.put_self, hput]; split <;> rfl
    | removeKey n k =>
      simp only [Abs.after]
      cases h : a n with
      | none => simp only [h]
      | some m => simp only [Abs.put_self, hput]

/-- Two databases used in turn, a failing request and an eviction: the reply about `d` is that of the history without
them. -/
example : ((Daemon.history sampleEnv {} [.request (.addDb ['e'] false), .request (.addDb ['d'] false),
      .request (.addKv ['e'] ['k'] false false [0x90]), .request (.addKv ['d'] ['k'] false false [0x31]), .evict ['d'],
      .request (.rmDb ['e'] .done), .request .allNames]).handle sampleEnv (.getValue ['d'] ['k'])).1 =
    .value (.boolean true) := by
  have h := C81_isolated (env := sampleEnv) (fun _ => .refl _) (fun _ => .refl _) (fun _ => .refl _) (x := ['d'])
    (r := .getValue ['d'] ['k']) rfl
    (hs := [.request (.addDb ['e'] false), .request (.addDb ['d'] false),
      .request (.addKv ['e'] ['k'] false false [0x90]), .request (.addKv ['d'] ['k'] false false [0x31]), .evict ['d'],
      .request (.rmDb ['e'] .done), .request .allNames])
    (hs' := [.request (.addDb ['d'] false), .request (.addKv ['d'] ['k'] false false [0x31])]) (by simp [Happening.on, Request.on])
  rcases h with h | ⟨b, b', s, s', m, h1, _⟩
  · rw [h]; rfl
  · rw [show ∀ d : Daemon, (d.handle sampleEnv (.getValue ['d'] ['k'])).1 = Dbs.getValue ['d'] ['k'] d.dbs from fun _ => rfl] at h1
    exact absurd h1 (by unfold Dbs.getValue; split <;> (try split) <;> simp)

end Souris
