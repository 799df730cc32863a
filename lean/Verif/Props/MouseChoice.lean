import Verif.Props.Mouse

/-! # What the prompts of `mouse` offer, and that it works: C70, C71 -/

namespace Souris

open Mouse Cli Value

/-! ## Steps of a run -/

theorem cli_bind_of {α β : Type} {x : Cli α} {f : α → Cli β} {s t : Session} {a : α} (h : x s = (.ok a, t)) :
    (x >>= f) s = f a t := by
  have e : (x >>= f) s = match x s with
    | (.ok a, s) => f a s
    | (.err e, s) => (.err e, s)
    | (.panic p, s) => (.panic p, s) := rfl
  rw [e, h]

theorem dialog_of {α : Type} {d : Entry α} {s : Session} {a : α} {rest : List Answer} (h : d s.script = .ok (a, rest)) :
    dialog d s = (.ok a, { s with script := rest }) := by
  rw [dialog_apply, h]

theorem dialog_ok {α : Type} {d : Entry α} {s t : Session} {a : α} (h : dialog d s = (.ok a, t)) :
    d s.script = .ok (a, t.script) := by
  rw [dialog_apply] at h
  cases e : d s.script with
  | ok x => rw [e] at h; cases h; rfl
  | err x => rw [e] at h; cases h
  | panic x => rw [e] at h; cases h

theorem ask_of {q : Question} {s : Session} {b : Bool} {rest : List Answer} (h : s.script = .confirm b :: rest) :
    ask q s = (.ok b, { s with script := rest, log := s.log ++ [.asked q b] }) := by
  unfold ask
  rw [cli_bind_of (dialog_of (confirm_iff.mpr h))]
  rfl

theorem ask_at (q : Question) (b : Bool) (rest : List Answer) (d : Daemon) (o : List (List Happening)) (l : List Event) :
    ask q ⟨.confirm b :: rest, d, o, l⟩ = (.ok b, ⟨rest, d, o, l ++ [.asked q b]⟩) := ask_of rfl

theorem tell_bind {β : Type} (e : Event) (f : Unit → Cli β) (s : Session) :
    (tell e >>= f) s = f () { s with log := s.log ++ [e] } := rfl

theorem ask_ok {q : Question} {s t : Session} {b : Bool} (h : ask q s = (.ok b, t)) : s.script = .confirm b :: t.script := by
  obtain ⟨b', u, e1, e2⟩ := cli_bind_ok h
  obtain ⟨_, w, e3, e4⟩ := cli_bind_ok e2
  cases e3
  cases e4
  have := confirm_iff.mp (dialog_ok e1)
  exact this

theorem newName_of {names : List (List Char)} {r : List Char} {used : List Answer} (h : ChosenNew names r used) :
    ∀ (s : Session) (rest : List Answer) (k : Nat), s.script = used ++ rest → s.script.length < k →
      ∃ l, newName names k s = (.ok r, { s with script := rest, log := s.log ++ l }) := by
  induction h with
  | @fresh n as h hr hn =>
    rintro s rest (_ | k) e hk
    · omega
    refine ⟨[], ?_⟩
    unfold newName
    rw [cli_bind_of (dialog_of ((input_iff stringOf_iff).mpr ⟨as, e, h⟩)), if_neg (show n ≠ kMeta from hr), if_pos hn,
      List.append_nil]
    rfl
  | @overwrite n as h hr hn =>
    rintro s rest (_ | k) e hk
    · omega
    refine ⟨[.asked .overwriteExisting true], ?_⟩
    unfold newName
    rw [List.append_assoc] at e
    rw [cli_bind_of (dialog_of ((input_iff stringOf_iff).mpr ⟨as, e, h⟩)), if_neg (show n ≠ kMeta from hr),
      if_neg (by simpa using hn), cli_bind_of (ask_of rfl)]
    rfl
  | @reserved n as bs h _ ih =>
    rintro s rest (_ | k) e hk
    · omega
    rw [List.append_assoc] at e
    have hlen : (bs ++ rest).length < k := by
      have := List.length_pos_iff.mpr (Typed.ne_nil h)
      rw [e] at hk
      simp only [List.length_append] at hk ⊢
      omega
    obtain ⟨l, hl⟩ := ih { s with script := bs ++ rest, log := s.log ++ [.said .reserved] } rest k rfl hlen
    refine ⟨.said .reserved :: l, ?_⟩
    unfold newName
    rw [cli_bind_of (dialog_of ((input_iff stringOf_iff).mpr ⟨as, e, h⟩)), if_pos (show "meta".toList = kMeta from rfl)]
    rw [tell_bind, hl]
    simp
  | @kept m n as bs h hr hm _ ih =>
    rintro s rest (_ | k) e hk
    · omega
    rw [List.append_assoc] at e
    have hlen : (bs ++ rest).length < k := by
      rw [e] at hk
      simp only [List.length_append, List.length_cons] at hk ⊢
      omega
    obtain ⟨l, hl⟩ := ih { s with script := bs ++ rest, log := s.log ++ [.asked .overwriteExisting false] } rest k rfl hlen
    refine ⟨.asked .overwriteExisting false :: l, ?_⟩
    unfold newName
    rw [cli_bind_of (dialog_of ((input_iff stringOf_iff).mpr ⟨as, e, h⟩)), if_neg (show m ≠ kMeta from hr),
      if_neg (by simpa using hm), cli_bind_of (ask_of (rest := bs ++ rest) rfl)]
    simp only [Bool.false_eq_true, if_false]
    rw [hl]
    simp

theorem newName_ok {names : List (List Char)} {r : List Char} (k : Nat) : ∀ {s t : Session},
    newName names k s = (.ok r, t) → ∃ used, s.script = used ++ t.script ∧ ChosenNew names r used := by
  induction k with
  | zero => intro s t h; cases h
  | succ k ih =>
    intro s t h
    unfold newName at h
    obtain ⟨trial, u, e1, h⟩ := cli_bind_ok h
    obtain ⟨as, h1, h2⟩ := (input_iff stringOf_iff).mp (dialog_ok e1)
    split at h
    · next hm =>
      subst hm
      obtain ⟨_, w, e3, h⟩ := cli_bind_ok h
      cases e3
      obtain ⟨used, h3, h4⟩ := ih h
      exact ⟨as ++ used, by rw [h1, List.append_assoc, ← h3], .reserved h2 h4⟩
    · next hm =>
      split at h
      · next hn => cases h; exact ⟨as, h1, .fresh h2 hm hn⟩
      · next hn =>
        have hn : trial ∈ names := by simpa using hn
        obtain ⟨b, w, e3, h⟩ := cli_bind_ok h
        have e4 := ask_ok e3
        cases b with
        | true => cases h; exact ⟨as ++ [.confirm true], by rw [h1, e4]; simp, .overwrite h2 hm hn⟩
        | false =>
          obtain ⟨used, h3, h4⟩ := ih h
          exact ⟨as ++ .confirm false :: used, by rw [h1, e4, h3]; simp, .kept h2 hm hn h4⟩

/-- The daemon at the next request of a run. -/
def Session.next (env : Env) (s : Session) : Daemon := s.daemon.history env (s.others.headD [])

theorem listing (env : Env) (s : Session) : call env (Client.Sync.getAllDbs env) s =
    (.ok ((s.next env).dbs.map Prod.fst), ⟨s.script, s.next env, s.others.tail, s.log ++ [.talked (s.next env) (s.next env)]⟩) :=
  rfl

theorem pickDbName_of {env : Env} {new : Bool} {n : List Char} {used rest : List Answer} {s : Session}
    (h : Chosen ((s.next env).dbs.map Prod.fst) new n used) (e : s.script = used ++ rest) :
    ∃ l, pickDbName env new s = (.ok n, ⟨rest, s.next env, s.others.tail, s.log ++ l⟩) := by
  unfold pickDbName
  rw [cli_bind_of (listing env s)]
  generalize hd : s.next env = d at h ⊢
  generalize d.dbs.map Prod.fst = names at h ⊢
  have notNewOf {k : List Answer} (e : s.script = notNew new ++ k) :
      ∃ l, (if new = true then ask .newDatabase else pure false : Cli Bool)
        ⟨s.script, d, s.others.tail, s.log ++ [.talked d d]⟩ = (.ok false, ⟨k, d, s.others.tail, s.log ++ l⟩) := by
    cases new with
    | true =>
      refine ⟨[.talked d d, .asked .newDatabase false], ?_⟩
      rw [if_pos rfl, e]
      exact (ask_at ..).trans (by simp)
    | false => exact ⟨_, congrArg (fun x => (Out.ok false, (⟨x, d, s.others.tail, s.log ++ [.talked d d]⟩ : Session))) e⟩
  cases h with
  | new hn h =>
    subst hn
    rw [if_pos rfl, e, List.cons_append, cli_bind_of (ask_at ..), if_pos rfl]
    obtain ⟨l, hl⟩ := newName_of h ⟨_ ++ rest, d, s.others.tail, s.log ++ [.talked d d] ++ [.asked .newDatabase true]⟩ rest _ rfl
      (Nat.lt_succ_self _)
    refine ⟨[.talked d d] ++ [.asked .newDatabase true] ++ l ++ [.chose n], ?_⟩
    refine (cli_bind_of (x := fun s => newName names (s.script.length + 1) s) hl).trans ?_
    rw [tell_bind]
    simp only [List.append_assoc]
    rfl
  | only hn =>
    subst hn
    obtain ⟨l, hl⟩ := notNewOf e
    refine ⟨l ++ [.chose n], ?_⟩
    rw [cli_bind_of hl]
    simp only [Bool.false_eq_true, if_false]
    rw [tell_bind]
    simp only [List.append_assoc]
    rfl
  | @pick i hl' hi =>
    rw [List.append_assoc] at e
    obtain ⟨l, hl⟩ := notNewOf e
    refine ⟨l ++ [.chose n], ?_⟩
    rw [cli_bind_of hl]
    simp only [Bool.false_eq_true, if_false]
    obtain ⟨a, b, names, rfl⟩ : ∃ a b m, names = a :: b :: m := by
      rcases names with _ | ⟨a, _ | ⟨b, m⟩⟩
      · simp at hl'
      · simp at hl'
      · exact ⟨a, b, m, rfl⟩
    have hi' := (List.getElem?_eq_some_iff.mp hi).1
    simp only
    rw [cli_bind_of (dialog_of (select_iff.mpr ⟨hi', rfl⟩)), hi]
    refine (tell_bind (.chose n) (fun _ => pure n) _).trans ?_
    simp only [List.append_assoc]
    rfl

theorem pickDbName_ok {env : Env} {new : Bool} {n : List Char} {s t : Session} (h : pickDbName env new s = (.ok n, t)) :
    ∃ used, s.script = used ++ t.script ∧ Chosen ((s.next env).dbs.map Prod.fst) new n used := by
  unfold pickDbName at h
  rw [cli_bind_of (listing env s)] at h
  generalize hd : s.next env = d at h ⊢
  generalize d.dbs.map Prod.fst = names at h ⊢
  obtain ⟨b, u, e1, h⟩ := cli_bind_ok h
  have hb : s.script = (if b = true then [.confirm true] else notNew new) ++ u.script ∧ (b = true → new = true) := by
    cases new with
    | true =>
      have := ask_ok e1
      simp only at this
      cases b <;> exact ⟨this, fun _ => rfl⟩
    | false => cases e1; exact ⟨rfl, fun h => by cases h⟩
  cases b with
  | true =>
    simp only [if_true] at h hb
    obtain ⟨m, w, e2, h⟩ := cli_bind_ok h
    obtain ⟨_, x, e3, e4⟩ := cli_bind_ok h
    cases e3
    cases e4
    obtain ⟨used, h1, h2⟩ := newName_ok _ e2
    exact ⟨.confirm true :: used, by rw [hb.1, h1]; rfl, .new (hb.2 trivial) h2⟩
  | false =>
    simp only [Bool.false_eq_true, if_false] at h hb
    rcases names with _ | ⟨a, _ | ⟨b, names⟩⟩
    · cases h
    · obtain ⟨_, x, e3, e4⟩ := cli_bind_ok h
      cases e3
      cases e4
      exact ⟨_, hb.1, .only rfl⟩
    · simp only at h
      obtain ⟨i, w, e2, h⟩ := cli_bind_ok h
      obtain ⟨hi, e⟩ := select_iff.mp (dialog_ok e2)
      rw [List.getElem?_eq_getElem hi] at h
      obtain ⟨_, x, e3, e4⟩ := cli_bind_ok h
      cases e3
      cases e4
      exact ⟨notNew new ++ [.pick i], by rw [hb.1, e]; simp, .pick (by simp) (List.getElem?_eq_getElem hi)⟩

/-! ## C70 -/

/-- C70: when `mouse` asks for a database, it goes on with `n` exactly when the user's answers choose `n` among the
databases there are at that moment. -/
theorem C70_choice (env : Env) (new : Bool) (n : List Char) (s : Session) (rest : List Answer) {names : List (List Char)}
    (hn : (Client.Sync.getAllDbs env (s.daemon.history env (s.others.headD []))).1 = .ok names) :
    (∃ t, pickDbName env new s = (.ok n, t) ∧ t.script = rest) ↔
      ∃ used, s.script = used ++ rest ∧ Chosen names new n used := by
  have : names = (s.next env).dbs.map Prod.fst := (Out.ok.inj hn).symm
  subst this
  constructor
  · rintro ⟨t, h, rfl⟩
    exact pickDbName_ok h
  · rintro ⟨used, e, h⟩
    obtain ⟨l, hl⟩ := pickDbName_of h e
    exact ⟨_, hl, rfl⟩

/-- C70: the databases that can be chosen are those that exist and, where a new one may be chosen, all that have a name
other than the reserved one. -/
theorem C70_choices (names : List (List Char)) (new : Bool) (n : List Char) :
    (∃ used, Chosen names new n used) ↔ n ∈ names ∨ (new = true ∧ n ≠ [] ∧ n ≠ "meta".toList) := by
  constructor
  · rintro ⟨used, h⟩
    cases h with
    | new hn h =>
      refine .inr ⟨hn, ?_⟩
      induction h with
      | fresh h hr hn => obtain ⟨bad, s, _, _, h1, h2⟩ := h; cases h2; exact ⟨h1, hr⟩
      | overwrite h hr hn => obtain ⟨bad, s, _, _, h1, h2⟩ := h; cases h2; exact ⟨h1, hr⟩
      | reserved _ _ ih => exact ih
      | kept _ _ _ _ ih => exact ih
    | only h => exact .inl (by rw [h]; simp)
    | pick _ h => exact .inl (List.mem_of_getElem? h)
  · rintro (h | ⟨rfl, h1, h2⟩)
    · obtain ⟨i, hi⟩ := List.mem_iff_getElem?.mp h
      rcases names with _ | ⟨a, _ | ⟨b, names⟩⟩
      · cases h
      · rw [List.mem_singleton.mp h]; exact ⟨_, .only rfl⟩
      · exact ⟨_, .pick (by simp) hi⟩
    · have ht : Typed Reads.text n [.line n] := ⟨[], n, rfl, by simp, h1, rfl⟩
      by_cases hn : n ∈ names
      · exact ⟨_, .new rfl (.overwrite ht h2 hn)⟩
      · exact ⟨_, .new rfl (.fresh ht h2 hn)⟩

theorem run_of {env : Env} {T : Term} {c : Command} {s : Session} :
    run env T c s = command env T c ⟨s.script, s.next env, s.others.tail, s.log ++ [.talked (s.next env) (s.next env)]⟩ :=
  rfl

theorem next_sound {env : Env} (hord : HashOrder env.mapOrd) {s : Session} (h : Sound env s.daemon) :
    Sound env (s.next env) := by
  obtain ⟨h1, h2, _⟩ := history_sim hord (s.others.headD []) s.daemon h.1 h.2
  exact ⟨h1, h2⟩

theorem call_of {α : Type} {env : Env} {c : Client.Call α} {s : Session} {a : α} (h : (c (s.next env)).1 = .ok a) :
    call env c s = (.ok a, ⟨s.script, (c (s.next env)).2, s.others.tail, s.log ++ [.talked (s.next env) (c (s.next env)).2]⟩) := by
  unfold Cli.call
  show ((c (s.next env)).1.mapErr _, _) = _
  rw [h]
  rfl

/-- C70, partial: whoever chooses a database, types a key and a value and agrees gets that value stored: `AddEntry`
ends well, and the daemon then serves it. Missing: the values that the format does not carry, see C26. -/
theorem C70_add_works_partial {env : Env} (hlz : env.lz.Lossless) (hb : HashOrder env.byteOrd) (hord : HashOrder env.mapOrd)
    (T : Term) (s : Session) (hs : s.Fresh env) {names : List (List Char)} {n k : List Char} {v : Value}
    {chosen typed spelled rest : List Answer}
    (hn : (Client.Sync.getAllDbs env ((s.daemon.history env (s.others.headD [])).history env (s.others.tail.headD []))).1 =
      .ok names)
    (hc : Chosen names true n chosen) (ht : Typed Reads.text k typed) (hp : Spells env T v spelled)
    (hv : Storable env none v) (hlen : ∀ bytes, Value.ser env none v = .ok bytes → bytes.length < 2 ^ 64)
    (e : s.script = chosen ++ (typed ++ (spelled ++ .confirm true :: rest))) :
    (run env T .addEntry s).1 = .ok () ∧ (run env T .addEntry s).2.script = rest ∧
      ∃ w, (run env T .addEntry s).2.daemon.Fetches env n k w ∧ SameAs v w := by
  obtain ⟨bytes, w, e1, e2, e3, e4⟩ := C26_stable_partial hlz hb hv
  have e5 := e3 [] [] (by simpa using hlen _ e1)
  simp only [List.nil_append, List.append_nil, List.length_nil] at e5
  rw [run_of]
  generalize hs1 : (⟨s.script, s.next env, s.others.tail, s.log ++ [.talked (s.next env) (s.next env)]⟩ : Session) = s1
  have h1 : Sound env s1.daemon := by rw [← hs1]; exact next_sound hord ⟨hs.dbs, hs.cache⟩
  have hnames : names = (s1.next env).dbs.map Prod.fst := by rw [← hs1]; exact (Out.ok.inj hn).symm
  rw [hnames] at hc
  obtain ⟨l, hl⟩ := pickDbName_of (rest := typed ++ (spelled ++ .confirm true :: rest)) hc (by rw [← hs1]; exact e)
  simp only [command]
  rw [cli_bind_of hl, cli_bind_of (dialog_of ((input_iff stringOf_iff).mpr ⟨typed, rfl, ht⟩)),
    cli_bind_of (dialog_of ((C65_entry_partial env T _ v (.confirm true :: rest)).mpr ⟨spelled, rfl, hp⟩))]
  rw [tell_bind, tell_bind, cli_bind_of (ask_of rfl)]
  simp only [if_true]
  generalize hs2 : (⟨rest, s1.next env, s1.others.tail, _⟩ : Session) = s2
  have h2 : Sound env s2.daemon := by rw [← hs2]; exact next_sound hord h1
  have h3 := next_sound hord h2
  obtain ⟨_, h⟩ := addEntryToDb_ok hb hord h3 n k v
  cases e7 : (Client.Sync.addEntryToDb env n true true k v (s2.next env)).1 with
  | panic p => rw [e7] at h; exact h.elim
  | err x => rw [e7] at h; exact absurd e5 (h.2 bytes _ e1)
  | ok c =>
    rw [e7] at h
    obtain ⟨_, _, _, w', bytes', r', e8, e9, e10⟩ := h
    have e11 : w' = w := by
      rw [e1, Out.ok.injEq] at e8
      subst e8
      exact (Prod.mk.inj (Out.ok.inj (e9.symm.trans e5))).1
    subst e11
    rw [cli_bind_of (call_of e7)]
    refine ⟨rfl, by rw [← hs2]; rfl, w', fetches_of_view ?_ e4 e5, e2⟩
    show ((Client.Sync.addEntryToDb env n true true k v (s2.next env)).2.view n).bind (· k) = some w'
    rw [e10]
    simp [Abs.put]

/-- C70: `CreateNew` with a name that is allowed, and the consent to clear a database of that name if there is one, ends
well and leaves an empty database of that name. -/
theorem C70_create_works {env : Env} (hb : HashOrder env.byteOrd) (hc : HashOrder env.charOrd) (hord : HashOrder env.mapOrd)
    (T : Term) (s : Session) (hs : s.Fresh env) {names : List (List Char)} {name : List Char} {rest : List Answer}
    (hn : (Client.Sync.getAllDbs env ((s.daemon.history env (s.others.headD [])).history env (s.others.tail.headD []))).1 =
      .ok names)
    (hg : Abs.GoodName name) (e : s.script = (if name ∈ names then [.confirm true] else []) ++ rest) :
    (run env T (.createNew name) s).1 = .ok () ∧ (run env T (.createNew name) s).2.script = rest ∧
      (run env T (.createNew name) s).2.daemon.view name = some fun _ => none := by
  rw [run_of]
  generalize hs1 : (⟨s.script, s.next env, s.others.tail, s.log ++ [.talked (s.next env) (s.next env)]⟩ : Session) = s1
  have h1 : Sound env s1.daemon := by rw [← hs1]; exact next_sound hord ⟨hs.dbs, hs.cache⟩
  have hnames : names = (s1.next env).dbs.map Prod.fst := by rw [← hs1]; exact (Out.ok.inj hn).symm
  simp only [command]
  rw [cli_bind_of (listing env s1), ← hnames]
  have hgo : ∃ l, (if name ∈ names then ask .clearExisting else pure true : Cli Bool)
      ⟨s1.script, s1.next env, s1.others.tail, s1.log ++ [.talked (s1.next env) (s1.next env)]⟩ =
      (.ok true, ⟨rest, s1.next env, s1.others.tail, l⟩) := by
    have e : s1.script = (if name ∈ names then [.confirm true] else []) ++ rest := by rw [← hs1]; exact e
    rw [e]
    by_cases hm : name ∈ names
    · simp only [if_pos hm]
      exact ⟨_, ask_at ..⟩
    · simp only [if_neg hm]
      exact ⟨_, rfl⟩
  obtain ⟨l, hl⟩ := hgo
  rw [cli_bind_of hl]
  simp only [if_true]
  have h3 := next_sound hord (s := ⟨rest, s1.next env, s1.others.tail, l⟩) (next_sound hord h1)
  generalize hs2 : (⟨rest, s1.next env, s1.others.tail, l⟩ : Session) = s2 at h3
  obtain ⟨_, h⟩ := createNewDb_ok hb hc hord h3 name
  cases e7 : (Client.Sync.createNewDb env true name (s2.next env)).1 with
  | panic p => rw [e7] at h; exact h.elim
  | err x => rw [e7] at h; exact absurd hg h.2
  | ok new =>
    rw [e7] at h
    rw [cli_bind_of (call_of e7)]
    refine ⟨rfl, by rw [← hs2]; rfl, ?_⟩
    show (Client.Sync.createNewDb env true name (s2.next env)).2.view name = _
    rw [h.2]
    simp [Abs.put]

theorem view_iff_name {d : Daemon} {n : List Char} : n ∈ d.dbs.map Prod.fst ↔ d.view n ≠ none := by
  simp only [Daemon.view, ne_eq, Option.map_eq_none_iff]
  rw [← AMap.get_isSome, ← Option.ne_none_iff_isSome]

/-- C70: whoever chooses an existing database in `RemoveDatabase`, while no one else uses the daemon, gets it removed,
provided that its file can be deleted. -/
theorem C70_remove_works {env : Env} (hord : HashOrder env.mapOrd) (T : Term) (hio : T.unlink ≠ .failed) (s : Session)
    (hs : s.Fresh env) (ho : s.others = []) {names : List (List Char)} {n : List Char} {chosen rest : List Answer}
    (hn : (Client.Sync.getAllDbs env s.daemon).1 = .ok names) (hc : Chosen names false n chosen)
    (e : s.script = chosen ++ rest) :
    (run env T .removeDatabase s).1 = .ok () ∧ (run env T .removeDatabase s).2.script = rest ∧
      (run env T .removeDatabase s).2.daemon.view = Abs.put s.daemon.view n none := by
  obtain ⟨script, d, others, log⟩ := s
  simp only at ho e hn
  subst ho
  have hnames : names = d.dbs.map Prod.fst := (Out.ok.inj hn).symm
  rw [run_of]
  obtain ⟨l, hl⟩ := pickDbName_of (s := ⟨script, d, [], log ++ [.talked d d]⟩) (env := env) (new := false) (n := n)
    (hnames ▸ hc) e
  rw [show command env T .removeDatabase = (pickDbName env false >>= fun name =>
    call env (Client.Sync.removeDb env name T.unlink) >>= fun _ => tell (.said .removedDatabase)) from rfl]
  refine (congrArg (fun r : Out Stop Unit × Session => r.1 = .ok () ∧ r.2.script = rest ∧
    r.2.daemon.view = Abs.put d.view n none) (cli_bind_of hl)).mpr ?_
  obtain ⟨_, h⟩ := removeDb_ok hord ⟨hs.dbs, hs.cache⟩ n T.unlink
  simp only at h
  have hmem : d.view n ≠ none := by
    rw [← view_iff_name, ← hnames]
    rcases (C70_choices names false n).mp ⟨_, hc⟩ with h | ⟨h, _⟩
    · exact h
    · cases h
  cases e7 : (Client.Sync.removeDb env n T.unlink d).1 with
  | panic p => rw [e7] at h; exact h.elim
  | err x => rw [e7] at h; exact absurd (h hio).2 hmem
  | ok a =>
    rw [e7] at h
    have hcall := call_of (c := Client.Sync.removeDb env n T.unlink) (env := env)
      (s := ⟨rest, d, [], log ++ [.talked d d] ++ l⟩) (a := a) e7
    refine (congrArg (fun r : Out Stop Unit × Session => r.1 = .ok () ∧ r.2.script = rest ∧
      r.2.daemon.view = Abs.put d.view n none) (cli_bind_of hcall)).mpr ?_
    exact ⟨rfl, rfl, h.2⟩

-- two databases: picking one, naming a new one after trying `meta` and a name that is kept
example : Chosen [['a'], ['b']] true ['b'] [.confirm false, .pick 1] := .pick (n := ['b']) (by decide) rfl
example : Chosen [['a'], ['b']] true ['c']
    [.confirm true, .line "meta".toList, .line ['a'], .confirm false, .line [], .line ['c']] := by
  refine .new rfl (.reserved (as := [.line "meta".toList]) ⟨[], _, rfl, by simp, by decide, rfl⟩
    (.kept (m := ['a']) (as := [.line ['a']]) ⟨[], _, rfl, by simp, by decide, rfl⟩ (by decide) (by decide)
      (.fresh ⟨[[]], _, rfl, by simp, by decide, rfl⟩ (by decide) (by decide))))

-- the script of `sampleAdd` is one that `C70_add_works_partial` is about
example : sampleAdd = [.confirm true, .line ['d'], .confirm true] ++ ([.line ['k']] ++ ([.pick 8] ++ .confirm true :: [])) ∧
    Chosen [['d']] true ['d'] [.confirm true, .line ['d'], .confirm true] ∧
    Spells sampleEnv sampleTerm .null [.pick 8] ∧ Storable sampleEnv none .null :=
  ⟨rfl, .new rfl (.overwrite (as := [.line ['d']]) ⟨[], _, rfl, by simp, by decide, rfl⟩ (by decide) (by decide)),
    .null, .null⟩

/-! ## C71 -/

/-- A piece of the program that writes no file but those in `A`. -/
def WritesOnly (A : List Char → Prop) {α : Type} (x : Cli α) : Prop :=
  ∀ s p t, .wrote p t ∈ (x s).2.log → A p ∨ .wrote p t ∈ s.log

section
variable {A : List Char → Prop} {α β : Type}

theorem WritesOnly.bind {x : Cli α} {f : α → Cli β} (hx : WritesOnly A x) (hf : ∀ a, WritesOnly A (f a)) :
    WritesOnly A (x >>= f) := by
  intro s p t h
  have e : (x >>= f) s = match x s with
    | (.ok a, s) => f a s
    | (.err e, s) => (.err e, s)
    | (.panic p, s) => (.panic p, s) := rfl
  rw [e] at h
  have hx := hx s p t
  rcases hxs : x s with ⟨o, u⟩
  rw [hxs] at h hx
  cases o with
  | ok a => exact (hf a u p t h).elim .inl hx
  | err y => exact hx h
  | panic q => exact hx h

theorem WritesOnly.pure (a : α) : WritesOnly A (Pure.pure a) := fun _ _ _ h => .inr h

theorem WritesOnly.lift (o : Out Stop α) : WritesOnly A (Cli.lift o) := fun _ _ _ h => .inr h

theorem WritesOnly.tell {e : Event} (he : ∀ p t, e = .wrote p t → A p) : WritesOnly A (Cli.tell e) := by
  intro s p t h
  rcases List.mem_append.mp h with h | h
  · exact .inr h
  · exact .inl (he p t (List.mem_singleton.mp h).symm)

theorem WritesOnly.dialog (d : Entry α) : WritesOnly A (Cli.dialog d) := by
  intro s p t h
  rw [dialog_apply] at h
  split at h <;> exact .inr h

theorem WritesOnly.ask (q : Question) : WritesOnly A (Cli.ask q) :=
  (WritesOnly.dialog _).bind fun _ => (WritesOnly.tell (by simp)).bind fun _ => .pure _

theorem WritesOnly.call (env : Env) (c : Client.Call α) : WritesOnly A (Cli.call env c) := by
  intro s p t h
  rcases List.mem_append.mp h with h | h
  · exact .inr h
  · simp at h

theorem WritesOnly.ite {c : Prop} [Decidable c] {x y : Cli α} (hx : WritesOnly A x) (hy : WritesOnly A y) :
    WritesOnly A (if c then x else y) := by
  split
  · exact hx
  · exact hy

theorem newName_writes (names : List (List Char)) (n : Nat) : WritesOnly A (newName names n) := by
  induction n with
  | zero => exact .lift _
  | succ n ih =>
    refine (WritesOnly.dialog _).bind fun trial => .ite ?_ (.ite (.pure _) ?_)
    · exact (WritesOnly.tell (by simp)).bind fun _ => ih
    · exact (WritesOnly.ask _).bind fun _ => .ite (.pure _) ih

theorem pickDbName_writes (env : Env) (new : Bool) : WritesOnly A (pickDbName env new) := by
  have chose (n : List Char) : WritesOnly A (do Cli.tell (.chose n); return n) :=
    (WritesOnly.tell (by simp)).bind fun _ => .pure _
  refine (WritesOnly.call _ _).bind fun names => (WritesOnly.ite (.ask _) (.pure _)).bind fun b => .ite ?_ ?_
  · exact WritesOnly.bind (fun s => newName_writes names _ s) fun n => chose n
  · split
    · exact .lift _
    · exact chose _
    · refine (WritesOnly.dialog _).bind fun i => ?_
      split
      · exact .lift _
      · exact chose _

theorem pickDb_writes (env : Env) : WritesOnly A (pickDb env) :=
  (pickDbName_writes env false).bind fun _ => (WritesOnly.call _ _).bind fun _ => .pure _

theorem pickKey_writes (store : Store) : WritesOnly A (pickKey store) := by
  refine (WritesOnly.dialog _).bind fun i => ?_
  split
  · exact .lift _
  · exact .pure _

theorem exportTo_writes (env : Env) (T : Term) (path : List Char) (types : Bool) (name : List Char) (store : Store)
    (h : A path) : WritesOnly A (exportTo env T path types name store) := by
  refine (WritesOnly.tell (by simp)).bind fun _ => ?_
  split
  · refine (WritesOnly.tell (by simp)).bind fun _ => ?_
    split
    · exact .lift _
    · exact .lift _
    · exact .tell fun p t e => by cases e; exact h
  · exact .tell (by simp)

end

/-- C71: the only file that `mouse` ever writes is the one named for an export, however the run ends. -/
theorem C71_files (env : Env) (T : Term) (c : Command) (s : Session) (hs : s.log = []) (p t : List Char)
    (h : .wrote p t ∈ (run env T c s).2.log) : ∃ types, c = .exportToJson p types := by
  have key (hc : WritesOnly (fun p => ∃ types, c = .exportToJson p types) (command env T c)) :
      ∃ types, c = .exportToJson p types := by
    have := ((WritesOnly.call env (Client.Sync.new env)).bind fun _ => hc) s p t h
    rw [hs] at this
    simpa using this
  refine key ?_
  cases c with
  | createNew name =>
    exact (WritesOnly.call _ _).bind fun _ => (WritesOnly.ite (.ask _) (.pure _)).bind fun _ => .ite
      ((WritesOnly.call _ _).bind fun _ => .tell (by simp)) (.tell (by simp))
  | addEntry =>
    exact (pickDbName_writes _ _).bind fun _ => (WritesOnly.dialog _).bind fun _ => (WritesOnly.dialog _).bind fun _ =>
      (WritesOnly.tell (by simp)).bind fun _ => (WritesOnly.tell (by simp)).bind fun _ => (WritesOnly.ask _).bind fun _ =>
      .ite ((WritesOnly.call _ _).bind fun _ => .tell (by simp)) (.tell (by simp))
  | viewAll => exact (pickDb_writes _).bind fun _ => .tell (by simp)
  | debugViewAll => exact (pickDb_writes _).bind fun _ => .tell (by simp)
  | removeEntry =>
    refine (pickDb_writes _).bind fun x => .ite (.tell (by simp)) ?_
    exact (pickKey_writes _).bind fun _ => (WritesOnly.ask _).bind fun _ =>
      .ite ((WritesOnly.call _ _).bind fun _ => .tell (by simp)) (.tell (by simp))
  | updateEntry =>
    refine (pickDb_writes _).bind fun x => .ite (.tell (by simp)) ?_
    exact (pickKey_writes _).bind fun _ => (WritesOnly.dialog _).bind fun _ => (WritesOnly.ask _).bind fun _ =>
      .ite ((WritesOnly.call _ _).bind fun _ => .tell (by simp)) (.tell (by simp))
  | exportToJson path types => exact (pickDb_writes _).bind fun x => exportTo_writes _ _ _ _ _ _ ⟨types, rfl⟩
  | importFromJson path =>
    exact (WritesOnly.lift _).bind fun _ => (WritesOnly.lift _).bind fun _ => (pickDbName_writes _ _).bind fun _ =>
      (WritesOnly.call _ _).bind fun _ => .tell (by simp)
  | removeDatabase => exact (pickDbName_writes _ _).bind fun _ => (WritesOnly.call _ _).bind fun _ => .tell (by simp)

/-- C71: `ExportToJSON`, once a database has been fetched (it never is, `C68_refuted_fetch`): it leaves the daemon
alone, and it writes the file exactly if the store has a JSON form and the file can be opened. Otherwise it says so. -/
theorem C71_export (env : Env) (T : Term) (path : List Char) (types : Bool) (name : List Char) (store : Store) (s : Session) :
    (exportTo env T path types name store s).2.daemon = s.daemon ∧
    ((∃ j, Store.toJson env types store = some j ∧ T.files path ≠ .directory ∧ T.files path ≠ .unreadable ∧
        (exportTo env T path types name store s).1 = .ok () ∧
        ∃ said, (exportTo env T path types name store s).2.log = s.log ++ said ++ [.wrote path (env.jsonPretty j)] ∧
          ∀ e ∈ said, ∃ m, e = .said m) ∨
      (∃ j, Store.toJson env types store = some j ∧ (T.files path = .directory ∨ T.files path = .unreadable) ∧
        (exportTo env T path types name store s).1 = .err (.error .io)) ∨
      (Store.toJson env types store = none ∧ (exportTo env T path types name store s).1 = .ok () ∧
        .said .unableToConvert ∈ (exportTo env T path types name store s).2.log)) := by
  unfold exportTo
  rw [tell_bind]
  cases hj : Store.toJson env types store with
  | none => exact ⟨rfl, .inr (.inr ⟨rfl, rfl, List.mem_append_right _ (by simp)⟩)⟩
  | some j =>
    simp only
    rw [tell_bind]
    cases hf : T.files path with
    | directory => exact ⟨rfl, .inr (.inl ⟨j, rfl, .inl rfl, rfl⟩)⟩
    | unreadable => exact ⟨rfl, .inr (.inl ⟨j, rfl, .inr rfl, rfl⟩)⟩
    | missing => exact ⟨rfl, .inl ⟨j, rfl, by simp, by simp, rfl, [.said (.converting name), .said (.writing path)],
        by simp [tell], by simp⟩⟩
    | file b => exact ⟨rfl, .inl ⟨j, rfl, by simp, by simp, rfl, [.said (.converting name), .said (.writing path)],
        by simp [tell], by simp⟩⟩

/-- C71, partial: what `ExportToJSON` with types wrote, `ImportFromJSON` reads as a store with the same keys and the same
values, up to widening, if it is read before anything else is written to that file. Missing: stores outside the domain of
C36. -/
theorem C71_import_partial {env : Env} (hord : HashOrder env.mapOrd) (T T' : Term) (path name : List Char) {store : Store}
    (hs : Jsonable env (.map store))
    (hno : ∀ v, store = [("JSON".toList, v)] → (∀ m, v ≠ .map m) ∧ ∀ m, v ≠ .json (.object m)) (s : Session)
    {text : List Char} (hx : (exportTo env T path true name store s).2.log.getLast? = some (.wrote path text))
    (hp : ∀ j, Store.toJson env true store = some j → env.jsonParse (env.jsonPretty j) = some j) (hf : T'.files path = .file (utf8 text)) :
    ∃ bytes store', readFile T' path = .ok bytes ∧ jsonStore env bytes = .ok store' ∧ Widened (.map store) (.map store') := by
  obtain ⟨j, store', e1, e2, hw⟩ := C36_store_partial hord hs hno
  have ht : text = env.jsonPretty j := by
    rcases (C71_export env T path true name store s).2 with ⟨j', h1, _, _, _, said, h2, _⟩ | ⟨j', h1, h2, h3⟩ | ⟨h1, _⟩
    · rw [e1, Option.some.injEq] at h1
      subst h1
      rw [h2] at hx
      simp at hx
      exact hx.symm
    · unfold exportTo at hx
      rw [tell_bind, e1] at hx
      simp only at hx
      rw [tell_bind] at hx
      rcases h2 with h2 | h2 <;> rw [h2] at hx <;> simp [lift] at hx
    · rw [e1] at h1; cases h1
  refine ⟨utf8 text, store', by simp only [readFile, hf], ?_, hw⟩
  unfold jsonStore
  rw [utf8Decode_utf8]
  simp only [Store.fromJsonBytes, ht, hp j e1, e2, Out.mapErr]

/-- C71: a file that is not UTF-8, or not JSON, is not imported, and nothing is asked of the daemon but whether it is
there. -/
theorem C71_bad_file (env : Env) (T : Term) (path : List Char) (s : Session) {b : List UInt8} (hf : T.files path = .file b)
    (hb : ∀ text, utf8Decode b = some text → env.jsonParse text = none) :
    (run env T (.importFromJson path) s).1 = .err (.error .store) ∧
      (run env T (.importFromJson path) s).2.daemon.view = (s.daemon.history env (s.others.headD [])).view := by
  rw [run_of]
  have h1 : readFile T path = .ok b := by simp only [readFile, hf]
  have h2 : jsonStore env b = .err (.error .store) := by
    unfold jsonStore
    cases hd : utf8Decode b with
    | none => rfl
    | some text => simp only [Store.fromJsonBytes, hb text hd, Out.mapErr]
  generalize hu : (⟨s.script, s.next env, s.others.tail, s.log ++ [.talked (s.next env) (s.next env)]⟩ : Session) = u
  have h3 : command env T (.importFromJson path) u = (.err (.error .store), u) := by
    show (lift (readFile T path) >>= fun bytes => lift (jsonStore env bytes) >>= _) u = _
    rw [h1]
    show (lift (jsonStore env b) >>= _) u = _
    rw [h2]
    rfl
  rw [h3, ← hu]
  exact ⟨rfl, rfl⟩

-- an export that writes, and one that cannot
example : (exportTo sampleEnv sampleTerm ['o'] true ['d'] [(['k'], .boolean true)] (sampleStart [])).2.log.getLast? =
    some (.wrote ['o'] "null".toList) := rfl
example : Store.toJson sampleEnv true [(['k'], .double 0x7FF8000000000000)] = none := rfl
example : Jsonable sampleEnv (.map [(['k'], .boolean true)]) := by
  refine .map (by decide) ?_ ?_
  · intro k v h
    rw [List.mem_singleton, Prod.mk.injEq] at h
    obtain ⟨rfl, rfl⟩ := h
    rintro ⟨h, _⟩
    exact absurd h (by decide)
  · intro k v h
    rw [List.mem_singleton, Prod.mk.injEq] at h
    obtain ⟨rfl, rfl⟩ := h
    exact .boolean _

end Souris
