import Verif.Lemmas.MouseEnds
import Verif.Props.Client

/-! # Reasoning about runs of `mouse` -/

namespace Souris

namespace Cli

/-- Started where `P` holds, `x` ends well where `Q` holds, or otherwise where `E` holds; `E` is also given the
error, or nothing for a panic. -/
def Holds {α : Type} (P : Session → Prop) (x : Cli α) (Q : α → Session → Prop) (E : Option Stop → Session → Prop) : Prop :=
  ∀ s, P s → match (x s).1 with
    | .ok a => Q a (x s).2
    | .err e => E (some e) (x s).2
    | .panic _ => E none (x s).2

variable {α β : Type} {P P' : Session → Prop} {Q Q' : α → Session → Prop} {E : Option Stop → Session → Prop}

theorem Holds.bind {x : Cli α} {f : α → Cli β} {R : β → Session → Prop} (h : Holds P x Q E)
    (hf : ∀ a, Holds (Q a) (f a) R E) : Holds P (x >>= f) R E := by
  intro s hs
  have h1 := h s hs
  have h2 : (x >>= f) s = match x s with
    | (.ok a, s) => f a s
    | (.err e, s) => (.err e, s)
    | (.panic p, s) => (.panic p, s) := rfl
  rw [h2]
  rcases e : x s with ⟨o, s'⟩
  rw [e] at h1
  cases o with
  | ok a => exact hf a s' h1
  | err x => exact h1
  | panic p => exact h1

theorem Holds.pure {a : α} (h : ∀ s, P s → Q a s) : Holds P (Pure.pure a) Q E := h

theorem Holds.mono {x : Cli α} (h : Holds P x Q E) (hp : ∀ s, P' s → P s) (hq : ∀ a s, Q a s → Q' a s) :
    Holds P' x Q' E := by
  intro s hs
  have := h s (hp s hs)
  split at this
  · exact hq _ _ this
  · exact this
  · exact this

theorem Holds.weaken {x : Cli α} {E' : Option Stop → Session → Prop} (h : Holds P x Q E) (he : ∀ o s, E o s → E' o s) :
    Holds P x Q E' := by
  intro s hs
  have := h s hs
  split at this
  · exact this
  · exact he _ _ this
  · exact he _ _ this

theorem Holds.tell {e : Event} {Q : Unit → Session → Prop} (h : ∀ s, P s → Q () { s with log := s.log ++ [e] }) :
    Holds P (tell e) Q E := h

theorem Holds.lift {o : Out Stop α} (h : ∀ s, P s → match o with
    | .ok a => Q a s
    | .err e => E (some e) s
    | .panic _ => E none s) : Holds P (lift o) Q E := h

theorem Holds.dialog {d : Entry α} (h : ∀ s, P s → match d s.script with
    | .ok (a, rest) => Q a { s with script := rest }
    | .err e => E (some e) s
    | .panic _ => E none s) : Holds P (dialog d) Q E := by
  intro s hs
  have := h s hs
  unfold Cli.dialog
  split at this <;> rename_i e <;> rw [e] <;> exact this

end Cli

namespace Mouse

open Cli Client

/-! ## The daemon -/

/-- The invariants of a daemon that C37 is about. -/
def Sound (env : Env) (d : Daemon) : Prop := DbsOk d.dbs ∧ CacheOk env d

theorem request_sim {env : Env} (hord : HashOrder env.mapOrd) {α : Type} (r : Request) (read : Reply → Out ClientError α)
    {d : Daemon} (h : Sound env d) :
    Sound env (request env r read d).2 ∧ (request env r read d).2.view = Abs.afterAll env d.view [.request r] := by
  obtain ⟨h1, h2, h3⟩ := history_sim hord [.request r] d h.1 h.2
  exact ⟨⟨h1, h2⟩, h3⟩

/-- A method that leaves the databases as they are. -/
def ReadOnly (env : Env) {α : Type} (c : Call α) : Prop :=
  ∀ d, Sound env d → Sound env (c d).2 ∧ (c d).2.view = d.view

theorem new_readOnly {env : Env} (hord : HashOrder env.mapOrd) : ReadOnly env (Sync.new env) :=
  fun _ h => request_sim hord .healthcheck _ h

theorem getAllDbs_readOnly {env : Env} (hord : HashOrder env.mapOrd) : ReadOnly env (Sync.getAllDbs env) :=
  fun _ h => request_sim hord .allNames _ h

theorem getStore_readOnly {env : Env} (hord : HashOrder env.mapOrd) (n : List Char) : ReadOnly env (Sync.getStore env n) :=
  fun _ h => request_sim hord (.getDb n) _ h

theorem addDbWithContents_error {env : Env} (hb : HashOrder env.byteOrd) (hc : HashOrder env.charOrd)
    (o : Bool) (n : List Char) (s : Store) (d : Daemon) :
    (∃ e, (Sync.addDbWithContents env o n s d).1 = .err e) ∧ (Sync.addDbWithContents env o n s d).2 = d := by
  have := C56_refuted_contents env hb hc d o n s
  rwa [(C57_agree_partial env).2.2.2.1] at this

theorem createNewDb_ok {env : Env} (hb : HashOrder env.byteOrd) (hc : HashOrder env.charOrd) (hord : HashOrder env.mapOrd)
    {d : Daemon} (h : Sound env d) (n : List Char) :
    Sound env (Sync.createNewDb env true n d).2 ∧
    match (Sync.createNewDb env true n d).1 with
    | .ok new => (new = true ↔ d.view n = none) ∧
      (Sync.createNewDb env true n d).2.view = Abs.put d.view n (some fun _ => none)
    | .err _ => (Sync.createNewDb env true n d).2.view = d.view ∧ ¬ Abs.GoodName n
    | .panic _ => False := by
  have hs := request_sim hord (.addDb n true) (fun r => do
    let c ← called r
    created c) h
  have h56 := C56_create_new_db hord h.1 n true
  have hp := fun p => (C56_no_panic hb hc d true n [] p).2.1
  rw [(C57_agree_partial env).2.2.1] at h56
  refine ⟨hs.1, ?_⟩
  have hv : (Sync.createNewDb env true n d).2.view = d.view.after (.newDb n true) := hs.2
  by_cases hg : Abs.GoodName n
  · obtain ⟨h1, h2, h3⟩ := h56.1 hg
    split
    · next new e =>
      rw [e] at h1 h2
      refine ⟨⟨fun hn => h1.mp (by rw [hn]), fun hn => ?_⟩, ?_⟩
      · have := h1.mpr hn; simpa using this
      · rw [hv]; simp only [Abs.after, if_pos hg]; rfl
    · next x e =>
      by_cases hn : d.view n = none
      · have := h1.mpr hn; rw [e] at this; cases this
      · have := h2.mpr hn; rw [e] at this; cases this
    · next p e => exact hp p e
  · obtain ⟨h1, h2⟩ := h56.2 hg
    rw [h1]
    exact ⟨h2, hg⟩

theorem addEntryToDb_ok {env : Env} (hb : HashOrder env.byteOrd) (hord : HashOrder env.mapOrd)
    {d : Daemon} (h : Sound env d) (n k : List Char) (v : Value) :
    Sound env (Sync.addEntryToDb env n true true k v d).2 ∧
    match (Sync.addEntryToDb env n true true k v d).1 with
    | .ok c => (c = .insertedKeyIntoNewDB ↔ d.view n = none) ∧
      (c = .insertedKeyIntoExistingDB ↔ ∃ m, d.view n = some m ∧ m k = none) ∧
      (c = .overwroteKeyInExistingDB ↔ ∃ m x, d.view n = some m ∧ m k = some x) ∧
      ∃ w bytes rest, Value.ser env none v = .ok bytes ∧ Value.deser env none (Cursor.new bytes) = .ok (w, rest) ∧
        (Sync.addEntryToDb env n true true k v d).2.view =
          Abs.put d.view n (some (Abs.put ((d.view n).getD fun _ => none) k (some w)))
    | .err _ => (Sync.addEntryToDb env n true true k v d).2 = d ∧
      ∀ bytes x, Value.ser env none v = .ok bytes → Value.deser env none (Cursor.new bytes) ≠ .ok x
    | .panic _ => False := by
  obtain ⟨bytes, hser⟩ := ser_total hb (h := none) (.inl rfl) v
  have hs := request_sim hord (.addKv n k true true bytes) (fun r => do
    let _ ← called r
    creationOf r) h
  have e0 : Sync.addEntryToDb env n true true k v d = request env (.addKv n k true true bytes) (fun r => do
    let _ ← called r
    creationOf r) d := by
    unfold Sync.addEntryToDb withBody
    rw [hser]
  rw [e0]
  refine ⟨hs.1, ?_⟩
  cases hd : Value.deser env none (Cursor.new bytes) with
  | err x =>
    simp only [request, Daemon.handle, Request.route, hd]
    refine ⟨trivial, fun b y h1 h2 => ?_⟩
    rw [hser, Out.ok.injEq] at h1
    subst h1
    rw [hd] at h2
    cases h2
  | panic x =>
    simp only [request, Daemon.handle, Request.route, hd]
    refine ⟨trivial, fun b y h1 h2 => ?_⟩
    rw [hser, Out.ok.injEq] at h1
    subst h1
    rw [hd] at h2
    cases h2
  | ok x =>
    obtain ⟨w, rest⟩ := x
    have hv := hs.2
    simp only [Abs.afterAll, Request.route, hd] at hv
    obtain ⟨c, e5, hc1, hc2, hc3, hc4, hc5, _⟩ := C41_codes hord h.1 n k true true w
    have e1 : (request env (.addKv n k true true bytes) (fun r => do
      let _ ← called r
      creationOf r) d).1 = .ok c := by
      simp only [request, Daemon.handle, Request.route, hd]
      rw [e5]
      rfl
    rw [e1]
    refine ⟨by simpa using hc2, hc3, by simpa using hc5, w, bytes, rest, hser, hd, ?_⟩
    rw [hv]
    simp only [Abs.after]
    cases hn : d.view n with
    | none => rfl
    | some m => simp

theorem removeDb_ok {env : Env} (hord : HashOrder env.mapOrd) {d : Daemon} (h : Sound env d) (n : List Char)
    (io : IoResult) :
    Sound env (Sync.removeDb env n io d).2 ∧
    match (Sync.removeDb env n io d).1 with
    | .ok _ => d.view n ≠ none ∧ (Sync.removeDb env n io d).2.view = Abs.put d.view n none
    | .err _ => io ≠ .failed → (Sync.removeDb env n io d).2.view = d.view ∧ d.view n = none
    | .panic _ => False := by
  have hs := request_sim hord (.rmDb n io) (fun r => do
    let _ ← called r
    .ok ()) h
  have hv : (Sync.removeDb env n io d).2.view = Abs.put d.view n none := hs.2
  refine ⟨hs.1, ?_⟩
  rw [hv]
  cases hn : AMap.get n d.dbs with
  | none =>
    have hvn : d.view n = none := by simp [Daemon.view, hn]
    rw [(C57_refuted_remove_db env d n io hvn).2]
    exact fun _ => ⟨put_self _ _ _ hvn, hvn⟩
  | some s =>
    have hvn : d.view n ≠ none := by simp [Daemon.view, hn]
    simp only [Sync.removeDb, request, Daemon.handle, Request.route, Daemon.exec, Daemon.removeDb, Daemon.invalidate,
      Dbs.removeDb, hn]
    cases io with
    | failed => exact fun h => absurd rfl h
    | done => exact ⟨hvn, trivial⟩
    | notFound => exact ⟨hvn, trivial⟩

theorem removeEntryFromDb_ok {env : Env} (hord : HashOrder env.mapOrd) {d : Daemon} (h : Sound env d) (n k : List Char) :
    Sound env (Sync.removeEntryFromDb env n k d).2 ∧
    match (Sync.removeEntryFromDb env n k d).1 with
    | .ok _ => ∃ m x, d.view n = some m ∧ m k = some x ∧
      (Sync.removeEntryFromDb env n k d).2.view = Abs.put d.view n (some (Abs.put m k none))
    | .err _ => (Sync.removeEntryFromDb env n k d).2.view = d.view
    | .panic _ => False := by
  have hs := request_sim hord (.rmKv n k) (fun r => do
    let _ ← called r
    .ok ()) h
  have hv : (Sync.removeEntryFromDb env n k d).2.view = d.view.after (.removeKey n k) := hs.2
  refine ⟨hs.1, ?_⟩
  rw [hv]
  simp only [Abs.after]
  cases hn : AMap.get n d.dbs with
  | none =>
    have hvn : d.view n = none := by simp [Daemon.view, hn]
    rw [hvn]
    simp only [Sync.removeEntryFromDb, request, Daemon.handle, Request.route, Daemon.exec, Daemon.removeKey, Daemon.invalidate, Dbs.removeKey, hn]
    trivial
  | some s =>
    have hvn : d.view n = some (fun k => AMap.get k s) := by simp [Daemon.view, hn]
    rw [hvn]
    simp only [Sync.removeEntryFromDb, request, Daemon.handle, Request.route, Daemon.exec, Daemon.removeKey, Daemon.invalidate, Dbs.removeKey, hn]
    cases hk : AMap.get k s with
    | none =>
      show Abs.put d.view n (some (Abs.put (fun k => AMap.get k s) k none)) = d.view
      rw [put_self (fun k => AMap.get k s) k none hk]
      exact put_self _ _ _ hvn
    | some x => exact ⟨_, x, rfl, hk, rfl⟩

/-! ## Runs -/

/-- What holds throughout a run that was started as `s0`, until the databases are changed. -/
structure Base (env : Env) (s0 s : Session) : Prop where
  sound : Sound env s.daemon
  quiet : Quiet s.log
  script : ∃ used, s0.script = used ++ s.script
  others : s0.others = [] → s.others = []

/-- How a run ends that does not end well; `F` says that it may panic. -/
def Ended (T : Term) (s0 : Session) (F : Prop) (o : Option Stop) (s : Session) : Prop :=
  Quiet s.log ∧ (o = some .hang → Stuck T s0.script) ∧ (o = none → F)

theorem Quiet.append {l : List Event} {e : Event} (h : Quiet l) (he : ∀ b a, e = .talked b a → a.view = b.view) :
    Quiet (l ++ [e]) := by
  intro b a hm
  rcases List.mem_append.mp hm with hm | hm
  · exact h b a hm
  · exact he b a (List.mem_singleton.mp hm).symm

section
variable {env : Env} {T : Term} {s0 : Session} {F : Prop} {α : Type} {P : Session → Prop} {Q : α → Session → Prop}

theorem Stuck.mono {s : List Answer} (h : Stuck T s) (used : List Answer) : Stuck T (used ++ s) := by
  obtain ⟨p, q, rfl, hq⟩ := h
  exact ⟨used ++ p, q, by simp, hq⟩

theorem holds_dialog {d : Entry α} (hd : ∀ s, Ends T (d s) s)
    (h : ∀ s a rest, Base env s0 s → P s → d s.script = .ok (a, rest) → Q a { s with script := rest }) :
    Holds (fun s => Base env s0 s ∧ P s) (dialog d) (fun a s => Base env s0 s ∧ Q a s) (Ended T s0 F) := by
  refine Holds.dialog fun s ⟨hs, hp⟩ => ?_
  have he := hd s.script
  cases e : d s.script with
  | ok x =>
    obtain ⟨a, rest⟩ := x
    rw [e] at he
    obtain ⟨u, hu⟩ := he
    obtain ⟨u', hu'⟩ := hs.script
    exact ⟨⟨hs.sound, hs.quiet, ⟨u' ++ u, by rw [hu', hu]; simp⟩, hs.others⟩, h s a rest hs hp e⟩
  | err x =>
    rw [e] at he
    refine ⟨hs.quiet, fun hx => ?_, fun hx => by cases hx⟩
    cases hx
    obtain ⟨u', hu'⟩ := hs.script
    rw [hu']
    exact Stuck.mono he u'
  | panic x => rw [e] at he; exact he.elim

theorem holds_tell {e : Event} {Q : Unit → Session → Prop} (he : ∀ b a, e ≠ .talked b a)
    (h : ∀ s, Base env s0 s → P s → Q () { s with log := s.log ++ [e] }) :
    Holds (fun s => Base env s0 s ∧ P s) (tell e) (fun a s => Base env s0 s ∧ Q a s) (Ended T s0 F) :=
  Holds.tell fun s ⟨hs, hp⟩ =>
    ⟨⟨hs.sound, hs.quiet.append fun b a h => absurd h (he b a), hs.script, hs.others⟩, h s hs hp⟩

theorem holds_ask {q : Question} {Q : Bool → Session → Prop}
    (h : ∀ s rest b, Base env s0 s → P s → s.script = .confirm b :: rest →
      Q b { s with script := rest, log := s.log ++ [.asked q b] }) :
    Holds (fun s => Base env s0 s ∧ P s) (ask q) (fun a s => Base env s0 s ∧ Q a s) (Ended T s0 F) := by
  refine (holds_dialog (Q := fun b s => Q b { s with log := s.log ++ [.asked q b] }) (fun s => confirm_ends T s)
    fun s a rest hs hp e => h s rest a hs hp (confirm_iff.mp e)).bind fun b => ?_
  refine (holds_tell (P := fun s => Q b { s with log := s.log ++ [.asked q b] }) (Q := fun _ s => Q b s)
    (fun _ _ => by simp) fun s _ hp => hp).bind fun _ => ?_
  exact Holds.pure fun s h => h

theorem holds_call {c : Call α} (hord : HashOrder env.mapOrd) (h : ∀ s before, Base env s0 s → P s → Sound env before →
      (s.others = [] → before = s.daemon) →
      match (c before).1 with
      | .ok a => Q a { s with
          daemon := (c before).2, others := s.others.tail, log := s.log ++ [.talked before (c before).2] }
      | .err _ => (c before).2.view = before.view
      | .panic _ => (c before).2.view = before.view ∧ F) :
    Holds (fun s => Base env s0 s ∧ P s) (call env c) Q (Ended T s0 F) := by
  intro s ⟨hs, hp⟩
  obtain ⟨h1, h2, _⟩ := history_sim hord (s.others.headD []) s.daemon hs.sound.1 hs.sound.2
  have := h s (s.daemon.history env (s.others.headD [])) hs hp ⟨h1, h2⟩ (fun e => by rw [e]; rfl)
  unfold Cli.call
  cases e : (c (s.daemon.history env (s.others.headD []))).1 with
  | ok a => rw [e] at this; simp only [e, Out.mapErr]; exact this
  | err x =>
    rw [e] at this
    simp only [e, Out.mapErr]
    refine ⟨hs.quiet.append fun b a h => ?_, (fun h => by cases h), (fun h => by cases h)⟩
    cases h; exact this
  | panic x =>
    rw [e] at this
    simp only [e, Out.mapErr]
    refine ⟨hs.quiet.append fun b a h => ?_, (fun h => by cases h), fun h => this.2⟩
    cases h; exact this.1

theorem holds_read {c : Call α} (hord : HashOrder env.mapOrd) (hc : ReadOnly env c)
    (hf : (∃ d p, (c d).1 = .panic p) → F)
    (h : ∀ s before a, Base env s0 s → P s → Sound env before → (s.others = [] → before = s.daemon) →
      (c before).1 = .ok a → Q a { s with
        daemon := (c before).2, others := s.others.tail, log := s.log ++ [.talked before (c before).2] }) :
    Holds (fun s => Base env s0 s ∧ P s) (call env c) (fun a s => Base env s0 s ∧ Q a s) (Ended T s0 F) := by
  refine holds_call hord fun s before hs hp hb ho => ?_
  obtain ⟨h1, h2⟩ := hc before hb
  cases e : (c before).1 with
  | ok a =>
    exact ⟨⟨h1, hs.quiet.append fun b a h => (by cases h; exact h2), hs.script, fun h => by simp [hs.others h]⟩,
      h s before a hs hp hb ho e⟩
  | err x => exact h2
  | panic x => exact ⟨h2, hf ⟨before, x, e⟩⟩

end

/-- After the answers `used`. -/
def After (s0 s : Session) (used : List Answer) : Prop := s0.script = used ++ s.script

/-- The start of a command. -/
def Started (s0 s : Session) : Prop := After s0 s []

theorem After.step {s0 s : Session} {used more rest : List Answer} (h : After s0 s used) (e : s.script = more ++ rest)
    {t : Session} (ht : t.script = rest) : After s0 t (used ++ more) := by
  unfold After at h ⊢
  rw [h, e, ht, List.append_assoc]

theorem Listed.mono {names : List (List Char)} {l l' : List Event} (h : Listed names l) (hl : ∀ e ∈ l, e ∈ l') :
    Listed names l' := by
  obtain ⟨b, a, h1, h2⟩ := h
  exact ⟨b, a, hl _ h1, h2⟩

theorem Listed.append {names : List (List Char)} {l : List Event} (h : Listed names l) (m : List Event) :
    Listed names (l ++ m) := h.mono fun _ he => List.mem_append_left _ he

section
variable {env : Env} {T : Term} {s0 : Session} {F : Prop}

theorem newName_holds (names : List (List Char)) (n : Nat) (used : List Answer) :
    Holds (fun s => Base env s0 s ∧ (Listed names s.log ∧ After s0 s used)) (newName names n)
      (fun r s => Base env s0 s ∧ (Listed names s.log ∧ ∃ more, After s0 s (used ++ more) ∧ ChosenNew names r more))
      (Ended T s0 F) := by
  induction n generalizing used with
  | zero =>
    refine Holds.lift fun s hs => ⟨hs.1.quiet, fun h => ?_, fun h => ?_⟩ <;> cases h
  | succ n ih =>
    have ih' (pre : List Answer) (hpre : ∀ r more, ChosenNew names r more → ChosenNew names r (pre ++ more)) :
        Holds (fun s => Base env s0 s ∧ (Listed names s.log ∧ After s0 s (used ++ pre))) (newName names n)
          (fun r s => Base env s0 s ∧ (Listed names s.log ∧ ∃ more, After s0 s (used ++ more) ∧ ChosenNew names r more))
          (Ended T s0 F) := by
      refine (ih (used ++ pre)).mono (fun _ h => h) ?_
      rintro r s ⟨hs, hl, more, h1, h2⟩
      exact ⟨hs, hl, pre ++ more, by rwa [← List.append_assoc], hpre r more h2⟩
    refine (holds_dialog (Q := fun trial s => Listed names s.log ∧ ∃ as, Typed Reads.text trial as ∧ After s0 s (used ++ as))
      (fun s => input_ends T _ s) ?_).bind fun trial => ?_
    · rintro s trial rest hs ⟨hl, ha⟩ e
      obtain ⟨as, h1, h2⟩ := (input_iff stringOf_iff).mp e
      exact ⟨hl, as, h2, ha.step h1 rfl⟩
    intro s ⟨hs, hl, as, hty, ha⟩
    revert s
    suffices h : Holds (fun s => Base env s0 s ∧ (Listed names s.log ∧ After s0 s (used ++ as))) _
        (fun r s => Base env s0 s ∧ (Listed names s.log ∧ ∃ more, After s0 s (used ++ more) ∧ ChosenNew names r more))
        (Ended T s0 F) from fun s hs hl ha => h s ⟨hs, hl, ha⟩
    by_cases h1 : trial = kMeta
    · simp only [if_pos h1]
      refine (holds_tell (Q := fun _ s => Listed names s.log ∧ After s0 s (used ++ as)) (by simp)
        fun s _ h => ⟨h.1.append _, h.2⟩).bind fun _ => ?_
      subst h1
      exact ih' as fun r more h => .reserved hty h
    · simp only [if_neg h1]
      by_cases h2 : trial ∉ names
      · rw [if_pos h2]
        exact Holds.pure fun s hs => ⟨hs.1, hs.2.1, as, hs.2.2, .fresh hty h1 h2⟩
      · rw [if_neg h2]
        have h3 : trial ∈ names := by simpa using h2
        refine (holds_ask (Q := fun b s => Listed names s.log ∧ After s0 s (used ++ (as ++ [.confirm b]))) ?_).bind fun over => ?_
        · rintro s rest b hs ⟨hl, ha⟩ e
          refine ⟨hl.append _, ?_⟩
          rw [← List.append_assoc]
          exact ha.step (by rw [e]; rfl) rfl
        cases over with
        | true => exact Holds.pure fun s hs => ⟨hs.1, hs.2.1, _, hs.2.2, .overwrite hty h1 h3⟩
        | false =>
          refine ih' (as ++ [.confirm false]) fun r more h => ?_
          rw [List.append_assoc]
          exact .kept hty h1 h3 h

/-- What is known once a database has been chosen. -/
def Choice (s0 : Session) (new : Bool) (n : List Char) (s : Session) : Prop :=
  (∃ l, s.log = l ++ [.chose n]) ∧ ∃ names used, Listed names s.log ∧ After s0 s used ∧ Chosen names new n used

/-- `pick_db_name` changes nothing, and says which database it is about: the one that the user chose. -/
theorem pickDbName_holds (hord : HashOrder env.mapOrd) (new : Bool) :
    Holds (fun s => Base env s0 s ∧ Started s0 s) (pickDbName env new) (fun n s => Base env s0 s ∧ Choice s0 new n s)
      (Ended T s0 F) := by
  have chose (names : List (List Char)) (n : List Char) (used : List Answer) (hu : Chosen names new n used) :
      Holds (fun s => Base env s0 s ∧ (Listed names s.log ∧ After s0 s used))
      (do tell (.chose n); return n) (fun n s => Base env s0 s ∧ Choice s0 new n s) (Ended T s0 F) := by
    refine (holds_tell (Q := fun _ s => Choice s0 new n s) (by simp) fun s _ h =>
      ⟨⟨_, rfl⟩, names, used, h.1.append _, h.2, hu⟩).bind fun _ => ?_
    exact Holds.pure fun s h => h
  refine (holds_read hord (getAllDbs_readOnly hord) (Q := fun names s => Listed names s.log ∧ Started s0 s)
    (by rintro ⟨d, p, h⟩; cases h) ?_).bind fun names => ?_
  · intro s before names _ hst hb _ e
    obtain ⟨ns, e1, h1, h2⟩ := C56_get_all_dbs (env := env) hb.1
    rw [(C57_agree_partial env).2.1, e, Out.ok.injEq] at e1
    subst e1
    exact ⟨⟨before, _, List.mem_append_right _ (List.mem_singleton.mpr rfl), h1, h2⟩, hst⟩
  refine Holds.bind (Q := fun b s => Base env s0 s ∧ (Listed names s.log ∧
    After s0 s (if b = true then [.confirm true] else notNew new) ∧ (b = true → new = true))) ?_ fun b => ?_
  · cases new with
    | true =>
      refine holds_ask fun s rest b _ h e => ⟨h.1.append _, ?_, fun _ => rfl⟩
      have := h.2.step (more := [.confirm b]) (rest := rest) (by rw [e]; rfl)
        (t := { s with script := rest, log := s.log ++ [.asked .newDatabase b] }) rfl
      cases b <;> exact this
    | false => exact Holds.pure fun s h => ⟨h.1, h.2.1, h.2.2, fun h => by cases h⟩
  cases b with
  | true =>
    have hnew (hn : new = true) : Holds (fun s => Base env s0 s ∧ (Listed names s.log ∧ After s0 s [.confirm true]))
        (do let n ← (fun s => newName names (s.script.length + 1) s : Cli (List Char)); tell (.chose n); return n)
        (fun n s => Base env s0 s ∧ Choice s0 new n s) (Ended T s0 F) := by
      refine Holds.bind (Q := fun n s => Base env s0 s ∧ (Listed names s.log ∧
        ∃ more, After s0 s ([.confirm true] ++ more) ∧ ChosenNew names n more))
        (fun s hs => newName_holds names _ _ s hs) fun n => ?_
      intro s ⟨hs, hl, more, h1, h2⟩
      exact chose names n _ (.new hn h2) s ⟨hs, hl, h1⟩
    exact fun s hs => hnew (hs.2.2.2 rfl) s ⟨hs.1, hs.2.1, hs.2.2.1⟩
  | false =>
    refine Holds.mono (P := fun s => Base env s0 s ∧ (Listed names s.log ∧ After s0 s (notNew new))) ?_
      (fun s h => ⟨h.1, h.2.1, h.2.2.1⟩) fun _ _ h => h
    rcases names with _ | ⟨a, _ | ⟨b, names⟩⟩
    · refine Holds.lift fun s hs => ⟨hs.1.quiet, fun h => ?_, fun h => ?_⟩ <;> cases h
    · exact chose _ a _ (.only rfl)
    · refine (holds_dialog (Q := fun i s => i < (a :: b :: names).length ∧ Listed (a :: b :: names) s.log ∧
          After s0 s (notNew new ++ [.pick i])) (fun s => select_ends T _ s)
        fun s i rest _ h e => ⟨(select_iff.mp e).1, h.1, h.2.step (by rw [(select_iff.mp e).2]; rfl) rfl⟩).bind fun i => ?_
      intro s ⟨hs, hi, hl, ha⟩
      simp only [List.getElem?_eq_getElem hi]
      exact chose (a :: b :: names) _ _ (.pick (by simp) (List.getElem?_eq_getElem hi)) s ⟨hs, hl, ha⟩

/-- `pick_db` never ends well. -/
theorem pickDb_holds (hord : HashOrder env.mapOrd) (hF : F) :
    Holds (fun s => Base env s0 s ∧ Started s0 s) (pickDb env) (fun _ _ => False) (Ended T s0 F) := by
  refine (pickDbName_holds hord false).bind fun name => ?_
  refine Holds.bind (Q := fun _ _ => False) ?_ fun store => fun s hs => hs.elim
  refine (holds_read hord (getStore_readOnly hord name) (Q := fun _ _ => False) (fun _ => hF) ?_).mono
    (fun s h => h) (fun _ _ h => h.2)
  intro s before a _ _ _ _ h
  exact C53_refuted_get_store_sync env before name a h

end

end Mouse

end Souris
