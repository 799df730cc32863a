import Verif.Lemmas.Mouse
import Verif.Props.MouseEntry

/-! # Runs of `mouse`: C67 (consent), C68 (reports), C69 (runs end) -/

namespace Souris

open Mouse Cli Value

/-- A run may start: nothing is logged yet, and the daemon is one that C37 is about. -/
structure Session.Fresh (env : Env) (s : Session) : Prop where
  log : s.log = []
  dbs : DbsOk s.daemon.dbs
  cache : CacheOk env s.daemon

theorem Session.Fresh.of_history {env : Env} (hord : HashOrder env.mapOrd) (script : List Answer) (hs : List Happening)
    (others : List (List Happening)) : Session.Fresh env ⟨script, Daemon.history env {} hs, others, []⟩ := by
  obtain ⟨h1, h2, _⟩ := history_sim hord hs {} DbsOk.nil (by intro n b h; cases h)
  exact ⟨rfl, h1, h2⟩

/-! ## How each command ends -/

section
variable {env : Env} {T : Term} {s0 : Session} {F : Prop}

theorem run_holds' (hord : HashOrder env.mapOrd) {c : Command} {Q : Unit → Session → Prop}
    {E : Option Stop → Session → Prop} (hE : ∀ o s, Ended T s0 False o s → E o s)
    (h : Holds (fun s => Base env s0 s ∧ Started s0 s) (command env T c) Q E) (h0 : s0.Fresh env) :
    Holds (fun s => s = s0) (run env T c) Q E := by
  have h1 : Holds (fun s => Base env s0 s ∧ Started s0 s) (run env T c) Q E := by
    refine Holds.bind (Q := fun _ s => Base env s0 s ∧ Started s0 s) ?_ fun _ => h
    exact (holds_read hord (new_readOnly hord) (by rintro ⟨d, p, h⟩; cases h) fun _ _ _ _ h _ _ _ => h).weaken hE
  refine h1.mono (fun s hs => ?_) fun _ _ h => h
  subst hs
  refine ⟨⟨⟨h0.dbs, h0.cache⟩, ?_, ⟨[], rfl⟩, id⟩, rfl⟩
  rw [h0.log]
  intro b a h
  cases h

theorem run_holds (hord : HashOrder env.mapOrd) {c : Command} {Q : Unit → Session → Prop}
    (h : Holds (fun s => Base env s0 s ∧ Started s0 s) (command env T c) Q (Ended T s0 F)) (h0 : s0.Fresh env) :
    Holds (fun s => s = s0) (run env T c) Q (Ended T s0 F) :=
  run_holds' hord (fun _ _ h => ⟨h.1, h.2.1, fun e => (h.2.2 e).elim⟩) h h0

/-- What the log says when `CreateNew` has ended well. -/
def CreateLog (s0 : Session) (name : List Char) (log : List Event) : Prop :=
  ∃ pre, Quiet pre ∧
    ((log = pre ++ [.said .cancelledClearing] ∧ .asked .clearExisting false ∈ pre) ∨
    ∃ before after, after.view = Abs.put before.view name (some fun _ => none) ∧
      (s0.others = [] → before.view name = none ∨ .asked .clearExisting true ∈ pre) ∧
      ((log = pre ++ [.talked before after, .said .created] ∧ before.view name = none) ∨
       (log = pre ++ [.talked before after, .said .cleared] ∧ before.view name ≠ none)))

theorem create_holds (hb : HashOrder env.byteOrd) (hc : HashOrder env.charOrd) (hord : HashOrder env.mapOrd)
    (name : List Char) :
    Holds (fun s => Base env s0 s ∧ Started s0 s) (command env T (.createNew name)) (fun _ s => CreateLog s0 name s.log)
      (Ended T s0 False) := by
  refine (holds_read hord (getAllDbs_readOnly hord) (Q := fun all s => ∀ n, n ∈ all ↔ s.daemon.view n ≠ none)
    (by rintro ⟨d, p, h⟩; cases h) ?_).bind fun all => ?_
  · intro s before all _ _ hs _ e n
    obtain ⟨ns, e1, _, h⟩ := C56_get_all_dbs (env := env) hs.1
    rw [(C57_agree_partial env).2.1, e, Out.ok.injEq] at e1
    subst e1
    exact h n
  refine Holds.bind (Q := fun go s => Base env s0 s ∧
    (go = false → .asked .clearExisting false ∈ s.log) ∧
    (go = true → s.daemon.view name = none ∨ .asked .clearExisting true ∈ s.log)) ?_ fun go => ?_
  · by_cases hn : name ∈ all
    · rw [if_pos hn]
      refine holds_ask fun s rest b _ _ _ => ⟨?_, ?_⟩ <;> rintro rfl
      · exact List.mem_append_right _ (by simp)
      · exact .inr (List.mem_append_right _ (by simp))
    · rw [if_neg hn]
      refine Holds.pure fun s hs => ⟨hs.1, by simp, fun _ => .inl ?_⟩
      by_contra h
      exact hn ((hs.2 name).mpr h)
  cases go with
  | false =>
    exact Holds.tell fun s hs => ⟨s.log, hs.1.quiet, .inl ⟨rfl, hs.2.1 rfl⟩⟩
  | true =>
    refine Holds.bind (Q := fun new s => ∃ pre before after, Quiet pre ∧ s.log = pre ++ [.talked before after] ∧
      after.view = Abs.put before.view name (some fun _ => none) ∧ (new = true ↔ before.view name = none) ∧
      (s0.others = [] → before.view name = none ∨ .asked .clearExisting true ∈ pre)) ?_ fun new => ?_
    · refine holds_call hord fun s before hs hp hsb ho => ?_
      obtain ⟨_, h⟩ := createNewDb_ok hb hc hord hsb name
      split
      · next new e =>
        rw [e] at h
        refine ⟨s.log, before, _, hs.quiet, rfl, h.2, h.1, fun h0 => ?_⟩
        rw [ho (hs.others h0)]
        exact hp.2 rfl
      · next x e => rw [e] at h; exact h.1
      · next x e => rw [e] at h; exact h.elim
    · refine Holds.tell fun s ⟨pre, before, after, h1, h2, h3, h4, h5⟩ => ⟨pre, h1, .inr ⟨before, after, h3, h5, ?_⟩⟩
      cases new with
      | true => exact .inl ⟨by simp [h2], h4.mp rfl⟩
      | false => exact .inr ⟨by simp [h2], fun h => by have := h4.mpr h; cases this⟩

/-- What the log says when `AddEntry` has ended well, about the database, key and value that were entered, and the
answer to whether to add them. -/
def AddLog (env : Env) (n k : List Char) (v : Value) (yes : Bool) (s : Session) : Prop :=
  ∃ pre, Quiet pre ∧ .chose n ∈ pre ∧
    ((yes = false ∧ s.log = pre ++ [.said (.receivedKey k), .said (.receivedValue v), .asked .confirmAddition false,
      .said .cancelledAddition]) ∨
    ∃ before after c w bytes rest, yes = true ∧ s.daemon = after ∧
      s.log = pre ++ [.said (.receivedKey k), .said (.receivedValue v), .asked .confirmAddition true,
        .talked before after, .said (.creation c)] ∧
      after.view = Abs.put before.view n (some (Abs.put ((before.view n).getD fun _ => none) k (some w))) ∧
      Value.ser env none v = .ok bytes ∧ Value.deser env none (Cursor.new bytes) = .ok (w, rest) ∧
      (c = .insertedKeyIntoNewDB ↔ before.view n = none) ∧
      (c = .insertedKeyIntoExistingDB ↔ ∃ m, before.view n = some m ∧ m k = none) ∧
      (c = .overwroteKeyInExistingDB ↔ ∃ m x, before.view n = some m ∧ m k = some x))

/-- What the user entered: the answers `chosen`, `typed` and `spelled` are all that was read of the script so far. -/
def Entered (env : Env) (T : Term) (s0 : Session) (n k : List Char) (v : Value) (used : List Answer) (log : List Event) :
    Prop :=
  ∃ names chosen typed spelled, used = chosen ++ (typed ++ spelled) ∧ Listed names log ∧ Chosen names true n chosen ∧
    Typed Reads.text k typed ∧ Spells env T v spelled

theorem Entered.append {n k : List Char} {v : Value} {used : List Answer} {log : List Event}
    (h : Entered env T s0 n k v used log) (m : List Event) : Entered env T s0 n k v used (log ++ m) := by
  obtain ⟨names, c, t, p, h1, h2, h3⟩ := h
  exact ⟨names, c, t, p, h1, h2.append m, h3⟩

theorem add_holds (hb : HashOrder env.byteOrd) (hord : HashOrder env.mapOrd) :
    Holds (fun s => Base env s0 s ∧ Started s0 s) (command env T .addEntry)
      (fun _ s => ∃ n k v used yes, Entered env T s0 n k v used s.log ∧ s0.script = used ++ .confirm yes :: s.script ∧
        AddLog env n k v yes s)
      (Ended T s0 False) := by
  refine (pickDbName_holds hord true).bind fun n => ?_
  refine (holds_dialog (Q := fun k s => (∃ l, s.log = l ++ [.chose n]) ∧ ∃ names chosen typed, Listed names s.log ∧
    Chosen names true n chosen ∧ Typed Reads.text k typed ∧ After s0 s (chosen ++ typed))
    (fun s => input_ends T _ s) ?_).bind fun k => ?_
  · rintro s k rest hs ⟨hp, names, chosen, hl, ha, hc⟩ e
    obtain ⟨typed, h1, h2⟩ := (input_iff stringOf_iff).mp e
    exact ⟨hp, names, chosen, typed, hl, hc, h2, ha.step h1 rfl⟩
  refine (holds_dialog (Q := fun v s => (∃ l, s.log = l ++ [.chose n]) ∧ ∃ used, Entered env T s0 n k v used s.log ∧
    After s0 s used) (fun s => valueN_ends env T _ s) ?_).bind fun v => ?_
  · rintro s v rest hs ⟨hp, names, chosen, typed, hl, hc, ht, ha⟩ e
    obtain ⟨spelled, h1, h2⟩ := (C65_entry_partial env T s.script v rest).mp e
    exact ⟨hp, _, ⟨names, chosen, typed, spelled, rfl, hl, hc, ht, h2⟩, by
      rw [← List.append_assoc]; exact ha.step h1 rfl⟩
  refine (holds_tell (Q := fun _ s => (∃ pre, Quiet pre ∧ .chose n ∈ pre ∧ s.log = pre ++ [.said (.receivedKey k)]) ∧
    ∃ used, Entered env T s0 n k v used s.log ∧ After s0 s used) (by simp) ?_).bind fun _ => ?_
  · rintro s hs ⟨⟨l, hl⟩, used, hu, ha⟩
    exact ⟨⟨s.log, hs.quiet, by simp [hl], rfl⟩, used, hu.append _, ha⟩
  refine (holds_tell (Q := fun _ s => (∃ pre, Quiet pre ∧ .chose n ∈ pre ∧
      s.log = pre ++ [.said (.receivedKey k), .said (.receivedValue v)]) ∧
    ∃ used, Entered env T s0 n k v used s.log ∧ After s0 s used) (by simp) ?_).bind fun _ => ?_
  · rintro s hs ⟨⟨pre, h1, h2, h3⟩, used, hu, ha⟩
    exact ⟨⟨pre, h1, h2, by simp [h3]⟩, used, hu.append _, ha⟩
  refine (holds_ask (Q := fun go s => (∃ pre, Quiet pre ∧ .chose n ∈ pre ∧
      s.log = pre ++ [.said (.receivedKey k), .said (.receivedValue v), .asked .confirmAddition go]) ∧
    ∃ used, Entered env T s0 n k v used s.log ∧ s0.script = used ++ .confirm go :: s.script) ?_).bind fun go => ?_
  · rintro s rest go hs ⟨⟨pre, h1, h2, h3⟩, used, hu, ha⟩ e
    exact ⟨⟨pre, h1, h2, by simp [h3]⟩, used, hu.append _, by rw [ha, e]⟩
  cases go with
  | false =>
    refine Holds.tell ?_
    rintro s ⟨hs, ⟨pre, h1, h2, h3⟩, used, hu, ha⟩
    exact ⟨n, k, v, used, false, hu.append _, ha, pre, h1, h2, .inl ⟨rfl, by simp [h3]⟩⟩
  | true =>
    refine Holds.bind (Q := fun c s => ∃ pre before after w bytes rest used, s.daemon = after ∧ Quiet pre ∧ .chose n ∈ pre ∧
      s.log = pre ++ [.said (.receivedKey k), .said (.receivedValue v), .asked .confirmAddition true,
        .talked before after] ∧
      after.view = Abs.put before.view n (some (Abs.put ((before.view n).getD fun _ => none) k (some w))) ∧
      Value.ser env none v = .ok bytes ∧ Value.deser env none (Cursor.new bytes) = .ok (w, rest) ∧
      (c = .insertedKeyIntoNewDB ↔ before.view n = none) ∧
      (c = .insertedKeyIntoExistingDB ↔ ∃ m, before.view n = some m ∧ m k = none) ∧
      (c = .overwroteKeyInExistingDB ↔ ∃ m x, before.view n = some m ∧ m k = some x) ∧
      Entered env T s0 n k v used s.log ∧ s0.script = used ++ .confirm true :: s.script) ?_ fun c => ?_
    · refine holds_call hord ?_
      rintro s before hs ⟨⟨pre, h1, h2, h3⟩, used, hu, ha⟩ hsb _
      obtain ⟨_, h⟩ := addEntryToDb_ok hb hord hsb n k v
      split
      · next c e =>
        rw [e] at h
        obtain ⟨c1, c2, c3, w, bytes, rest, e1, e2, e3⟩ := h
        exact ⟨pre, before, _, w, bytes, rest, used, rfl, h1, h2, by simp [h3], e3, e1, e2, c1, c2, c3, hu.append _, ha⟩
      · next x e => rw [e] at h; simp only at h; rw [h.1]
      · next x e => rw [e] at h; exact h.elim
    · refine Holds.tell ?_
      rintro s ⟨pre, before, after, w, bytes, rest, used, h0, h1, h2, h3, e3, e1, e2, c1, c2, c3, hu, ha⟩
      exact ⟨n, k, v, used, true, hu.append _, ha, pre, h1, h2,
        .inr ⟨before, after, c, w, bytes, rest, rfl, h0, by simp [h3], e3, e1, e2, c1, c2, c3⟩⟩

/-- What the log says when `RemoveDatabase` has ended well. -/
def RemoveLog (s0 s : Session) : Prop :=
  ∃ pre names n used before after, Quiet pre ∧ .chose n ∈ pre ∧ Listed names pre ∧ Chosen names false n used ∧
    s0.script = used ++ s.script ∧ s.log = pre ++ [.talked before after, .said .removedDatabase] ∧
    before.view n ≠ none ∧ after.view = Abs.put before.view n none

theorem remove_holds (hord : HashOrder env.mapOrd) (hio : T.unlink ≠ .failed) :
    Holds (fun s => Base env s0 s ∧ Started s0 s) (command env T .removeDatabase) (fun _ s => RemoveLog s0 s)
      (Ended T s0 False) := by
  refine (pickDbName_holds hord false).bind fun n => ?_
  refine Holds.bind (Q := fun _ s => ∃ pre names used before after, Quiet pre ∧ .chose n ∈ pre ∧ Listed names pre ∧
    Chosen names false n used ∧ s0.script = used ++ s.script ∧
    s.log = pre ++ [.talked before after] ∧ before.view n ≠ none ∧ after.view = Abs.put before.view n none) ?_ fun _ => ?_
  · refine holds_call hord ?_
    rintro s before hs ⟨⟨l, hl⟩, names, used, h1, h2, h3⟩ hsb _
    obtain ⟨_, h⟩ := removeDb_ok hord hsb n T.unlink
    split
    · next c e =>
      rw [e] at h
      exact ⟨s.log, names, used, before, _, hs.quiet, by simp [hl], h1, h3, h2, rfl, h.1, h.2⟩
    · next x e => rw [e] at h; exact (h hio).1
    · next x e => rw [e] at h; exact h.elim
  · refine Holds.tell ?_
    rintro s ⟨pre, names, used, before, after, h1, h2, h3, h4, h5, h6, h7, h8⟩
    exact ⟨pre, names, n, used, before, after, h1, h2, h3, h4, h5, by simp [h6], h7, h8⟩

/-- The same, whether the daemon can delete the file or not. -/
theorem remove_log (hord : HashOrder env.mapOrd) :
    Holds (fun s => Base env s0 s ∧ Started s0 s) (command env T .removeDatabase) (fun _ s => RemoveLog s0 s)
      (fun _ _ => True) := by
  refine ((pickDbName_holds (T := T) (F := False) hord false).weaken fun _ _ _ => trivial).bind fun n => ?_
  refine Holds.bind (Q := fun _ s => ∃ pre names used before after, Quiet pre ∧ .chose n ∈ pre ∧ Listed names pre ∧
    Chosen names false n used ∧ s0.script = used ++ s.script ∧
    s.log = pre ++ [.talked before after] ∧ before.view n ≠ none ∧ after.view = Abs.put before.view n none) ?_ fun _ => ?_
  · rintro s ⟨hs, ⟨l, hl⟩, names, used, h3, h4, h5⟩
    obtain ⟨h1, h2, _⟩ := history_sim hord (s.others.headD []) s.daemon hs.sound.1 hs.sound.2
    obtain ⟨_, h⟩ := removeDb_ok hord ⟨h1, h2⟩ n T.unlink
    unfold Cli.call
    cases e : (Client.Sync.removeDb env n T.unlink (s.daemon.history env (s.others.headD []))).1 with
    | ok a =>
      rw [e] at h
      simp only [e, Out.mapErr]
      exact ⟨s.log, names, used, _, _, hs.quiet, by simp [hl], h3, h5, h4, rfl, h.1, h.2⟩
    | err x => simp only [e, Out.mapErr]
    | panic x => simp only [e, Out.mapErr]
  · refine Holds.tell ?_
    rintro s ⟨pre, names, used, before, after, h1, h2, h3, h4, h5, h6, h7, h8⟩
    exact ⟨pre, names, n, used, before, after, h1, h2, h3, h4, h5, by simp [h6], h7, h8⟩

/-- How a run ends that does not end well, without what it did. -/
def EndedHow (T : Term) (s0 : Session) (F : Prop) (o : Option Stop) (_ : Session) : Prop :=
  (o = some .hang → Stuck T s0.script) ∧ (o = none → F)

theorem Ended.how {o : Option Stop} {s : Session} (h : Ended T s0 F o s) : EndedHow T s0 F o s := h.2

theorem remove_ends (hord : HashOrder env.mapOrd) :
    Holds (fun s => Base env s0 s ∧ Started s0 s) (command env T .removeDatabase) (fun _ _ => True)
      (EndedHow T s0 False) := by
  refine ((pickDbName_holds hord false).weaken fun _ _ => Ended.how).bind fun n => ?_
  refine Holds.bind (Q := fun _ _ => True) ?_ fun _ => Holds.tell fun _ _ => trivial
  intro s ⟨hs, _⟩
  obtain ⟨h1, h2, _⟩ := history_sim hord (s.others.headD []) s.daemon hs.sound.1 hs.sound.2
  obtain ⟨_, h⟩ := removeDb_ok hord ⟨h1, h2⟩ n T.unlink
  unfold Cli.call
  cases e : (Client.Sync.removeDb env n T.unlink (s.daemon.history env (s.others.headD []))).1 with
  | ok a => simp only [e, Out.mapErr]
  | err x => simp only [e, Out.mapErr]; exact ⟨(fun h => by cases h), fun h => by cases h⟩
  | panic x => rw [e] at h; exact h.elim

theorem jsonStore_no_panic (bytes : List UInt8) (p : Panic) : jsonStore env bytes ≠ .panic p := by
  unfold jsonStore
  split
  · simp
  · rename_i text _
    unfold Store.fromJsonBytes
    split
    · simp [Out.mapErr]
    · rename_i j _
      have hv : ∀ p, Store.fromJson env j ≠ .panic p := by
        intro p h
        unfold Store.fromJson at h
        have := C31_no_panic env j
        split at h <;> rename_i e <;> first | exact this _ e | cases h
      split <;> rename_i e <;> simp [Out.mapErr]
      exact absurd e (hv _)

theorem import_holds (hb : HashOrder env.byteOrd) (hc : HashOrder env.charOrd) (hord : HashOrder env.mapOrd)
    (path : List Char) :
    Holds (fun s => Base env s0 s ∧ Started s0 s) (command env T (.importFromJson path)) (fun _ _ => False)
      (Ended T s0 False) := by
  refine Holds.bind (Q := fun _ s => Base env s0 s ∧ Started s0 s) ?_ fun bytes => ?_
  · refine Holds.lift fun s hs => ?_
    unfold readFile
    split <;> rename_i e
    · exact hs
    · split at e <;> cases e; exact ⟨hs.1.quiet, (fun h => by cases h), fun h => by cases h⟩
    · split at e <;> cases e
  refine Holds.bind (Q := fun _ s => Base env s0 s ∧ Started s0 s) ?_ fun store => ?_
  · refine Holds.lift fun s hs => ?_
    split <;> rename_i e
    · exact hs
    · refine ⟨hs.1.quiet, fun h => ?_, fun h => by cases h⟩
      cases h
      unfold jsonStore at e
      split at e
      · cases e
      · generalize Store.fromJsonBytes env _ = o at e
        cases o <;> cases e
    · exact absurd e (jsonStore_no_panic bytes _)
  refine (pickDbName_holds hord true).bind fun n => ?_
  refine Holds.bind (Q := fun _ _ => False) ?_ fun _ => fun _ h => h.elim
  refine holds_call hord fun s before hs hp hsb _ => ?_
  obtain ⟨⟨e, h1⟩, h2⟩ := addDbWithContents_error hb hc true n store before
  rw [h1, h2]

/-- The commands that fetch a whole database. -/
def Command.Fetches : Command → Prop
  | .viewAll | .debugViewAll | .removeEntry | .updateEntry | .exportToJson _ _ => True
  | _ => False

theorem fetch_holds (hord : HashOrder env.mapOrd) {c : Command} (hc : c.Fetches) :
    Holds (fun s => Base env s0 s ∧ Started s0 s) (command env T c) (fun _ _ => False) (Ended T s0 True) := by
  cases c <;> first
    | exact hc.elim
    | exact (pickDb_holds hord trivial).bind fun _ => fun _ h => h.elim

end

/-- `Holds`, for a run. -/
theorem run_cases {env : Env} {T : Term} {s : Session} {F : Prop} {c : Command} {Q : Unit → Session → Prop}
    (h : Holds (fun t => t = s) (run env T c) Q (Ended T s F)) :
    ((run env T c s).1 = .ok () ∧ Q () (run env T c s).2) ∨
    ((run env T c s).1 ≠ .ok () ∧ Quiet (run env T c s).2.log ∧
      ((run env T c s).1 = .err .hang → Stuck T s.script) ∧ ((∃ p, (run env T c s).1 = .panic p) → F)) := by
  have := h s rfl
  split at this <;> rename_i e <;> rw [e]
  · exact .inl ⟨rfl, this⟩
  · exact .inr ⟨by simp, this.1, fun h => this.2.1 (by cases h; rfl), by rintro ⟨p, h⟩; cases h⟩
  · exact .inr ⟨by simp, this.1, (fun h => by cases h), fun _ => this.2.2 rfl⟩

/-! ## C67 -/

theorem Mouse.Quiet.not_mem {l : List Event} (h : Quiet l) {before after : Daemon} (hv : after.view ≠ before.view) :
    .talked before after ∉ l := fun hm => hv (h before after hm)

/-- Where the changing request of a log is. -/
theorem split_at {pre done rest tail : List Event} {before after b a : Daemon} (mid : List Event) (hq : Quiet pre)
    (hm : ∀ x y, .talked x y ∉ mid) (ht : ∀ x y, .talked x y ∉ tail)
    (h : pre ++ (mid ++ .talked b a :: tail) = done ++ .talked before after :: rest) (hv : after.view ≠ before.view) :
    done = pre ++ mid ∧ b = before ∧ a = after := by
  rw [← List.append_assoc] at h
  have hq' : .talked before after ∉ pre ++ mid := fun hx =>
    (List.mem_append.mp hx).elim (hq.not_mem hv) (hm _ _)
  rcases List.append_eq_append_iff.mp h with ⟨u, h1, h2⟩ | ⟨u, h1, h2⟩
  · cases u with
    | nil => simp at h1 h2; exact ⟨h1, h2.1.1, h2.1.2⟩
    | cons x u =>
      simp only [List.cons_append, List.cons.injEq] at h2
      exact absurd (h2.2 ▸ List.mem_append_right u (List.mem_cons_self ..)) (ht before after)
  · cases u with
    | nil =>
      simp only [List.append_nil, List.nil_append, List.cons.injEq, Event.talked.injEq] at h1 h2
      exact ⟨h1.symm, h2.1.1.symm, h2.1.2.symm⟩
    | cons x u =>
      simp only [List.cons_append, List.cons.injEq] at h2
      exact absurd (h1 ▸ List.mem_append_right done (h2.1 ▸ List.mem_cons_self ..)) hq'

/-- C67, partial: whatever the user, the files and the other clients do, and however the run ends, a request
changes the databases only after the user agreed to that. Missing: `RemoveDatabase`, which never asks, and
`CreateNew` while others create the same database, see `C67_refuted_*`. -/
theorem C67_consent_partial {env : Env} (hb : HashOrder env.byteOrd) (hc : HashOrder env.charOrd)
    (hord : HashOrder env.mapOrd) (T : Term) (c : Command) (s : Session) (hs : s.Fresh env) (hrm : c ≠ .removeDatabase)
    (hnew : ∀ name, c = .createNew name → s.others = []) (done rest : List Event) (before after : Daemon)
    (h : (run env T c s).2.log = done ++ .talked before after :: rest) (hv : after.view ≠ before.view) :
    Consent done before c := by
  have bad {P : Prop} (hq : Quiet (run env T c s).2.log) : P :=
    absurd (by rw [h]; simp) (hq.not_mem hv)
  have fetch (hf : c.Fetches) : Quiet (run env T c s).2.log := by
    rcases run_cases (run_holds hord (fetch_holds (T := T) hord hf) hs) with ⟨_, h⟩ | ⟨_, hq, _⟩
    · exact h.elim
    · exact hq
  cases c with
  | removeDatabase => exact absurd rfl hrm
  | createNew name =>
    rcases run_cases (run_holds hord (create_holds hb hc hord name) hs) with ⟨_, pre, hq, hl⟩ | ⟨_, hq, _⟩
    · rcases hl with ⟨hl, _⟩ | ⟨b, a, hva, hask, hl⟩
      · refine bad ?_
        rw [hl]
        exact hq.append fun _ _ h => by cases h
      · have : ∃ m, (run env T (.createNew name) s).2.log = pre ++ ([] ++ .talked b a :: [.said m]) := by
          rcases hl with ⟨hl, _⟩ | ⟨hl, _⟩ <;> exact ⟨_, hl⟩
        obtain ⟨m, hl⟩ := this
        rw [h] at hl
        obtain ⟨h1, rfl, rfl⟩ := split_at [] hq (by simp) (by simp) hl.symm hv
        rw [List.append_nil] at h1
        rw [h1]
        exact hask (hnew name rfl)
    · exact bad hq
  | addEntry =>
    rcases run_cases (run_holds hord (add_holds (T := T) hb hord) hs) with
      ⟨_, n, k, v, used, yes, _, _, pre, hq, _, hl⟩ | ⟨_, hq, _⟩
    · rcases hl with ⟨_, hl⟩ | ⟨b, a, c, w, bytes, r, _, _, hl, _⟩
      · refine bad ?_
        rw [hl]
        intro x y hm
        simp only [List.mem_append, List.mem_cons, List.not_mem_nil, reduceCtorEq, or_false] at hm
        exact hq x y hm
      · rw [h] at hl
        obtain ⟨h1, rfl, rfl⟩ := split_at
          [.said (.receivedKey k), .said (.receivedValue v), .asked .confirmAddition true] hq (by simp)
          (tail := [.said (.creation c)]) (by simp) hl.symm hv
        rw [h1]
        simp [Consent]
    · exact bad hq
  | importFromJson path =>
    rcases run_cases (run_holds hord (import_holds (T := T) hb hc hord path) hs) with ⟨_, h⟩ | ⟨_, hq, _⟩
    · exact h.elim
    · exact bad hq
  | viewAll | debugViewAll | removeEntry | updateEntry | exportToJson =>
    exact bad (fetch trivial)

/-- C67 is violated: `RemoveDatabase` removes the only database at once, without any question. -/
theorem C67_refuted_remove (env : Env) (T : Term) (hio : T.unlink = .done) (script : List Answer) (db : Store) :
    ∃ t, run env T .removeDatabase ⟨script, ⟨[(['d'], db)], []⟩, [], []⟩ = (.ok (), t) ∧
      t.daemon.view ['d'] = none ∧ ∀ q b, .asked q b ∉ t.log := by
  obtain ⟨files, now, f64, ip4, ip6, unlink⟩ := T
  simp only at hio
  subst hio
  refine ⟨_, rfl, rfl, fun q b h => ?_⟩
  simp at h

/-- C67 is violated: `CreateNew` clears a database that another client created since the names were listed, without
any question. -/
theorem C67_refuted_race (env : Env) (T : Term) :
    ∃ t, run env T (.createNew ['d']) ⟨[], {}, [[], [], [.request (.addKv ['d'] ['k'] true true [0x90])]], []⟩ =
        (.ok (), t) ∧
      (∃ before after rest, t.log = rest ++ [.talked before after, .said .cleared] ∧ before.view ['d'] ≠ none ∧
        after.view ['d'] = some fun _ => none) ∧ ∀ q b, .asked q b ∉ t.log := by
  refine ⟨_, rfl, ⟨_, _, [_, _], rfl, (fun h => by cases h), rfl⟩, fun q b h => ?_⟩
  simp at h

theorem pickKey_holds {env : Env} {T : Term} {s0 : Session} {F : Prop} (store : Store) :
    Holds (fun s => Base env s0 s ∧ Started s0 s) (pickKey store)
      (fun k s => Base env s0 s ∧ ∃ i, (store.map Prod.fst)[i]? = some k ∧ After s0 s [.pick i]) (Ended T s0 F) := by
  refine (holds_dialog (Q := fun i s => i < store.length ∧ After s0 s [.pick i]) (fun s => select_ends T _ s)
    fun s i rest _ h e => ⟨(select_iff.mp e).1, h.step (by rw [(select_iff.mp e).2]; rfl) rfl⟩).bind fun i => ?_
  intro s hs
  have hi : i < (store.map Prod.fst).length := by simpa using hs.2.1
  simp only [List.getElem?_eq_getElem hi]
  exact ⟨hs.1, i, List.getElem?_eq_getElem hi, hs.2.2⟩

theorem part_cases {env : Env} {T : Term} {s : Session} {F : Prop} {x : Cli Unit} {Q : Unit → Session → Prop}
    (h : Holds (fun t => Base env s t ∧ Started s t) x Q (Ended T s F)) (hs : s.Fresh env) :
    Q () (x s).2 ∨ Quiet (x s).2.log := by
  have := h s ⟨⟨⟨hs.dbs, hs.cache⟩, (by rw [hs.log]; intro b a h; cases h), ⟨[], rfl⟩, id⟩, rfl⟩
  split at this
  · exact .inl this
  · exact .inr this.1
  · exact .inr this.1

/-- C67: `RemoveEntry`, once a database has been fetched, changes nothing but the key that was picked from it, and that
only after the user agreed. (It never gets that far, `C68_refuted_fetch`.) -/
theorem C67_remove_entry {env : Env} (hord : HashOrder env.mapOrd) (name : List Char) (store : Store) (s : Session)
    (hs : s.Fresh env) (done rest : List Event) (before after : Daemon)
    (h : (removeFrom env name store s).2.log = done ++ .talked before after :: rest) (hv : after.view ≠ before.view) :
    .asked .confirmRemoval true ∈ done ∧ ∃ i k m,
      s.script = .pick i :: .confirm true :: (removeFrom env name store s).2.script ∧
      (store.map Prod.fst)[i]? = some k ∧ before.view name = some m ∧
      after.view = Abs.put before.view name (some (Abs.put m k none)) := by
  have hx : Holds (fun t => Base env s t ∧ Started s t) (removeFrom env name store)
      (fun _ t => Quiet t.log ∨ ∃ pre b a i k m, Quiet pre ∧
        t.log = pre ++ [.asked .confirmRemoval true, .talked b a, .said .removedKey] ∧
        (store.map Prod.fst)[i]? = some k ∧ After s t [.pick i, .confirm true] ∧
        b.view name = some m ∧ a.view = Abs.put b.view name (some (Abs.put m k none)))
      (Ended sampleTerm s False) := by
    unfold removeFrom
    split
    · exact Holds.tell fun t ht => .inl (ht.1.quiet.append fun _ _ h => by cases h)
    · refine (pickKey_holds store).bind fun k => ?_
      refine (holds_ask (Q := fun go t => (∃ i, (store.map Prod.fst)[i]? = some k ∧ After s t [.pick i, .confirm go]) ∧
        ∃ pre, Quiet pre ∧ t.log = pre ++ [.asked .confirmRemoval go]) ?_).bind fun go => ?_
      · rintro t r go ht ⟨i, hk, ha⟩ e
        exact ⟨⟨i, hk, ha.step (more := [.confirm go]) e rfl⟩, t.log, ht.quiet, rfl⟩
      cases go with
      | false => exact Holds.tell fun t ht => .inl (ht.1.quiet.append fun _ _ h => by cases h)
      | true =>
        refine Holds.bind (Q := fun _ t => ∃ pre b a i m, Quiet pre ∧
          t.log = pre ++ [.asked .confirmRemoval true, .talked b a] ∧ (store.map Prod.fst)[i]? = some k ∧
          After s t [.pick i, .confirm true] ∧
          b.view name = some m ∧ a.view = Abs.put b.view name (some (Abs.put m k none))) ?_ fun _ => ?_
        · refine holds_call hord ?_
          rintro t b ht ⟨⟨i, hk, ha⟩, pre, hq, hl⟩ hb _
          obtain ⟨_, hd⟩ := removeEntryFromDb_ok hord hb name k
          split <;> rename_i e <;> rw [e] at hd
          · obtain ⟨m, x, h1, _, h2⟩ := hd
            exact ⟨pre, b, _, i, m, hq, by simp [hl], hk, ha, h1, h2⟩
          · exact hd
          · exact hd.elim
        · refine Holds.tell ?_
          rintro t ⟨pre, b, a, i, m, h1, h2, h3, h4, h5, h6⟩
          exact .inr ⟨pre, b, a, i, k, m, h1, by simp [h2], h3, h4, h5, h6⟩
  have bad {P : Prop} (hq : Quiet (removeFrom env name store s).2.log) : P :=
    absurd (by rw [h]; simp) (hq.not_mem hv)
  rcases part_cases hx hs with (hq | ⟨pre, b, a, i, k, m, hq, hl, hk, ha, h1, h2⟩) | hq
  · exact bad hq
  · rw [h] at hl
    obtain ⟨h3, rfl, rfl⟩ := split_at [.asked .confirmRemoval true] hq (by simp) (tail := [.said .removedKey]) (by simp)
      hl.symm hv
    exact ⟨by simp [h3], i, k, m, ha, hk, h1, h2⟩
  · exact bad hq

/-- C67: `UpdateEntry`, once a database has been fetched, changes nothing but the key that was picked from it, and that
only after the user agreed; the new value is the one that the daemon reads from what the typed one is sent as. (It
never gets that far, `C68_refuted_fetch`.) -/
theorem C67_update_entry {env : Env} (hb : HashOrder env.byteOrd) (hord : HashOrder env.mapOrd) (T : Term)
    (name : List Char) (store : Store) (s : Session) (hs : s.Fresh env) (done rest : List Event) (before after : Daemon)
    (h : (updateIn env T name store s).2.log = done ++ .talked before after :: rest) (hv : after.view ≠ before.view) :
    .asked .confirmUpdate true ∈ done ∧ ∃ i k v spelled w bytes r,
      s.script = .pick i :: (spelled ++ .confirm true :: (updateIn env T name store s).2.script) ∧
      (store.map Prod.fst)[i]? = some k ∧ Spells env T v spelled ∧
      Value.ser env none v = .ok bytes ∧ Value.deser env none (Cursor.new bytes) = .ok (w, r) ∧
      after.view = Abs.put before.view name (some (Abs.put ((before.view name).getD fun _ => none) k (some w))) := by
  have hx : Holds (fun t => Base env s t ∧ Started s t) (updateIn env T name store)
      (fun _ t => Quiet t.log ∨ ∃ pre b a i k v spelled w bytes r c, Quiet pre ∧
        t.log = pre ++ [.asked .confirmUpdate true, .talked b a, .said (.creation c)] ∧
        (store.map Prod.fst)[i]? = some k ∧ Spells env T v spelled ∧ After s t ([.pick i] ++ spelled ++ [.confirm true]) ∧
        Value.ser env none v = .ok bytes ∧ Value.deser env none (Cursor.new bytes) = .ok (w, r) ∧
        a.view = Abs.put b.view name (some (Abs.put ((b.view name).getD fun _ => none) k (some w))))
      (Ended T s False) := by
    unfold updateIn
    split
    · exact Holds.tell fun t ht => .inl (ht.1.quiet.append fun _ _ h => by cases h)
    · refine (pickKey_holds store).bind fun k => ?_
      refine (holds_dialog (Q := fun v t => ∃ i spelled, (store.map Prod.fst)[i]? = some k ∧ Spells env T v spelled ∧
        After s t ([.pick i] ++ spelled)) (fun t => valueN_ends env T _ t) ?_).bind fun v => ?_
      · rintro t v r ht ⟨i, hk, ha⟩ e
        obtain ⟨spelled, h1, h2⟩ := (C65_entry_partial env T t.script v r).mp e
        exact ⟨i, spelled, hk, h2, ha.step h1 rfl⟩
      refine (holds_ask (Q := fun go t => (∃ i spelled, (store.map Prod.fst)[i]? = some k ∧ Spells env T v spelled ∧
          After s t ([.pick i] ++ spelled ++ [.confirm go])) ∧
        ∃ pre, Quiet pre ∧ t.log = pre ++ [.asked .confirmUpdate go]) ?_).bind fun go => ?_
      · rintro t r go ht ⟨i, spelled, hk, hp, ha⟩ e
        exact ⟨⟨i, spelled, hk, hp, ha.step (more := [.confirm go]) e rfl⟩, t.log, ht.quiet, rfl⟩
      cases go with
      | false => exact Holds.tell fun t ht => .inl (ht.1.quiet.append fun _ _ h => by cases h)
      | true =>
        refine Holds.bind (Q := fun _ t => ∃ pre b a i spelled w bytes r, Quiet pre ∧
          t.log = pre ++ [.asked .confirmUpdate true, .talked b a] ∧ (store.map Prod.fst)[i]? = some k ∧
          Spells env T v spelled ∧ After s t ([.pick i] ++ spelled ++ [.confirm true]) ∧
          Value.ser env none v = .ok bytes ∧ Value.deser env none (Cursor.new bytes) = .ok (w, r) ∧
          a.view = Abs.put b.view name (some (Abs.put ((b.view name).getD fun _ => none) k (some w)))) ?_ fun c => ?_
        · refine holds_call hord ?_
          rintro t b ht ⟨⟨i, spelled, hk, hp, ha⟩, pre, hq, hl⟩ hsb _
          obtain ⟨_, hd⟩ := addEntryToDb_ok hb hord hsb name k v
          split <;> rename_i e <;> rw [e] at hd
          · obtain ⟨_, _, _, w, bytes, r, e1, e2, h2⟩ := hd
            exact ⟨pre, b, _, i, spelled, w, bytes, r, hq, by simp [hl], hk, hp, ha, e1, e2, h2⟩
          · simp only at hd; rw [hd.1]
          · exact hd.elim
        · refine Holds.tell ?_
          rintro t ⟨pre, b, a, i, spelled, w, bytes, r, h1, h2, h3, h4, h5, h6⟩
          exact .inr ⟨pre, b, a, i, k, v, spelled, w, bytes, r, c, h1, by simp [h2], h3, h4, h5, h6⟩
  have bad {P : Prop} (hq : Quiet (updateIn env T name store s).2.log) : P :=
    absurd (by rw [h]; simp) (hq.not_mem hv)
  rcases part_cases hx hs with (hq | ⟨pre, b, a, i, k, v, spelled, w, bytes, r, c, hq, hl, hk, hp, ha, e1, e2, h1⟩) | hq
  · exact bad hq
  · rw [h] at hl
    obtain ⟨h3, rfl, rfl⟩ := split_at [.asked .confirmUpdate true] hq (by simp) (tail := [.said (.creation c)]) (by simp)
      hl.symm hv
    refine ⟨by simp [h3], i, k, v, spelled, w, bytes, r, ?_, hk, hp, e1, e2, h1⟩
    unfold After at ha
    simpa using ha
  · exact bad hq

/-- A daemon with a database `d` in which `j` holds `true`. -/
def sampleStart (script : List Answer) : Session :=
  ⟨script, Daemon.history sampleEnv {} [.request (.addKv ['d'] ['j'] true true [0x31])], [], []⟩

/-- Typed into `AddEntry`: a new database, called `d`, that is to be overwritten; the key `k`, and null. -/
def sampleAdd : List Answer :=
  [.confirm true, .line ['d'], .confirm true, .line ['k'], .pick 8, .confirm true]

example (script : List Answer) : (sampleStart script).Fresh sampleEnv :=
  Session.Fresh.of_history (fun _ => .refl _) _ _ _

-- runs that change the daemon
example : (run sampleEnv sampleTerm .addEntry (sampleStart sampleAdd)).1 = .ok () ∧
    ((run sampleEnv sampleTerm .addEntry (sampleStart sampleAdd)).2.daemon.dbs.map fun e => (e.1, e.2.map Prod.fst)) =
      [(['d'], [['j'], ['k']])] := ⟨rfl, rfl⟩
example : (run sampleEnv sampleTerm (.createNew ['d']) (sampleStart [.confirm true])).1 = .ok () ∧
    ((run sampleEnv sampleTerm (.createNew ['d']) (sampleStart [.confirm true])).2.daemon.dbs.map
      fun e => (e.1, e.2.map Prod.fst)) = [(['d'], [])] := ⟨rfl, rfl⟩
-- one that does not
example : (run sampleEnv sampleTerm (.createNew ['d']) (sampleStart [.confirm false])).1 = .ok () ∧
    ((run sampleEnv sampleTerm (.createNew ['d']) (sampleStart [.confirm false])).2.daemon.dbs.map
      fun e => (e.1, e.2.map Prod.fst)) = [(['d'], [['j']])] := ⟨rfl, rfl⟩

/-! ## C68 -/

/-- C68: what `CreateNew` prints is what it did. -/
theorem C68_create {env : Env} (hb : HashOrder env.byteOrd) (hc : HashOrder env.charOrd) (hord : HashOrder env.mapOrd)
    (T : Term) (name : List Char) (s : Session) (hs : s.Fresh env) (h : (run env T (.createNew name) s).1 = .ok ()) :
    ∃ pre, Quiet pre ∧
      (((run env T (.createNew name) s).2.log = pre ++ [.said .cancelledClearing] ∧
        .asked .clearExisting false ∈ pre) ∨
      ∃ before after, after.view = Abs.put before.view name (some fun _ => none) ∧
        (((run env T (.createNew name) s).2.log = pre ++ [.talked before after, .said .created] ∧
            before.view name = none) ∨
         ((run env T (.createNew name) s).2.log = pre ++ [.talked before after, .said .cleared] ∧
            before.view name ≠ none))) := by
  rcases run_cases (run_holds hord (create_holds (T := T) hb hc hord name) hs) with ⟨_, pre, hq, hl⟩ | ⟨hn, _⟩
  · refine ⟨pre, hq, hl.imp id ?_⟩
    rintro ⟨b, a, h1, _, h2⟩
    exact ⟨b, a, h1, h2⟩
  · exact absurd h hn

/-- C68: `AddEntry` adds the key and value that were typed to the database that was chosen, and prints what became of
that; or it was cancelled, and nothing has changed. The value is the one that the daemon reads from what `v` is sent
as; C26 is about that. -/
theorem C68_add_entry {env : Env} (hb : HashOrder env.byteOrd) (hord : HashOrder env.mapOrd)
    (T : Term) (s : Session) (hs : s.Fresh env) (h : (run env T .addEntry s).1 = .ok ()) :
    ∃ names n k v chosen typed spelled yes,
      s.script = chosen ++ (typed ++ spelled) ++ .confirm yes :: (run env T .addEntry s).2.script ∧
      Listed names (run env T .addEntry s).2.log ∧ Chosen names true n chosen ∧ Typed Reads.text k typed ∧
      Spells env T v spelled ∧ AddLog env n k v yes (run env T .addEntry s).2 := by
  rcases run_cases (run_holds hord (add_holds (T := T) hb hord) hs) with
    ⟨_, n, k, v, used, yes, ⟨names, c, t, p, rfl, h1, h2, h3, h4⟩, h5, h6⟩ | ⟨hn, _⟩
  · exact ⟨names, n, k, v, c, t, p, yes, h5, h1, h2, h3, h4, h6⟩
  · exact absurd h hn

theorem fetches_of_view {env : Env} {d : Daemon} {n k : List Char} {w : Value} {bytes : List UInt8} {rest : Cursor UInt8}
    (h : (d.view n).bind (· k) = some w) (h1 : Value.ser env none w = .ok bytes)
    (h2 : Value.deser env none (Cursor.new bytes) = .ok (w, rest)) : d.Fetches env n k w := by
  refine ⟨w, bytes, rest, ?_, h1, h2⟩
  obtain ⟨m, hm, hmk⟩ := Option.bind_eq_some_iff.mp h
  simp only [Daemon.handle, Request.route, Daemon.exec, Dbs.getValue]
  simp only [Daemon.view] at hm
  cases hs : AMap.get n d.dbs with
  | none => rw [hs] at hm; cases hm
  | some s =>
    rw [hs] at hm
    simp only [Option.map_some, Option.some.injEq] at hm
    subst hm
    simp only [hmk]

/-- C68, partial: when `AddEntry` has printed a result, the daemon serves a value of the same contents as the one that
was typed, for the key that was typed in the database that was chosen. Missing: binary data whose code has one of the
lengths that C15 tells and JSON that its own text does not preserve, as in C52. -/
theorem C68_stored_partial {env : Env} (hlz : env.lz.Lossless) (hb : HashOrder env.byteOrd) (hord : HashOrder env.mapOrd)
    (T : Term) (s : Session) (hs : s.Fresh env) (h : (run env T .addEntry s).1 = .ok ())
    {c : CreationResult} (hc : (run env T .addEntry s).2.log.getLast? = some (.said (.creation c))) :
    ∃ names n k v chosen typed spelled,
      s.script = chosen ++ (typed ++ spelled) ++ .confirm true :: (run env T .addEntry s).2.script ∧
      Listed names (run env T .addEntry s).2.log ∧ Chosen names true n chosen ∧ Typed Reads.text k typed ∧
      Spells env T v spelled ∧
      (Faithful env none v → (∀ bytes, Value.ser env none v = .ok bytes → bytes.length < 2 ^ 64) →
        ∃ w, (run env T .addEntry s).2.daemon.Fetches env n k w ∧ SameAs v w) := by
  obtain ⟨names, n, k, v, chosen, typed, spelled, yes, h1, h2, h3, h4, h5, pre, hq, hn, hl⟩ := C68_add_entry hb hord T s hs h
  rcases hl with ⟨_, hl⟩ | ⟨before, after, c', w, bytes, rest, rfl, hd, hl, hv, e1, e2, _⟩
  · rw [hl] at hc
    simp at hc
  refine ⟨names, n, k, v, chosen, typed, spelled, h1, h2, h3, h4, h5, fun hf hlen => ?_⟩
  obtain ⟨hsame, _, hser⟩ := (C26_never_wrong_partial hlz hb hf e1 (hlen _ e1)).2 w rest e2
  refine ⟨w, fetches_of_view ?_ hser e2, hsame⟩
  rw [hd, hv]
  simp [Abs.put]

/-- C68: `RemoveDatabase` says that it removed a database when it removed the chosen one, and nothing else. -/
theorem C68_remove_database {env : Env} (hord : HashOrder env.mapOrd) (T : Term)
    (s : Session) (hs : s.Fresh env) (h : (run env T .removeDatabase s).1 = .ok ()) :
    ∃ pre names n chosen before after, Quiet pre ∧ .chose n ∈ pre ∧ Listed names pre ∧ Chosen names false n chosen ∧
      s.script = chosen ++ (run env T .removeDatabase s).2.script ∧
      (run env T .removeDatabase s).2.log = pre ++ [.talked before after, .said .removedDatabase] ∧
      before.view n ≠ none ∧ after.view = Abs.put before.view n none := by
  have := run_holds' hord (fun _ _ _ => trivial) (remove_log (T := T) hord) hs s rfl
  rw [h] at this
  exact this

/-- C68, partial: a command that does not end well has changed nothing. Missing: a file that cannot be deleted, see
`C68_refuted_unlink`. -/
theorem C68_error_partial {env : Env} (hb : HashOrder env.byteOrd) (hc : HashOrder env.charOrd)
    (hord : HashOrder env.mapOrd) (T : Term) (hio : T.unlink ≠ .failed) (c : Command) (s : Session) (hs : s.Fresh env)
    (h : (run env T c s).1 ≠ .ok ()) : Quiet (run env T c s).2.log := by
  have key {Q : Unit → Session → Prop} {F : Prop} (hx : Holds (fun t => Base env s t ∧ Started s t) (command env T c) Q (Ended T s F)) :
      Quiet (run env T c s).2.log := by
    rcases run_cases (run_holds hord hx hs) with ⟨h1, _⟩ | ⟨_, hq, _⟩
    · exact absurd h1 h
    · exact hq
  cases c with
  | createNew name => exact key (create_holds hb hc hord name)
  | addEntry => exact key (add_holds hb hord)
  | removeDatabase => exact key (remove_holds hord hio)
  | importFromJson path => exact key (import_holds hb hc hord path)
  | _ => exact key (fetch_holds hord (by trivial))

/-- C68 is violated: when the daemon cannot delete the file, `RemoveDatabase` ends with an error though the database is
gone. -/
theorem C68_refuted_unlink (env : Env) (T : Term) (hio : T.unlink = .failed) (script : List Answer) (db : Store) :
    ∃ t, run env T .removeDatabase ⟨script, ⟨[(['d'], db)], []⟩, [], []⟩ =
        (.err (.error (.client (.httpErrorCode 500))), t) ∧ t.daemon.view ['d'] = none := by
  obtain ⟨files, now, f64, ip4, ip6, unlink⟩ := T
  simp only at hio
  subst hio
  exact ⟨_, rfl, rfl⟩

/-- C68 is violated: viewing, exporting, and removing or updating an entry never end well, whatever the user, the files
and the daemon do. -/
theorem C68_refuted_fetch {env : Env} (hord : HashOrder env.mapOrd) (T : Term) (c : Command) (hc : c.Fetches)
    (s : Session) (hs : s.Fresh env) : (run env T c s).1 ≠ .ok () := by
  rcases run_cases (run_holds hord (fetch_holds (T := T) hord hc) hs) with ⟨_, h⟩ | ⟨hn, _⟩
  · exact h.elim
  · exact hn

/-- C68 is violated: `ImportFromJSON` never ends well. -/
theorem C68_refuted_import {env : Env} (hb : HashOrder env.byteOrd) (hc : HashOrder env.charOrd)
    (hord : HashOrder env.mapOrd) (T : Term) (path : List Char) (s : Session) (hs : s.Fresh env) :
    (run env T (.importFromJson path) s).1 ≠ .ok () := by
  rcases run_cases (run_holds hord (import_holds (T := T) hb hc hord path) hs) with ⟨_, h⟩ | ⟨hn, _⟩
  · exact h.elim
  · exact hn

/-- C68 is violated: a user who answers yes to "This database already exists. Overwrite?" keeps all other keys of it. -/
theorem C68_refuted_overwrite {env : Env} (hb : HashOrder env.byteOrd) (hord : HashOrder env.mapOrd)
    (T : Term) (s : Session) (hs : s.Fresh env) (h : (run env T .addEntry s).1 = .ok ())
    (_ : .asked .overwriteExisting true ∈ (run env T .addEntry s).2.log) (before after : Daemon)
    (ht : .talked before after ∈ (run env T .addEntry s).2.log) :
    ∃ k, ∀ m j, j ≠ k → (after.view m).bind (· j) = (before.view m).bind (· j) := by
  obtain ⟨_, n, k, v, _, _, _, _, _, _, _, _, _, pre, hq, hn, hl⟩ := C68_add_entry hb hord T s hs h
  refine ⟨k, fun m j hj => ?_⟩
  have quiet (h : .talked before after ∈ pre) : (after.view m).bind (· j) = (before.view m).bind (· j) := by
    rw [hq _ _ h]
  rcases hl with ⟨_, hl⟩ | ⟨b, a, c', w, bytes, rest, _, hd, hl, hv, _⟩
  · rw [hl] at ht
    simp only [List.mem_append, List.mem_cons, List.not_mem_nil, reduceCtorEq, or_false] at ht
    exact quiet ht
  · rw [hl] at ht
    simp only [List.mem_append, List.mem_cons, List.not_mem_nil, reduceCtorEq, or_false, false_or,
      Event.talked.injEq] at ht
    rcases ht with ht | ⟨rfl, rfl⟩
    · exact quiet ht
    · rw [hv]
      by_cases hm : m = n
      · subst hm
        cases hb : before.view m <;> simp [Abs.put, hj]
      · simp [Abs.put, hm]

example : .asked .overwriteExisting true ∈ (run sampleEnv sampleTerm .addEntry (sampleStart sampleAdd)).2.log ∧
    (run sampleEnv sampleTerm .addEntry (sampleStart sampleAdd)).2.log.getLast? =
      some (.said (.creation .insertedKeyIntoExistingDB)) :=
  ⟨List.mem_of_getElem? (i := 3) rfl, rfl⟩
example : (run sampleEnv sampleTerm .removeDatabase (sampleStart [])).1 = .ok () := rfl
example : (run sampleEnv sampleTerm .viewAll (sampleStart [])).1 ≠ .ok () :=
  C68_refuted_fetch (env := sampleEnv) (fun _ => .refl _) _ .viewAll trivial _ (Session.Fresh.of_history (fun _ => .refl _) _ _ _)

/-! ## C69 -/

/-- C69, partial: for every script, which is all that the user will ever answer, a run ends, unless binary data was
picked and no file named since. Missing: that case, see `C69_refuted_hang`. -/
theorem C69_ends_partial {env : Env} (hb : HashOrder env.byteOrd) (hc : HashOrder env.charOrd)
    (hord : HashOrder env.mapOrd) (T : Term) (c : Command) (s : Session) (hs : s.Fresh env)
    (h : (run env T c s).1 = .err .hang) :
    ∃ pre post, s.script = pre ++ .pick 2 :: post ∧
      ∀ a ∈ post, ∀ p, a = .line p → p = [] ∨ T.files p = .missing ∨ T.files p = .directory := by
  have key {Q : Unit → Session → Prop} {F : Prop}
      (hx : Holds (fun t => Base env s t ∧ Started s t) (command env T c) Q (EndedHow T s F)) : Stuck T s.script := by
    have := run_holds' hord (fun _ _ h => ⟨h.2.1, fun e => (h.2.2 e).elim⟩) hx hs s rfl
    rw [h] at this
    exact this.1 rfl
  have ended {o : Option Stop} {t : Session} {F : Prop} (h : Ended T s F o t) : EndedHow T s F o t := h.2
  cases c with
  | createNew name => exact key ((create_holds hb hc hord name).weaken fun _ _ => ended)
  | addEntry => exact key ((add_holds hb hord).weaken fun _ _ => ended)
  | removeDatabase => exact key (remove_ends hord)
  | importFromJson path => exact key ((import_holds hb hc hord path).weaken fun _ _ => ended)
  | _ => exact key ((fetch_holds hord (by trivial)).weaken fun _ _ => ended)

/-- C69: `CreateNew`, `AddEntry`, `ImportFromJSON` and `RemoveDatabase` do not panic. -/
theorem C69_no_panic {env : Env} (hb : HashOrder env.byteOrd) (hc : HashOrder env.charOrd)
    (hord : HashOrder env.mapOrd) (T : Term) (c : Command) (s : Session) (hs : s.Fresh env)
    (hcmd : ¬ c.Fetches) (p : Panic) : (run env T c s).1 ≠ .panic p := by
  intro h
  have key {Q : Unit → Session → Prop}
      (hx : Holds (fun t => Base env s t ∧ Started s t) (command env T c) Q (EndedHow T s False)) : False := by
    have := run_holds' hord (fun _ _ h => ⟨h.2.1, h.2.2⟩) hx hs s rfl
    rw [h] at this
    exact this.2 rfl
  have ended {o : Option Stop} {t : Session} (h : Ended T s False o t) : EndedHow T s False o t := h.2
  cases c with
  | createNew name => exact key ((create_holds hb hc hord name).weaken fun _ _ => ended)
  | addEntry => exact key ((add_holds hb hord).weaken fun _ _ => ended)
  | removeDatabase => exact key (remove_ends hord)
  | importFromJson path => exact key ((import_holds hb hc hord path).weaken fun _ _ => ended)
  | _ => exact hcmd trivial

/-- C69 is violated: whoever picks binary data and then closes the terminal leaves `mouse` running forever. -/
theorem C69_refuted_hang (env : Env) (T : Term) :
    (run env T .addEntry ⟨[.confirm true, .line ['d'], .line ['k'], .pick 2], {}, [], []⟩).1 = .err .hang := rfl

/-- C69: the bounds in the model of the dialogs are not limits of the program: any bound above the number of answers
gives the same. -/
theorem C69_bounds (env : Env) (T : Term) (s : List Answer) (n m : Nat) (hn : s.length < n) (hm : s.length < m) :
    valueN env T n s = valueN env T m s ∧ date n s = date m s ∧ time n s = time m s :=
  ⟨valueN_bound hn hm, date_bound hn hm, time_bound hn hm⟩

theorem dialog_apply {α : Type} (d : Entry α) (s : Session) : dialog d s = match d s.script with
    | .ok (a, rest) => (.ok a, { s with script := rest })
    | .err e => (.err e, s)
    | .panic p => (.panic p, s) := rfl

theorem cli_bind_congr {α β : Type} {x : Cli α} {f g : α → Cli β} {s : Session}
    (h : ∀ a t, x s = (.ok a, t) → f a t = g a t) : (x >>= f) s = (x >>= g) s := by
  have e (k : α → Cli β) : (x >>= k) s = match x s with
    | (.ok a, s) => k a s
    | (.err e, s) => (.err e, s)
    | (.panic p, s) => (.panic p, s) := rfl
  rw [e f, e g]
  rcases hx : x s with ⟨o, t⟩
  cases o with
  | ok a => exact h a t hx
  | err y => rfl
  | panic p => rfl

theorem cli_bind_ok {α β : Type} {x : Cli α} {f : α → Cli β} {s u : Session} {b : β}
    (h : (x >>= f) s = (.ok b, u)) : ∃ a t, x s = (.ok a, t) ∧ f a t = (.ok b, u) := by
  have e : (x >>= f) s = match x s with
    | (.ok a, s) => f a s
    | (.err e, s) => (.err e, s)
    | (.panic p, s) => (.panic p, s) := rfl
  rw [e] at h
  rcases hx : x s with ⟨o, t⟩
  rw [hx] at h
  cases o with
  | ok a => exact ⟨a, t, rfl, h⟩
  | err y => cases h
  | panic p => cases h

/-- C69: the same for the names of new databases. -/
theorem C69_bounds_name (names : List (List Char)) (n m : Nat) (s : Session) (hn : s.script.length < n)
    (hm : s.script.length < m) : newName names n s = newName names m s := by
  induction n generalizing m s with
  | zero => omega
  | succ n ih =>
    obtain ⟨m, rfl⟩ := Nat.exists_eq_succ_of_ne_zero (by omega : m ≠ 0)
    refine cli_bind_congr fun trial t e => ?_
    have h1 : t.script.length < s.script.length := by
      rw [dialog_apply] at e
      cases hd : input stringOf s.script with
      | ok x =>
        rw [hd] at e
        cases e
        exact input_shrinks hd
      | err x => rw [hd] at e; cases e
      | panic x => rw [hd] at e; cases e
    show (if _ then _ else if _ then _ else _ : Cli _) t = (if _ then _ else if _ then _ else _ : Cli _) t
    split
    · refine cli_bind_congr fun _ u e => ?_
      cases e
      exact ih _ _ (by simp only; omega) (by simp only; omega)
    · split
      · rfl
      · refine cli_bind_congr fun over u e => ?_
        have h2 : u.script.length < t.script.length := by
          obtain ⟨b, w, e1, e2⟩ := cli_bind_ok e
          obtain ⟨_, x, e3, e4⟩ := cli_bind_ok e2
          cases e3
          cases e4
          rw [dialog_apply] at e1
          cases hd : confirm t.script with
          | ok x =>
            rw [hd] at e1
            cases e1
            exact confirm_shrinks hd
          | err x => rw [hd] at e1; cases e1
          | panic x => rw [hd] at e1; cases e1
        split
        · rfl
        · exact ih _ _ (by omega) (by omega)

-- a run that reaches the end of the script ends with an error
example : (run sampleEnv sampleTerm .addEntry (sampleStart [.confirm false, .line ['k'], .pick 10])).1 =
    .err (.error .dialoguer) := rfl

end Souris
