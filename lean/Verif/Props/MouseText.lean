import Verif.Model.MouseText
import Verif.Props.Debug
import Verif.Props.ErrorText
import Verif.Props.Mouse

/-!
# C100: what `mouse` prints; C10, C91: what is said about floats that are no integers

C100: the line that `mouse` prints last tells in words what became of the database. C10, C91: the message of a failed
conversion from a float.
-/

namespace Souris

open Fault Mouse

/-! ## Messages of conversions -/

theorem floatError_display {e e' : FloatToIntegerError} (h : e.display = e'.display) :
    e = e' ∨ ∃ d d', e = .decimalsNotSupported d ∧ e' = .decimalsNotSupported d' ∧ Value.IsNan64 d ∧ Value.IsNan64 d' := by
  cases e <;> cases e' <;> simp only [FloatToIntegerError.display] at h <;>
    first
    | exact .inl rfl
    | other_variant h
    | (rcases C87_double_text (say_inj h) with rfl | ⟨h1, h2⟩
       · exact .inl rfl
       · exact .inr ⟨_, _, rfl, rfl, h1, h2⟩)

theorem not_nan {d : UInt64} (h : F64Finite d) : ¬ Value.IsNan64 d := by
  unfold Value.IsNan64
  unfold F64Finite at h
  omega

/-- The errors that the conversions return carry numbers. -/
theorem decimals_finite {d : UInt64} (h : (∃ b, Integer.ofF64 b = .err (.decimalsNotSupported d)) ∨
    ∃ b, Integer.ofF32 b = .err (.decimalsNotSupported d)) : F64Finite d := by
  rcases h with ⟨b, h⟩ | ⟨b, h⟩
  · have law := C10_f64_law b
    by_cases hf : F64Finite b
    · have law := law.2 hf
      by_cases h1 : 0 ≤ f64Value b ∧ 1 / 2 ^ 52 < f64Value b - ⌊f64Value b⌋
      · obtain ⟨d', e, h2, _⟩ := law.1 h1
        rw [e] at h
        cases h
        exact h2
      · by_cases h2 : -(2 ^ 127) < ⌊f64Value b⌋ ∧ ⌊f64Value b⌋ < 2 ^ 128
        · obtain ⟨i, e, _⟩ := (law.2 h1).1 h2
          rw [e] at h; cases h
        · rw [(law.2 h1).2 h2] at h; cases h
    · rw [law.1 hf] at h; cases h
  · have law := C10_f32_law b
    by_cases hf : F32Finite b
    · have law := law.2 hf
      by_cases h0 : 0 ≤ f32Value b
      · by_cases h1 : 1 / 2 ^ 23 < f32Value b - ⌊f32Value b⌋
        · obtain ⟨d', e, h2, _⟩ := (law.1 h0).1 h1
          rw [e] at h
          cases h
          exact h2
        · rw [(law.1 h0).2 h1] at h; cases h
      · by_cases h2 : -(2 ^ 127) < ⌊f32Value b⌋
        · obtain ⟨i, e, _⟩ := law.2.1 (not_le.mp h0) h2
          rw [e] at h; cases h
        · rw [law.2.2 (not_lt.mp h2)] at h; cases h
    · rw [law.1 hf] at h; cases h

/-- C91: two conversions of floats that fail with the same message, or with the same debug text, fail with the same
error. -/
theorem C91_float_messages {e e' : FloatToIntegerError} (h1 : (∃ b, Integer.ofF64 b = .err e) ∨ ∃ b, Integer.ofF32 b = .err e)
    (h : e.display = e'.display ∨ e.debug = e'.debug) : e = e' := by
  have fin : ∀ d, e = .decimalsNotSupported d → ¬ Value.IsNan64 d := by
    rintro d rfl
    exact not_nan (decimals_finite h1)
  rcases h with h | h
  · rcases floatError_display h with h | ⟨d, d', rfl, rfl, h2, _⟩
    · exact h
    · exact absurd h2 (fin d rfl)
  · cases e <;> cases e' <;> simp only [FloatToIntegerError.debug] at h <;>
      first
      | rfl
      | other_variant h
      | skip
    rename_i d d'
    obtain ⟨y, e1, h2, _⟩ := C99_reread_double d
    obtain ⟨y', e2, h3, h4⟩ := C99_reread_double d'
    have h5 := wrap_inj h
    rw [h5, e2, Option.some.injEq] at e1
    by_cases hn : Value.IsNan64 d'
    · have := h4 hn
      rw [e1, h2 (fin d rfl)] at this
      exact absurd this (fin d rfl)
    · rw [← h2 (fin d rfl), ← e1, h3 hn]

/-- C10: the message for a float tells why it is refused: that it is not finite, that it is too large, or the
fraction itself, as a decimal that is read back as exactly the part of the number behind the point. -/
theorem C10_f64_message {b : UInt64} {e : FloatToIntegerError} (h : Integer.ofF64 b = .err e) :
    (e.display = "Floating point number was not finite".toList ∧ ¬ F64Finite b) ∨
    (e.display = "Floating point number was too large".toList ∧ F64Finite b ∧
      ¬ (-(2 ^ 127) < ⌊f64Value b⌋ ∧ ⌊f64Value b⌋ < 2 ^ 128)) ∨
    ∃ t d, e.display = "Floating point decimals not supported for integer values: ".toList ++ t ∧
      StdText.f64Parse t = some d ∧ F64Finite b ∧ f64Value d = f64Value b - ⌊f64Value b⌋ := by
  have law := C10_f64_law b
  by_cases hf : F64Finite b
  · have law := law.2 hf
    by_cases h1 : 0 ≤ f64Value b ∧ 1 / 2 ^ 52 < f64Value b - ⌊f64Value b⌋
    · obtain ⟨d, e1, h2, h3⟩ := law.1 h1
      rw [e1] at h
      cases h
      obtain ⟨y, e2, h4, _⟩ := C87_reread_double d
      rw [h4 (not_nan h2)] at e2
      exact .inr (.inr ⟨_, d, rfl, e2, hf, h3⟩)
    · by_cases h2 : -(2 ^ 127) < ⌊f64Value b⌋ ∧ ⌊f64Value b⌋ < 2 ^ 128
      · obtain ⟨i, e1, _⟩ := (law.2 h1).1 h2
        rw [e1] at h; cases h
      · rw [(law.2 h1).2 h2] at h
        cases h
        exact .inr (.inl ⟨List.append_nil _, hf, h2⟩)
  · rw [law.1 hf] at h
    cases h
    exact .inl ⟨List.append_nil _, hf⟩

/-- The message for 2.5. -/
example : Integer.ofF64 0x4004000000000000 = .err (.decimalsNotSupported 0x3FE0000000000000) ∧
    (FloatToIntegerError.decimalsNotSupported 0x3FE0000000000000).display =
      "Floating point decimals not supported for integer values: 0.5".toList := by
  decide +kernel

/-! ## Messages of `mouse` -/

theorem pathEscape_form (sh : Shows) (c : Char) :
    (sh.pathEscape c = [c] ∧ c ≠ '\\' ∧ c ≠ '"') ∨ (∃ x, x ≠ 'u' ∧ sh.pathEscape c = ['\\', x] ∧ c = unescape x) ∨
      sh.pathEscape c = '\\' :: 'u' :: '{' :: (hexText c.toNat ++ ['}']) := by
  unfold Shows.pathEscape
  split
  · rename_i h
    exact .inr (.inl ⟨'\'', by decide, rfl, by rw [h]; decide⟩)
  · exact escape_form sh (.inl rfl) c

theorem pathBody_cut (sh : Shows) {s t : List Char} {r r' : List Char}
    (h : s.flatMap sh.pathEscape ++ '"' :: r = t.flatMap sh.pathEscape ++ '"' :: r') : s = t := by
  have head : ∀ c r u, sh.pathEscape c ++ r ≠ '"' :: u := by
    intro c r u h
    rcases pathEscape_form sh c with ⟨e, _, n⟩ | ⟨x, n, e, u⟩ | e <;> rw [e] at h
    · exact n (List.cons.inj h).1
    · exact absurd (List.cons.inj h).1 (by decide)
    · exact absurd (List.cons.inj h).1 (by decide)
  induction s generalizing t with
  | nil =>
    cases t with
    | nil => rfl
    | cons d t =>
      rw [List.flatMap_cons, List.append_assoc] at h
      exact absurd h.symm (head _ _ _)
  | cons c s ih =>
    cases t with
    | nil =>
      rw [List.flatMap_cons, List.append_assoc] at h
      exact absurd h (head _ _ _)
    | cons d t =>
      rw [List.flatMap_cons, List.flatMap_cons, List.append_assoc, List.append_assoc] at h
      have : c = d ∧ s.flatMap sh.pathEscape ++ '"' :: r = t.flatMap sh.pathEscape ++ '"' :: r' := by
        rcases pathEscape_form sh c with ⟨e, n, _⟩ | ⟨x, n, e, u⟩ | e <;>
          rcases pathEscape_form sh d with ⟨e', n', _⟩ | ⟨x', n', e', u'⟩ | e' <;> rw [e, e'] at h <;>
          simp only [List.cons_append, List.nil_append, List.cons.injEq, true_and, List.append_assoc] at h
        · exact h
        · exact absurd h.1 n
        · exact absurd h.1 n
        · exact absurd h.1.symm n'
        · exact ⟨by rw [u, u', h.1], h.2⟩
        · exact absurd h.1 n
        · exact absurd h.1.symm n'
        · exact absurd h.1.symm n'
        · obtain ⟨h1, h2⟩ := hexText_cut h
          exact ⟨Char.toNat_inj.mp h1, h2⟩
      rw [this.1, ih this.2]

theorem pathLiteral_inj (sh : Shows) {s t : List Char} (h : sh.pathLiteral s = sh.pathLiteral t) : s = t :=
  pathBody_cut sh (r := []) (r' := []) (List.cons.inj h).2

theorem creation_display : Function.Injective CreationResult.display := by
  intro c c' h
  cases c <;> cases c' <;> simp only [CreationResult.display] at h <;>
    first
    | rfl
    | other_variant h

/-- The number of a message. -/
def code : Message → Nat
  | .cancelledClearing => 0
  | .created => 1
  | .cleared => 2
  | .store _ => 3
  | .debugStore _ => 4
  | .importedNew => 5
  | .importedOver => 6
  | .receivedKey _ => 7
  | .receivedValue _ => 8
  | .creation .insertedKeyIntoExistingDB => 9
  | .creation .overwroteKeyInExistingDB => 10
  | .creation .foundExistingKey => 11
  | .creation .insertedKeyIntoNewDB => 12
  | .creation .unableToFindDB => 13
  | .cancelledAddition => 14
  | .alreadyEmpty => 15
  | .removedKey => 16
  | .cancelledRemoval => 17
  | .isEmpty => 18
  | .cancelledUpdate => 19
  | .converting _ => 20
  | .writing _ => 21
  | .unableToConvert => 22
  | .removedDatabase => 23
  | .reserved => 24

/-- As much of the beginning of a message as tells it from the others. -/
def beginning : Nat → Text
  | 0 => ['C', 'a', 'n', 'c', 'e', 'l', 'l', 'e', 'd', ' ', 'c']
  | 1 => ['D', 'a', 't', 'a', 'b', 'a', 's', 'e', ' ', 's']
  | 2 => ['S', 'u', 'c', 'c', 'e', 's', 's', 'f', 'u', 'l', 'l', 'y', ' ', 'c']
  | 3 => ['\n']
  | 4 => ['S', 't']
  | 5 => ['C', 'r']
  | 6 => ['O', 'v', 'e', 'r', 'w', 'r', 'o', 't', 'e', ' ', 'e', 'x', 'i', 's', 't', 'i', 'n', 'g', ' ', 'd']
  | 7 => ['R', 'e', 'c', 'e', 'i', 'v', 'e', 'd', ' ', 'K']
  | 8 => ['R', 'e', 'c', 'e', 'i', 'v', 'e', 'd', ' ', 'V']
  | 9 => ['A', 'd', 'd', 'e', 'd', ' ', 'n', 'e', 'w', ' ', 'k', 'e', 'y', ' ', 't', 'o', ' ', 'e']
  | 10 => ['O', 'v', 'e', 'r', 'w', 'r', 'o', 't', 'e', ' ', 'e', 'x', 'i', 's', 't', 'i', 'n', 'g', ' ', 'k']
  | 11 => ['F']
  | 12 => ['A', 'd', 'd', 'e', 'd', ' ', 'n', 'e', 'w', ' ', 'k', 'e', 'y', ' ', 't', 'o', ' ', 'n']
  | 13 => ['U', 'n', 'a', 'b', 'l', 'e', ' ', 't', 'o', ' ', 'f']
  | 14 => ['C', 'a', 'n', 'c', 'e', 'l', 'l', 'e', 'd', ' ', 'a']
  | 15 => ['D', 'a', 't', 'a', 'b', 'a', 's', 'e', ' ', 'a']
  | 16 => ['S', 'u', 'c', 'c', 'e', 's', 's', 'f', 'u', 'l', 'l', 'y', ' ', 'r', 'e', 'm', 'o', 'v', 'e', 'd', ' ', 'K']
  | 17 => ['C', 'a', 'n', 'c', 'e', 'l', 'l', 'e', 'd', ' ', 'r']
  | 18 => ['D', 'a', 't', 'a', 'b', 'a', 's', 'e', ' ', 'i']
  | 19 => ['C', 'a', 'n', 'c', 'e', 'l', 'l', 'e', 'd', ' ', 'u']
  | 20 => ['R', 'e', 'c', 'e', 'i', 'v', 'e', 'd', ' ', 'D']
  | 21 => ['C', 'o']
  | 22 => ['U', 'n', 'a', 'b', 'l', 'e', ' ', 't', 'o', ' ', 'c']
  | 23 => ['S', 'u', 'c', 'c', 'e', 's', 's', 'f', 'u', 'l', 'l', 'y', ' ', 'r', 'e', 'm', 'o', 'v', 'e', 'd', ' ', 'd']
  | _ => ['T']

theorem beginnings (i j : Fin 25) (h : i ≠ j) : clash (beginning i) (beginning j) = true := by
  revert i j
  decide

theorem begins {a b r : Text} (h : b.isPrefixOf a = true) : b <+: say (String.ofList a) r := by
  rw [say_ofList]
  exact (List.isPrefixOf_iff_prefix.mp h).trans (List.prefix_append _ _)

theorem code_lt (m : Message) : code m < 25 := by
  cases m with
  | creation c => cases c <;> exact Nat.lt_of_sub_eq_succ rfl
  | _ => exact Nat.lt_of_sub_eq_succ rfl

theorem creation_code {c : CreationResult} {m : Message} (h : code (.creation c) = code m) : m = .creation c := by
  cases c <;> cases m with
  | creation d => cases d <;> first | rfl | cases h
  | _ => cases h

set_option maxRecDepth 10000 in
theorem text_begins (env : Env) (sh : Shows) (m : Message) : beginning (code m) <+: m.text env sh := by
  cases m with
  | creation c => cases c <;> exact begins rfl
  | store s => exact ⟨_, rfl⟩
  | debugStore s => exact ⟨_, rfl⟩
  | _ => exact begins rfl

/-- C100: two messages of `mouse` with the same text say the same: they are the same message, and name the same key,
database or path; values and databases in them are printed alike (what this means is told by C78 and C99). -/
theorem C100_texts (env : Env) (sh : Shows) {m m' : Message} (h : m.text env sh = m'.text env sh) :
    m = m' ∨
    (∃ v v', m = .receivedValue v ∧ m' = .receivedValue v' ∧ v.display env sh = v'.display env sh) ∨
    (∃ s s', m = .store s ∧ m' = .store s' ∧ Store.display env sh s = Store.display env sh s') ∨
    (∃ s s', m = .debugStore s ∧ m' = .debugStore s' ∧ Store.debug sh true s = Store.debug sh true s') := by
  have hc : code m = code m' := by
    by_contra hne
    obtain ⟨r, e⟩ := text_begins env sh m
    obtain ⟨r', e'⟩ := text_begins env sh m'
    rw [← e, ← e'] at h
    exact clash_ne r r' (beginnings ⟨_, code_lt m⟩ ⟨_, code_lt m'⟩ (fun h => hne (Fin.mk.inj_iff.mp h))) h
  cases m with
  | creation c => exact .inl (creation_code hc).symm
  | _ =>
    cases m' with
    | creation c => exact .inl (creation_code hc.symm)
    | _ =>
      first
      | (cases hc; done)
      | exact .inl rfl
      | exact .inr (.inr (.inl ⟨_, _, rfl, rfl, h⟩))
      | exact .inr (.inr (.inr ⟨_, _, rfl, rfl, h⟩))
      | exact .inr (.inl ⟨_, _, rfl, rfl, say_inj h⟩)
      | exact .inl (congrArg Message.receivedKey (say_inj h))
      | exact .inl (congrArg Message.converting (strLiteral_cut sh (say_inj h)).1)
      | exact .inl (congrArg Message.writing (pathLiteral_inj sh (say_inj h)))

/-- The last thing that the run printed is the line `t`. -/
def Mouse.LastLine (env : Env) (sh : Shows) (log : List Event) (t : String) : Prop :=
  ∃ m, log.getLast? = some (.said m) ∧ m.text env sh = t.toList

theorem lastLine {env : Env} {sh : Shows} {log pre : List Event} {m : Message} {t : String} (h : log = pre ++ [.said m])
    (ht : m.text env sh = say t []) : LastLine env sh log t :=
  ⟨m, by rw [h, List.getLast?_append]; rfl, by rw [ht]; exact List.append_nil _⟩

/-- C100: the last line after `CreateNew` tells what became of the database. -/
theorem C100_create {env : Env} (hb : HashOrder env.byteOrd) (hc : HashOrder env.charOrd) (hord : HashOrder env.mapOrd)
    (sh : Shows) (T : Term) (name : List Char) (s : Session) (hs : s.Fresh env) (log : List Event)
    (h : (run env T (.createNew name) s).1 = .ok ()) (hl : log = (run env T (.createNew name) s).2.log) :
    (LastLine env sh log "Cancelled clearing database" ∧ .asked .clearExisting false ∈ log ∧ Quiet log) ∨
    ∃ before after, .talked before after ∈ log ∧ after.view = Abs.put before.view name (some fun _ => none) ∧
      ((LastLine env sh log "Database successfully created" ∧ before.view name = none) ∨
       (LastLine env sh log "Successfully cleared database" ∧ before.view name ≠ none)) := by
  obtain ⟨pre, hq, ⟨e, ha⟩ | ⟨before, after, hv, ⟨e, hn⟩ | ⟨e, hn⟩⟩⟩ := C68_create hb hc hord T name s hs h <;> rw [← hl] at e
  · refine .inl ⟨lastLine e rfl, by rw [e]; exact List.mem_append_left _ ha, fun b a hm => hq b a ?_⟩
    rw [e] at hm
    simpa using hm
  · exact .inr ⟨before, after, by rw [e]; simp, hv, .inl ⟨lastLine (m := .created) (pre := pre ++ [.talked before after])
      (by rw [e]; simp) rfl, hn⟩⟩
  · exact .inr ⟨before, after, by rw [e]; simp, hv, .inr ⟨lastLine (m := .cleared) (pre := pre ++ [.talked before after])
      (by rw [e]; simp) rfl, hn⟩⟩

/-- C100: the last line after `AddEntry` tells whether the entry was added, to which kind of database, and whether it
replaced another one. -/
theorem C100_add_entry {env : Env} (hb : HashOrder env.byteOrd) (hord : HashOrder env.mapOrd)
    (sh : Shows) (T : Term) (s : Session) (hs : s.Fresh env) (log : List Event) (h : (run env T .addEntry s).1 = .ok ())
    (hl : log = (run env T .addEntry s).2.log) :
    ∃ n k v, .chose n ∈ log ∧ .said (.receivedKey k) ∈ log ∧ .said (.receivedValue v) ∈ log ∧
    ((LastLine env sh log "Cancelled addition" ∧ .asked .confirmAddition false ∈ log ∧ Quiet log) ∨
    ∃ before after w, .asked .confirmAddition true ∈ log ∧ .talked before after ∈ log ∧
      after.view = Abs.put before.view n (some (Abs.put ((before.view n).getD fun _ => none) k (some w))) ∧
      ((LastLine env sh log "Added new key to new database" ∧ before.view n = none) ∨
       (LastLine env sh log "Added new key to existing database" ∧ before.view n ≠ none ∧ (before.view n).bind (· k) = none) ∨
       (LastLine env sh log "Overwrote existing key in existing database" ∧ (before.view n).bind (· k) ≠ none))) := by
  obtain ⟨_, n, k, v, _, _, _, _, _, _, _, _, _, pre, hq, hn, ⟨_, e⟩ | ⟨before, after, c, w, _, _, _, _, e, hv, _, _, h1, h2, h3⟩⟩ :=
    C68_add_entry hb hord T s hs h <;> rw [← hl] at e
  · refine ⟨n, k, v, by rw [e]; simp [hn], by rw [e]; simp, by rw [e]; simp, .inl ⟨lastLine (m := .cancelledAddition)
      (pre := pre ++ [.said (.receivedKey k), .said (.receivedValue v), .asked .confirmAddition false]) (by rw [e]; simp) rfl,
      by rw [e]; simp, fun b a hm => hq b a ?_⟩⟩
    rw [e] at hm
    simpa using hm
  · have last : ∀ t, c.display = say t [] → LastLine env sh log t := fun t ht => lastLine (m := .creation c)
      (pre := pre ++ [.said (.receivedKey k), .said (.receivedValue v), .asked .confirmAddition true, .talked before after])
      (by rw [e]; simp) ht
    refine ⟨n, k, v, by rw [e]; simp [hn], by rw [e]; simp, by rw [e]; simp, .inr ⟨before, after, w, by rw [e]; simp, by rw [e]; simp, hv, ?_⟩⟩
    cases hx : before.view n with
    | none => exact .inl ⟨last _ (by rw [h1.mpr hx]; rfl), rfl⟩
    | some m =>
      cases hy : m k with
      | none => exact .inr (.inl ⟨last _ (by rw [h2.mpr ⟨m, hx, hy⟩]; rfl), by simp, hy⟩)
      | some x => exact .inr (.inr ⟨last _ (by rw [h3.mpr ⟨m, x, hx, hy⟩]; rfl), by simp [hy]⟩)

/-- C100: the last line after `RemoveDatabase`. -/
theorem C100_remove_database {env : Env} (hord : HashOrder env.mapOrd) (sh : Shows) (T : Term)
    (s : Session) (hs : s.Fresh env) (log : List Event) (h : (run env T .removeDatabase s).1 = .ok ())
    (hl : log = (run env T .removeDatabase s).2.log) :
    LastLine env sh log "Successfully removed database" ∧ ∃ n before after, .chose n ∈ log ∧ .talked before after ∈ log ∧
      before.view n ≠ none ∧ after.view = Abs.put before.view n none := by
  obtain ⟨pre, _, n, _, before, after, _, hn, _, _, _, e, h1, h2⟩ := C68_remove_database hord T s hs h
  rw [← hl] at e
  exact ⟨lastLine (m := .removedDatabase) (pre := pre ++ [.talked before after]) (by rw [e]; simp) rfl, n, before, after,
    by rw [e]; simp [hn], by rw [e]; simp, h1, h2⟩

/-- The runs of `Props/Mouse.lean` and what they print last. -/
example (sh : Shows) : LastLine sampleEnv sh (run sampleEnv sampleTerm .addEntry (sampleStart sampleAdd)).2.log
    "Added new key to existing database" :=
  ⟨.creation .insertedKeyIntoExistingDB, rfl, List.append_nil _⟩
example (sh : Shows) : LastLine sampleEnv sh (run sampleEnv sampleTerm (.createNew ['d']) (sampleStart [.confirm false])).2.log
    "Cancelled clearing database" :=
  ⟨.cancelledClearing, rfl, List.append_nil _⟩
example (sh : Shows) : LastLine sampleEnv sh (run sampleEnv sampleTerm .removeDatabase (sampleStart [])).2.log
    "Successfully removed database" :=
  ⟨.removedDatabase, rfl, List.append_nil _⟩

/-- C91, for the daemon's answer to a new entry: the five texts are different. -/
theorem C91_creation_messages : Function.Injective CreationResult.display := creation_display

end Souris
