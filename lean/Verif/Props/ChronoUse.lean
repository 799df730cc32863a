import Verif.Props.ChronoText
import Verif.Props.JsonForm
import Verif.Props.JsonUse
import Verif.Props.MouseEntry

/-! # The claims about values that contain timestamps, with the text form of chrono

Elsewhere the text form of timestamps is a parameter, and hypotheses say what is needed of it. Here it is what
`Chrono` models. -/

namespace Souris

open Value

/-- The text form of timestamps is that of chrono. -/
structure Env.Chrono (env : Env) : Prop where
  print : env.tsPrint = Souris.Chrono.print
  parse : env.tsParse = Souris.Chrono.parse

/-- The environment of the examples with that. -/
def chronoEnv : Env := { serdeEnv with tsPrint := Chrono.print, tsParse := Chrono.parse }

theorem chronoEnv_chrono : chronoEnv.Chrono := ⟨rfl, rfl⟩

theorem chronoEnv_serde : chronoEnv.Serde := ⟨rfl, rfl, rfl⟩

theorem leapSecond_ok : leapSecond.Valid ∧ leapSecond.LeapAt59 := by
  unfold Timestamp.Valid Timestamp.LeapAt59; decide

/-- C31 is violated by every timestamp: it is converted to JSON that cannot be converted back. Nothing is assumed
about chrono. -/
theorem C31_refuted_timestamp_chrono {env : Env} (hc : env.Chrono) {t : Timestamp} (hv : t.Valid) (hl : t.LeapAt59) :
    ∃ j, toJson env true (.timestamp t) = some j ∧
      fromJson env j = .err (.invalidSourisType .timestamp .invalidData) := by
  refine ⟨_, rfl, ?_⟩
  show (match env.tsParse (env.tsPrint t) with
    | some t => Out.ok (Value.timestamp t)
    | none => Out.err (ValueSerError.invalidSourisType .timestamp .invalidData)) = _
  rw [hc.print, hc.parse, C86_refuted_reread hv hl]

/-- C31: the JSON of a timestamp is converted to the timestamp that its text says, and to none if the text says
none. -/
theorem C31_timestamp {env : Env} (hc : env.Chrono) {t : Timestamp} {s : List Char} :
    fromJson env (.object [("souris_type".toList, .number (.posInt 6)), ("timestamp".toList, .string s)]) =
      .ok (.timestamp t) ↔ StampText t s := by
  have e : fromJson env (.object [("souris_type".toList, .number (.posInt 6)), ("timestamp".toList, .string s)]) =
      match env.tsParse s with
      | some t => Out.ok (Value.timestamp t)
      | none => Out.err (ValueSerError.invalidSourisType .timestamp .invalidData) := rfl
  rw [e, hc.parse, ← C86_reads]
  cases Chrono.parse s with
  | none => simp
  | some t => simp

/-- C78, partial: timestamps are told apart by their text. Missing: leap seconds that are not in second 59
(`C86_refuted_leap`). -/
theorem C78_timestamp_partial {env : Env} (hc : env.Chrono) (sh : Shows) {t u : Timestamp} (ht : t.Valid)
    (ht' : t.LeapAt59) (hu : u.Valid) (hu' : u.LeapAt59) :
    display env sh (.timestamp t) = display env sh (.timestamp u) ↔ t = u := by
  simp only [display, hc.print]
  exact ⟨C86_different_partial ht ht' hu hu', fun h => by rw [h]⟩

/-- C78, partial: a timestamp is printed as its date and time. -/
theorem C78_timestamp_text_partial {env : Env} (hc : env.Chrono) (sh : Shows) {t : Timestamp} {s : List Char}
    (ht : t.Valid) (ht' : t.LeapAt59) : display env sh (.timestamp t) = s ↔ PrintedStamp t s := by
  simp only [display, hc.print]
  exact C86_print ht ht'

/-- C78 is violated by leap seconds that are not in second 59. -/
theorem C78_refuted_leap {env : Env} (hc : env.Chrono) (sh : Shows) : ∃ t u : Timestamp, t.Valid ∧ u.Valid ∧ t ≠ u ∧
    display env sh (.timestamp t) = display env sh (.timestamp u) := by
  obtain ⟨t, u, ht, hu, hne, h⟩ := C86_refuted_leap
  refine ⟨t, u, ht, hu, hne, ?_⟩
  simp only [display, hc.print]
  exact h

/-- C65: the timestamps that can be typed in are those of the calendar and the clock. -/
theorem C65_timestamp {env : Env} (hc : env.Chrono) (T : Term) {t : Timestamp} :
    (∃ answers rest, Mouse.value env T answers = .ok (.timestamp t, rest)) ↔
      t = T.now ∨ (IsDate t.year t.month t.day ∧ IsTime t.hour t.minute t.sec t.nano) := by
  constructor
  · rintro ⟨answers, rest, h⟩
    obtain ⟨used, _, h⟩ := (C65_entry_partial _ _ _ _ _).mp h
    cases h with
    | timestamp h =>
      cases h with
      | now => exact .inl rfl
      | format h =>
        obtain ⟨_, s, _, _, _, h⟩ := h
        have h : env.tsParse s = some t := h
        rw [hc.parse] at h
        obtain ⟨_, _, _, _, h1, _, h2⟩ := C86_reads.mp h
        exact .inr ⟨h1.exists_, h2.exists_⟩
      | parts _ _ hd _ _ ht => exact .inr ⟨hd, ht⟩
  · rintro (rfl | ⟨hd, ht⟩)
    · exact ⟨_, [], (C65_entry_partial _ _ _ _ _).mpr ⟨_, (List.append_nil _).symm, .timestamp .now⟩⟩
    · have hv : t.Valid := ⟨hd, ht.1, ht.2.1, ht.2.2.1, by rcases ht.2.2.2 with h | h <;> omega⟩
      have hl : t.LeapAt59 := fun h => by rcases ht.2.2.2 with h' | h' <;> omega
      have h := C86_iso_partial hv hl
      rw [← hc.parse] at h
      refine ⟨_, [], (C65_entry_partial _ _ _ _ _).mpr ⟨_, (List.append_nil _).symm,
        .timestamp (.format (typed_line ?_ h))⟩⟩
      obtain ⟨a, b, e, _⟩ := (C86_print hv hl).mp rfl
      rw [e]
      simp

/-- C85, partial: the JSON of a timestamp is its date and time as printed. -/
theorem C85_timestamp_partial {env : Env} (hc : env.Chrono) {types : Bool} {t : Timestamp} (hv : t.Valid)
    (hl : t.LeapAt59) : ∃ o s, toJson env types (.timestamp t) = some (.object o) ∧ PrintedStamp t s ∧
      IsObject o (typeMember types 6 ++ [("timestamp".toList, .string s)]) := by
  have hs : SafeInts (.timestamp t) := ⟨(fun i h => by cases h), (fun a b h => by cases h)⟩
  have hk : KeysDistinct (.timestamp t) := fun m h => by cases h
  have h := C85_form_partial (env := env) (types := types) hs hk rfl
  cases h with
  | timestamp ho =>
    refine ⟨_, _, rfl, ?_, ho⟩
    rw [hc.print]
    exact (C86_print hv hl).mp rfl

/-! ## Examples -/

example : ∃ j, toJson chronoEnv true (.timestamp leapSecond) = some j ∧
    fromJson chronoEnv j = .err (.invalidSourisType .timestamp .invalidData) :=
  C31_refuted_timestamp_chrono chronoEnv_chrono leapSecond_ok.1 leapSecond_ok.2

example (sh : Shows) : display chronoEnv sh (.timestamp leapSecond) = "2016-12-31 23:59:60.500".toList :=
  show Chrono.print leapSecond = _ by decide +kernel

example : fromJson chronoEnv (.object [("souris_type".toList, .number (.posInt 6)),
    ("timestamp".toList, .string "2016-12-31T23:59:60.5".toList)]) = .ok (.timestamp leapSecond) :=
  (C31_timestamp chronoEnv_chrono).mpr (C86_reads.mp (by decide +kernel))

example (T : Term) : ∃ answers rest, Mouse.value chronoEnv T answers = .ok (.timestamp leapSecond, rest) :=
  (C65_timestamp chronoEnv_chrono T).mpr (.inr (by decide))

end Souris
