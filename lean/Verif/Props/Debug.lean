import Verif.Lemmas.DebugValue

/-! # C99: the debug text tells values apart -/

namespace Souris

open StdText Dbg

/-! ## Floats -/

/-- **C99** for doubles: the shortest decimal that is rounded to them, with an exponent exactly if they are below 1e-4 or
from 1e16 on. -/
theorem C99_double (x : UInt64) : kind64.DebugPrinted x.toNat (f64Debug x) := f64Debug_printed x

/-- **C99** for singles. -/
theorem C99_single (x : UInt32) : kind32.DebugPrinted x.toNat (f32Debug x) := f32Debug_printed x

/-- **C99**: the debug text of a double, typed in, is the same double; that of a not-a-number is one. -/
theorem C99_reread_double (x : UInt64) : ∃ y, f64Parse (f64Debug x) = some y ∧ (¬ Value.IsNan64 x → y = x) ∧ (Value.IsNan64 x → Value.IsNan64 y) := by
  rcases f64Debug_reread x with ⟨h1, h2⟩ | ⟨h1, h2⟩
  · exact ⟨_, h2, fun h => absurd h1 h, fun _ => by unfold Value.IsNan64; decide⟩
  · exact ⟨_, h2, fun _ => rfl, fun h => absurd h h1⟩

/-! ## Timestamps -/

/-- **C99**, partial: unlike the displayed text (`C86_refuted_reread`), the debug text of a timestamp is read back as the
same timestamp. Missing: leap seconds elsewhere than in second 59. -/
theorem C99_reread_timestamp_partial {t : Timestamp} (hv : t.Valid) (hl : t.LeapAt59) : Chrono.parse (Chrono.debug t) = some t :=
  stamp_reread hv hl

/-! ## Integers -/

/-- **C99** for integers: the text shows the signedness, the number of bytes and all of the bytes, so that only the very
same integers have the same text. -/
theorem C99_integer (sh : Shows) (alt : Bool) (l : Nat) (i j : Integer) : i.debug sh alt l = j.debug sh alt l ↔ i = j :=
  ⟨fun h => (integer_cut sh (r := []) (r' := []) (by rw [h])).1, fun h => by rw [h]⟩

/-! ## Values -/

/-- **C99**: the debug text, compact or indented, tells the type of any value. -/
theorem C99_type (sh : Shows) (alt : Bool) (l : Nat) {v w : Value} (h : v.debug sh alt l = w.debug sh alt l) : v.asTy = w.asTy :=
  value_ty (r := []) (r' := []) (by rw [h])

/-- **C99**, partial: two values have the same debug text, compact or indented, exactly if they are the same up to the
bits of not-a-numbers. Missing: leap seconds elsewhere than in second 59 (`C99_refuted_leap`). -/
theorem C99_debug_partial (sh : Shows) (alt : Bool) (l : Nat) {v w : Value} (hv : v.Ordinary) (hw : w.Ordinary) :
    v.debug sh alt l = w.debug sh alt l ↔ Value.Twin v w :=
  ⟨fun h => (value_cut sh alt hv w hw l [] [] (by rw [h])).1, fun h => twin_debug sh alt h l⟩

/-- **C99**, partial: a debug text shows where it ends: whatever stands behind it, it cannot be taken for a longer or
shorter one. Missing: as in `C99_debug_partial`. -/
theorem C99_end_partial (sh : Shows) (alt : Bool) (l : Nat) {v w : Value} (hv : v.Ordinary) (hw : w.Ordinary) {r r' : List Char}
    (h : v.debug sh alt l ++ r = w.debug sh alt l ++ r') : Value.Twin v w ∧ r = r' := value_cut sh alt hv w hw l r r' h

/-- **C99**, partial: two stores have the same debug text exactly if they have the same keys in the same order and the
values are the same up to the bits of not-a-numbers. Missing: as in `C99_debug_partial`. -/
theorem C99_store_partial (sh : Shows) (alt : Bool) {s t : List (List Char × Value)} (hs : ∀ p ∈ s, p.2.Ordinary)
    (ht : ∀ p ∈ t, p.2.Ordinary) :
    Store.debug sh alt s = Store.debug sh alt t ↔ s.map (·.1) = t.map (·.1) ∧
      ∀ (i : Nat) p q, s[i]? = some p → t[i]? = some q → Value.Twin p.2 q.2 := by
  unfold Store.debug
  constructor
  · intro h
    obtain ⟨k1, k2⟩ := entries_cut sh alt 1 (m := s) (m' := t) (R := Value.Twin) fun p hp q hq l r r' h =>
      value_cut sh alt (hs p hp) q.2 (ht q hq) l r r' h
    have e : ∀ m, Value.debugEntries sh alt 2 m = entries sh alt (1 + 1) m := fun m => valueEntries_eq sh alt 2 m
    rw [e, e] at h
    exact k2 (tuple_cut k1 (r := []) (r' := []) (congrArg (· ++ []) h)).1
  · rintro ⟨hk, h⟩
    rw [entries_congr sh alt 2 hk fun i p q hp hq => twin_debug sh alt (h i p q hp hq) 2]

/-- **C99** is violated: a leap second behind second 58 is shown like second 59. -/
theorem C99_refuted_leap (sh : Shows) (alt : Bool) : ∃ t u : Timestamp, t.Valid ∧ u.Valid ∧ t ≠ u ∧
    (Value.timestamp t).debug sh alt 0 = (Value.timestamp u).debug sh alt 0 :=
  ⟨⟨2024, 2, 29, 12, 0, 58, 1500000000⟩, ⟨2024, 2, 29, 12, 0, 59, 500000000⟩, by
    unfold Timestamp.Valid; decide, by unfold Timestamp.Valid; decide, by decide, by
    rw [Value.debug, Value.debug]
    simp [Chrono.debug, Chrono.timeText]⟩

/-! ## Examples -/

example : f64Debug 0x4341C37937E08000 = "1e16".toList := by decide +kernel
example : f64Debug 0x4341C37937E07FFF = "9999999999999998.0".toList := by decide +kernel
example : f64Debug 0x3F1A36E2EB1C432D = "0.0001".toList := by decide +kernel
example : f64Debug 0xBF1A36E2EB1C432C = "-9.999999999999999e-5".toList := by decide +kernel
example : f64Debug 0x8000000000000000 = "-0.0".toList := by decide +kernel
example : f32Debug 0x7F7FFFFF = "3.4028235e38".toList := by decide +kernel
example : f32Debug 0x3E800000 = "0.25".toList := by decide +kernel

/-- Everything is escaped. -/
def escaping : Shows where
  plain := fun c => decide (32 ≤ c.toNat ∧ c.toNat < 127)
  f32 := f32Text
  f64 := f64Text
  ipv6 := ip6Text
  table := fun _ => []

/-- What `mouse` prints for a store with a list in it. -/
example : Store.debug escaping true [("a\n".toList, .array [.boolean true, .null]), ("b".toList, .array [])] =
    "Store(\n    {\n        \"a\\n\": Array(\n            [\n                Boolean(\n                    true,\n                ),\n                Null(\n                    (),\n                ),\n            ],\n        ),\n        \"b\": Array(\n            [],\n        ),\n    },\n)".toList := by
  decide +kernel

/-- An integer. -/
example : (Integer.ofUnsigned 1 7).debug escaping false 0 = "Integer { signed_state: Unsigned, bytes_used: 1, content: \"7\", bytes: \"[0x7, 0x0, 0x0, 0x0, 0x0, 0x0, 0x0, 0x0, 0x0, 0x0, 0x0, 0x0, 0x0, 0x0, 0x0, 0x0]\" }".toList := by
  decide +kernel

/-- On one line. -/
example : (Value.json (.object [("k".toList, .array [.bool true, .null, .number (.posInt 3), .string ['"']])])).debug escaping false 0 =
    "JSON(Object {\"k\": Array [Bool(true), Null, Number(3), String(\"\\\"\")]})".toList := by decide +kernel

/-- Nested, ordinary, and not the same: a one and a one of another signedness, deep inside. -/
example (sh : Shows) (alt : Bool) : ∃ v w : Value, v.Ordinary ∧ w.Ordinary ∧ v.debug sh alt 0 ≠ w.debug sh alt 0 := by
  have ord : ∀ i, (Value.map [(['k'], .array [.timezone ['U', 'T', 'C'], .integer i])]).Ordinary := by
    intro i
    refine .map fun p hp => ?_
    cases List.mem_singleton.mp hp
    refine .array fun v hv => ?_
    simp only [List.mem_cons, List.not_mem_nil, or_false] at hv
    rcases hv with rfl | rfl
    · exact .timezone (by decide)
    · exact .integer i
  refine ⟨_, _, ord (Integer.ofUnsigned 1 1), ord (Integer.ofSigned 1 1), fun h => ?_⟩
  have key : ∀ i j : Integer, Value.Twin (.map [(['k'], .array [.timezone ['U', 'T', 'C'], .integer i])])
      (.map [(['k'], .array [.timezone ['U', 'T', 'C'], .integer j])]) → i = j := by
    intro i j h
    generalize hv : Value.map [(['k'], .array [.timezone ['U', 'T', 'C'], .integer i])] = v at h
    generalize hw : Value.map [(['k'], .array [.timezone ['U', 'T', 'C'], .integer j])] = w at h
    cases h with
    | same => rw [← hw] at hv; simpa using hv
    | map hk h =>
      cases hv
      cases hw
      have h := h 0 _ _ rfl rfl
      simp only at h
      generalize hv : Value.array [.timezone ['U', 'T', 'C'], .integer i] = v at h
      generalize hw : Value.array [.timezone ['U', 'T', 'C'], .integer j] = w at h
      cases h with
      | same => rw [← hw] at hv; simpa using hv
      | array hl h =>
        cases hv
        cases hw
        have h := h 1 _ _ rfl rfl
        generalize hv : Value.integer i = v at h
        generalize hw : Value.integer j = w at h
        cases h with
        | same => rw [← hw] at hv; simpa using hv
        | _ => cases hv
      | _ => cases hv
    | _ => cases hv
  exact absurd (key _ _ ((C99_debug_partial sh alt 0 (ord _) (ord _)).mp h)) (by decide +kernel)

end Souris
