import Verif.Lemmas.IntegerSerde
import Verif.Props.IntegerConv

/-! # Property C61: `Integer` through serde -/

namespace Souris

open Integer

/-- C61: an `Integer` made from a native one hands its number to the serialiser. -/
theorem C61_serialise {i : Integer} (hi : i.Native) :
    ∃ v, i.serialise = .ok v ∧ v.Denotes i.value ∧ ((∃ n, v = .unsigned 16 n) ↔ i.signedState = .unsigned) := by
  have hw : Width 16 := by unfold Width; decide
  obtain ⟨h1, h2, h3⟩ := Native.range hi
  have hsg : i.signedState ≠ .unsigned → i.toSigned 16 = .ok i.value ∧ IsSigned 16 i.value := fun h => by
    have hf : IsSigned 16 i.value := by have := h3 h; unfold IsSigned; omega
    exact ⟨C02_signed_fits_partial hi hw hf, hf⟩
  unfold serialise
  cases hs : i.signedState with
  | unsigned =>
    have hnn : ¬ i.value < 0 := fun h => by rw [← hi.neg_iff, hs] at h; cases h
    have hf : IsUnsigned 16 i.value.toNat := by unfold IsUnsigned; omega
    have := ((C02_unsigned_exact hi hw).1 i.value.toNat).mpr ⟨hf, by omega⟩
    refine ⟨.unsigned 16 i.value.toNat, by simp only [this]; rfl, ?_, by simp⟩
    have h := SerdeNum.Denotes.unsigned hw hf
    rwa [show ((i.value.toNat : Nat) : Int) = i.value by omega] at h
  | signedPositive =>
    obtain ⟨e, hf⟩ := hsg (by simp [hs])
    exact ⟨.signed 16 i.value, by simp only [e]; rfl, .signed hw hf, by simp⟩
  | signedNegative =>
    obtain ⟨e, hf⟩ := hsg (by simp [hs])
    exact ⟨.signed 16 i.value, by simp only [e]; rfl, .signed hw hf, by simp⟩

/-- C61, any format: whichever integer type a format chooses to give the number in, it is the number
read; a format that gives a float or anything else gets an error. -/
theorem C61_any_format (v : SerdeNum) :
    (∀ z, v.Denotes z → ∃ j, visit v = .ok j ∧ j.Native ∧ j.value = z) ∧ visit .other = .err () := by
  refine ⟨fun z h => ?_, rfl⟩
  cases h with
  | @unsigned k n hk hn => exact ⟨_, rfl, .unsigned hk hn, (C01_value hk).1 n hn⟩
  | @signed k n hk hn => exact ⟨_, rfl, .signed hk hn, (C01_value hk).2 _ hn⟩

/-- C61: `serde_json::from_str` reads exactly the JSON integers of 64 bits, signed or not, with the right
number (and not `-0`); everything else is an error, nothing panics. -/
theorem C61_json_reads (s : List Char) :
    (∀ i, ofJsonText s = .ok i → i.Native ∧ JsonInt s i.value ∧ -(2 ^ 63) ≤ i.value ∧ i.value < 2 ^ 64) ∧
    (∀ z, JsonInt s z → -(2 ^ 63) ≤ z → z < 2 ^ 64 → (z = 0 → '-' ∉ s) →
      ∃ i, ofJsonText s = .ok i ∧ i.value = z) ∧
    (∀ w, ofJsonText s ≠ .panic w) := by
  have hw : Width 8 := by unfold Width; decide
  unfold ofJsonText
  refine ⟨fun i h => ?_, fun z hz h1 h2 h0 => ?_, fun w h => ?_⟩
  · cases hr : SerdeJson.read s with
    | none => rw [hr] at h; cases h
    | some v =>
      rw [hr] at h
      rcases read_sound hr with ⟨n, rfl, hn, hj⟩ | ⟨n, rfl, hn1, hn2, hj⟩ | rfl
      · cases h
        have hf : IsUnsigned 8 n := by unfold IsUnsigned; omega
        rw [(C01_value hw).1 n hf]
        exact ⟨.unsigned hw hf, hj, by omega, by omega⟩
      · cases h
        have hf : IsSigned 8 (-(n : Int)) := by unfold IsSigned; omega
        rw [(C01_value hw).2 _ hf]
        exact ⟨.signed hw hf, hj, by omega, by omega⟩
      · cases h
  · obtain ⟨hp, hn, _⟩ := read_complete hz
    by_cases hneg : z < 0
    · rw [hn hneg h1]
      exact ⟨_, rfl, (C01_value hw).2 z (by unfold IsSigned; omega)⟩
    · rcases hp (by omega) h2 with h | ⟨hz0, _, hm⟩
      · rw [h]
        refine ⟨_, rfl, ?_⟩
        rw [(C01_value hw).1 z.toNat (by unfold IsUnsigned; omega)]
        omega
      · exact absurd hm (h0 hz0)
  · cases hr : SerdeJson.read s with
    | none => rw [hr] at h; cases h
    | some v => rw [hr] at h; cases v <;> cases h

theorem toJsonText_eq {i : Integer} (hi : i.Native) :
    i.toJsonText = .ok (intText i.value) := by
  obtain ⟨v, e, hv, _⟩ := C61_serialise hi
  unfold toJsonText
  rw [e]
  show Out.ok (SerdeJson.text v) = _
  revert hv
  generalize i.value = z
  intro hv
  cases hv with
  | @unsigned k n hk hn =>
    show Out.ok (natText n) = _
    unfold intText
    rw [if_neg (by omega), Int.natAbs_natCast]
  | signed hk hn => rfl

/-- C61: what `serde_json::to_string` writes is a JSON integer with the right number, and reading it gives
the number back, exactly if it fits 64 bits; otherwise there is an error and no wrong number. -/
theorem C61_json_text_partial {i : Integer} (hi : i.Native) :
    ∃ s, i.toJsonText = .ok s ∧ JsonInt s i.value ∧
      (-(2 ^ 63) ≤ i.value ∧ i.value < 2 ^ 64 → ∃ j, ofJsonText s = .ok j ∧ j.value = i.value ∧
        (j.eq i = true ↔ ¬ (i.value = 0 ∧ i.signedState = .signedPositive))) ∧
      (¬ (-(2 ^ 63) ≤ i.value ∧ i.value < 2 ^ 64) → ofJsonText s = .err ()) := by
  have hw : Width 8 := by unfold Width; decide
  refine ⟨_, toJsonText_eq hi, intText_json _, fun ⟨h1, h2⟩ => ?_, fun h => ?_⟩
  · have hm : '-' ∉ intText i.value ∨ i.value < 0 := by
      by_cases h : '-' ∈ intText i.value
      · exact .inr (intText_minus h)
      · exact .inl h
    obtain ⟨j, hj, hv⟩ := (C61_json_reads _).2.1 _ (intText_json i.value) h1 h2
      (fun h0 => by rcases hm with h | h; exact h; omega)
    have hN := ((C61_json_reads _).1 j hj).1
    refine ⟨j, hj, hv, ?_⟩
    rw [C05_eq_iff hN hi, hv]
    simp only [true_and, not_and]
    constructor
    · intro h h0 hs
      have hjs := (h h0).mpr hs
      rw [h0] at hj
      have : j = ofUnsigned 8 0 := by
        have e : ofJsonText (intText 0) = .ok (ofUnsigned 8 0) := by decide +kernel
        rw [e] at hj; cases hj; rfl
      rw [this] at hjs
      cases hjs
    · intro h h0
      have hs := h h0
      rw [h0] at hj
      have : j = ofUnsigned 8 0 := by
        have e : ofJsonText (intText 0) = .ok (ofUnsigned 8 0) := by decide +kernel
        rw [e] at hj; cases hj; rfl
      constructor
      · intro h'; rw [this] at h'; cases h'
      · intro h'; exact absurd h' hs
  · have := (read_complete (intText_json i.value)).2.2 (by omega)
    unfold ofJsonText
    rcases this with e | e <;> rw [e]; rfl

/-- C61: the same through serde_json's value tree, except that the error comes when writing. -/
theorem C61_json_value_partial {i : Integer} (hi : i.Native) :
    (-(2 ^ 63) ≤ i.value ∧ i.value < 2 ^ 64 →
      ∃ n j, i.toJsonNumber = .ok (some n) ∧ ofJsonNumber n = .ok j ∧ j.value = i.value) ∧
    (¬ (-(2 ^ 63) ≤ i.value ∧ i.value < 2 ^ 64) → i.toJsonNumber = .ok none) := by
  have hw : Width 8 := by unfold Width; decide
  obtain ⟨v, e, hv, _⟩ := C61_serialise hi
  have hU : ∀ n : Nat, n < 2 ^ 64 → (ofUnsigned 8 n).value = n := fun n hn =>
    (C01_value hw).1 n (by unfold IsUnsigned; omega)
  have hS : ∀ n : Int, -(2 ^ 63) ≤ n → n < 0 → (ofSigned 8 n).value = n := fun n h1 h2 =>
    (C01_value hw).2 n (by unfold IsSigned; omega)
  unfold toJsonNumber
  rw [e]
  show (_ → ∃ n j, Out.ok (SerdeJson.toNumber v) = .ok (some n) ∧ _) ∧
    (_ → Out.ok (SerdeJson.toNumber v) = _)
  revert hv
  generalize i.value = z
  intro hv
  cases hv with
  | @unsigned k n hk hn =>
    simp only [SerdeJson.toNumber, SJNumber.ofU64]
    refine ⟨fun h => ⟨.posInt n, ofUnsigned 8 n, ?_, rfl, hU n (by omega)⟩, fun h => ?_⟩
    · rw [if_pos (by omega)]
    · rw [if_neg (by omega)]
  | @signed k z hk hn =>
    simp only [SerdeJson.toNumber, SJNumber.ofU64, SJNumber.ofI64]
    refine ⟨fun h => ?_, fun h => ?_⟩
    · by_cases h0 : 0 ≤ z
      · rw [if_pos (by omega)]
        exact ⟨_, _, rfl, rfl, by rw [hU _ (by omega)]; omega⟩
      · rw [if_neg (by omega), if_pos (by omega), if_pos (by omega)]
        exact ⟨_, _, rfl, rfl, hS _ (by omega) (by omega)⟩
    · rw [if_neg (by omega), if_neg (by omega)]

/-- C61 is violated for large numbers: `2^64` is written but cannot be read back. -/
theorem C61_refuted_large : ∃ i s, Native i ∧ i.toJsonText = .ok s ∧ ofJsonText s = .err () :=
  ⟨ofUnsigned 16 (2 ^ 64), "18446744073709551616".toList,
    .unsigned (by unfold Width; decide) (by unfold IsUnsigned; decide), by decide +kernel, by decide +kernel⟩

/-- C61 is violated by `Integer::from(0i32)`: what is read back is not `==` to it. -/
theorem C61_refuted_signed_zero : ∃ i s j, Native i ∧ i.toJsonText = .ok s ∧ ofJsonText s = .ok j ∧
    j.eq i = false :=
  ⟨ofSigned 4 0, "0".toList, ofUnsigned 8 0,
    .signed (by unfold Width; decide) (by unfold IsSigned; decide), by decide +kernel, by decide +kernel, by decide⟩

/-- C61 is violated by a deserialised integer: seventeen bytes denote `2^128 - 1`, which serde writes as
`-1`. -/
theorem C61_refuted_noncanonical : ∃ i c, Integer.deser .signedPositive (Cursor.new (255 :: List.replicate 16 255)) =
      .ok (i, c) ∧ i.value = 2 ^ 128 - 1 ∧ i.toJsonText = .ok "-1".toList :=
  ⟨⟨.signedPositive, List.replicate 16 255, 16⟩, ⟨255 :: List.replicate 16 255, 17⟩,
    by decide, by decide +kernel, by decide +kernel⟩

example : (ofSigned 8 (-9223372036854775808)).Native :=
  .signed (by unfold Width; decide) (by unfold IsSigned; decide)
example : JsonInt "\t-42 ".toList (-42) :=
  .neg (before := ['\t']) (digits := ['4', '2']) (after := [' ']) (by simp [JsonSpace]) (by simp [JsonSpace]) (by decide) (by decide)
    (by decide)
example : ofJsonText "007".toList = .err () := by decide +kernel
example : ofJsonText "1.0".toList = .err () := by decide +kernel
example : ofJsonText " 12 ".toList = .ok (ofUnsigned 8 12) := by decide +kernel

end Souris
