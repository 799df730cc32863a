import Verif.Lemmas.IntegerConv
import Verif.Lemmas.FloatArith
import Verif.Props.Integer

/-! # Properties C08, C10, C11: text, floats and JSON numbers of `Integer` -/

namespace Souris

open Integer

/-! ## C08: decimal text -/

theorem zeroText_value : (⟨.unsigned, List.replicate integerMaxSize 0, 0⟩ : Integer).value = 0 := by
  decide

/-- C08, parsing: `from_str` accepts exactly the decimal numerals in range, with the right number;
everything else is an error (so no string panics). -/
theorem C08_parse_exact (s : List Char) :
    (∀ i, fromStr s = .ok i → ∃ n : Int, Numeral s n ∧ i.value = n ∧ -(2 ^ 127) ≤ n ∧ n < 2 ^ 128) ∧
    (∀ n : Int, Numeral s n → -(2 ^ 127) ≤ n → n < 2 ^ 128 →
      ∃ i, fromStr s = .ok i ∧ i.value = n) ∧
    (∀ w, fromStr s ≠ .panic w) := by
  have hw : Width 16 := by unfold Width; decide
  have hU : ∀ n, n ≤ 2 ^ 128 - 1 → (ofUnsigned 16 n).value = n := fun n hn =>
    (C01_value hw).1 n (by unfold IsUnsigned; omega)
  have hS : ∀ n : Int, -(2 ^ 127) ≤ n → n < 2 ^ 127 → (ofSigned 16 n).value = n := fun n h1 h2 =>
    (C01_value hw).2 n (by unfold IsSigned; omega)
  cases s with
  | nil =>
    refine ⟨fun i h => by simp [fromStr] at h, fun n h => ?_, fun w => by simp [fromStr]⟩
    cases h with
    | plain h _ => exact absurd rfl h
  | cons c cs =>
    by_cases h0 : c :: cs = ['0']
    · have hf : fromStr (c :: cs) = .ok ⟨.unsigned, List.replicate integerMaxSize 0, 0⟩ := by
        simp only [fromStr, if_pos h0]
      rw [hf]
      refine ⟨fun i h => ?_, fun n hn _ _ => ⟨_, rfl, ?_⟩, fun w => by simp⟩
      · cases h
        refine ⟨0, ?_, zeroText_value, by decide, by decide⟩
        rw [h0]
        exact Numeral.plain (cs := ['0']) (by simp) (by decide)
      · rw [zeroText_value]
        rw [h0] at hn
        cases hn with
        | plain h hd => rfl
    · by_cases hm : c = '-'
      · have hf : fromStr (c :: cs) =
            match parseMagnitude (2 ^ 127) cs with
            | some n => .ok (ofSigned 16 (-(n : Int)))
            | none => .err .integerParseError := by
          simp only [fromStr, if_neg h0, if_pos hm]
          subst hm
          simp only [parseI128]
          cases parseMagnitude (2 ^ 127) cs <;> rfl
        rw [hf]
        subst hm
        cases hp : parseMagnitude (2 ^ 127) cs with
        | none =>
          refine ⟨fun i h => by simp at h, fun n hn h1 h2 => ?_, fun w => by simp⟩
          exfalso
          cases hn with
          | plain h hd => exact minus_not_digit (hd '-' (by simp))
          | minus h hd =>
            rw [parseMagnitude_eq_some.mpr ⟨h, hd, rfl, by omega⟩] at hp
            cases hp
        | some r =>
          obtain ⟨h1, h2, h3, h4⟩ := parseMagnitude_eq_some.mp hp
          have hv : (ofSigned 16 (-(r : Int))).value = -(r : Int) := hS _ (by omega) (by omega)
          refine ⟨fun i h => ?_, fun n hn _ _ => ⟨_, rfl, ?_⟩, fun w => by simp⟩
          · cases h
            refine ⟨-(r : Int), ?_, hv, by omega, by omega⟩
            rw [h3]; exact Numeral.minus h1 h2
          · rw [hv]
            cases hn with
            | plain h hd => exact absurd (hd '-' (by simp)) minus_not_digit
            | minus h hd => rw [h3]
      · -- no minus sign
        have key : ∀ ds : List Char, (∀ n, Numeral (c :: cs) n ↔
              (ds ≠ [] ∧ (∀ d ∈ ds, d ∈ decimalDigits) ∧ n = digitsValue ds)) →
            fromStr (c :: cs) = (match parseMagnitude (2 ^ 128 - 1) ds with
              | some n => .ok (ofUnsigned 16 n)
              | none => .err .integerParseError) →
            ((∀ i, fromStr (c :: cs) = .ok i →
                ∃ n : Int, Numeral (c :: cs) n ∧ i.value = n ∧ -(2 ^ 127) ≤ n ∧ n < 2 ^ 128) ∧
             (∀ n : Int, Numeral (c :: cs) n → -(2 ^ 127) ≤ n → n < 2 ^ 128 →
                ∃ i, fromStr (c :: cs) = .ok i ∧ i.value = n) ∧
             (∀ w, fromStr (c :: cs) ≠ .panic w)) := by
          intro ds hN hf
          rw [hf]
          cases hp : parseMagnitude (2 ^ 128 - 1) ds with
          | none =>
            refine ⟨fun i h => by simp at h, fun n hn h1 h2 => ?_, fun w => by simp⟩
            exfalso
            obtain ⟨a, b, rfl⟩ := (hN n).mp hn
            rw [parseMagnitude_eq_some.mpr ⟨a, b, rfl, by omega⟩] at hp
            cases hp
          | some r =>
            obtain ⟨h1, h2, h3, h4⟩ := parseMagnitude_eq_some.mp hp
            refine ⟨fun i h => ?_, fun n hn _ _ => ⟨_, rfl, ?_⟩, fun w => by simp⟩
            · cases h
              exact ⟨r, (hN r).mpr ⟨h1, h2, by rw [h3]⟩, hU r h4, by omega, by omega⟩
            · obtain ⟨_, _, rfl⟩ := (hN n).mp hn
              rw [hU r h4, h3]
        by_cases hp : c = '+'
        · refine key cs ?_ ?_
          · subst hp
            intro n
            constructor
            · intro h
              cases h with
              | plain h hd => exact absurd (hd '+' (by simp)) plus_not_digit
              | plus h hd => exact ⟨h, hd, rfl⟩
            · rintro ⟨h, hd, rfl⟩; exact Numeral.plus h hd
          · simp only [fromStr, if_neg h0, if_neg hm]
            subst hp
            rfl
        · refine key (c :: cs) ?_ ?_
          · intro n
            constructor
            · intro h
              cases h with
              | plain h hd => exact ⟨h, hd, rfl⟩
              | plus h hd => exact absurd rfl hp
              | minus h hd => exact absurd rfl hm
            · rintro ⟨h, hd, rfl⟩; exact Numeral.plain h hd
          · simp only [fromStr, if_neg h0, if_neg hm]
            have : parseU128 (c :: cs) = parseMagnitude (2 ^ 128 - 1) (c :: cs) := by
              unfold parseU128
              split
              · rename_i h; cases h; exact absurd rfl hp
              · rfl
            rw [this]
            cases parseMagnitude (2 ^ 128 - 1) (c :: cs) <;> rfl

/-- A string is a numeral for at most one number, so `C08_parse_exact` pins the result. -/
theorem Numeral.unique {s : List Char} {n m : Int} (h1 : Numeral s n) (h2 : Numeral s m) : n = m := by
  cases h1 with
  | plain h hd =>
    cases h2 with
    | plain _ _ => rfl
    | plus _ _ => exact absurd (hd '+' (by simp)) plus_not_digit
    | minus _ _ => exact absurd (hd '-' (by simp)) minus_not_digit
  | plus h hd =>
    cases h2 with
    | plain _ hd' => exact absurd (hd' '+' (by simp)) plus_not_digit
    | plus _ _ => rfl
  | minus h hd =>
    cases h2 with
    | plain _ hd' => exact absurd (hd' '-' (by simp)) minus_not_digit
    | minus _ _ => rfl

theorem Native.range {i : Integer} (hi : i.Native) : -(2 ^ 127) ≤ i.value ∧ i.value < 2 ^ 128 ∧
    (i.signedState ≠ .unsigned → i.value < 2 ^ 127) := by
  have hw : Width 16 := by unfold Width; decide
  cases hi with
  | @unsigned k n hk hn =>
    rw [(C01_value hk).1 n hn]
    have : n < 2 ^ 128 := by
      have := Nat.pow_le_pow_right (n := 2) (by decide) (show 8 * k ≤ 128 by have := hk.le; omega)
      unfold IsUnsigned at hn
      omega
    exact ⟨by omega, by exact_mod_cast this, fun h => absurd rfl h⟩
  | @signed k n hk hn =>
    rw [(C01_value hk).2 n hn]
    have h1 := Nat.pow_le_pow_right (n := 2) (by decide) (show 8 * k - 1 ≤ 127 by have := hk.le; omega)
    unfold IsSigned at hn
    have h2 : ((2 : Int) ^ (8 * k - 1)) ≤ 2 ^ 127 := by exact_mod_cast h1
    omega

/-- The text of an `Integer` built from a native integer is the decimal numeral of its number. -/
theorem C08_display {i : Integer} (hi : i.Native) : Numeral i.display i.value := by
  have hw : Width 16 := by unfold Width; decide
  obtain ⟨h1, h2, h3⟩ := Native.range hi
  unfold display
  have hsg : i.signedState ≠ .unsigned → i.toSigned 16 = .ok i.value := fun h =>
    C02_signed_fits_partial hi hw (by have := h3 h; unfold IsSigned; omega)
  cases hs : i.signedState with
  | signedPositive =>
    simp only [hsg (by simp [hs])]
    exact intText_numeral _
  | signedNegative =>
    simp only [hsg (by simp [hs])]
    exact intText_numeral _
  | unsigned =>
    have hnn : ¬ i.value < 0 := fun h => by
      rw [← hi.neg_iff, hs] at h; cases h
    have := ((C02_unsigned_exact hi hw).1 i.value.toNat).mpr
      ⟨by unfold IsUnsigned; omega, by omega⟩
    simp only [this]
    have h := natText_numeral i.value.toNat
    rwa [show ((i.value.toNat : Nat) : Int) = i.value by omega] at h

/-- C08: text round-trips. -/
theorem C08_text_roundtrip {i : Integer} (hi : i.Native) :
    ∃ j, fromStr i.display = .ok j ∧ j.value = i.value :=
  (C08_parse_exact i.display).2.1 i.value (C08_display hi) (Native.range hi).1 (Native.range hi).2.1

example : (ofSigned 8 (-9223372036854775808)).display = "-9223372036854775808".toList := by decide +kernel
example : Numeral "+0042".toList 42 := Numeral.plus (cs := "0042".toList) (by decide) (by decide)
example : ∃ i, fromStr "-170141183460469231731687303715884105728".toList = .ok i ∧
    i.value = -(2 ^ 127) := ⟨_, rfl, by decide +kernel⟩
example : fromStr "--1".toList = .err .integerParseError := by decide

/-! ## C10: floats -/

theorem f64Finite_iff (bits : UInt64) : f64Format.isFinite bits.toNat = true ↔ F64Finite bits := by
  unfold FloatFormat.isFinite F64Finite
  rw [decide_eq_true_iff]
  rfl

theorem f32Finite_iff (bits : UInt32) : f32Format.isFinite bits.toNat = true ↔ F32Finite bits := by
  unfold FloatFormat.isFinite F32Finite
  rw [decide_eq_true_iff]
  rfl

theorem f64_floor (bits : UInt64) : f64Format.floor bits.toNat = ⌊f64Value bits⌋ := by
  rw [f64Value_eq, scaled_floor]; rfl

theorem f32_floor (bits : UInt32) : f32Format.floor bits.toNat = ⌊f32Value bits⌋ := by
  rw [f32Value_eq, scaled_floor]; rfl

theorem f64_fract (bits : UInt64) : f64Format.fract bits.toNat > 2 ^ (1074 - 52) ↔
    0 ≤ f64Value bits ∧ 1 / 2 ^ 52 < f64Value bits - ⌊f64Value bits⌋ := by
  rw [f64Value_eq, ← scaled_fract _ 1074 52 (by decide)]; rfl

theorem f32_fract (bits : UInt32) : f32Format.fract bits.toNat > 2 ^ (149 - 23) ↔
    0 ≤ f32Value bits ∧ 1 / 2 ^ 23 < f32Value bits - ⌊f32Value bits⌋ := by
  rw [f32Value_eq, ← scaled_fract _ 149 23 (by decide)]; rfl

namespace FloatFormat

/-- The fractional part of a float has few significant bits. -/
theorem fract_parts (F : FloatFormat) (b : Nat) (h : 0 < F.fract b) :
    ∃ c j, c < 2 ^ (F.mant + 1) ∧ j ≤ F.scale ∧ F.fract b = ((c * 2 ^ j : Nat) : Int) ∧ F.num b = F.mag b := by
  have hneg : F.neg b = false := by
    cases hn : F.neg b with
    | false => rfl
    | true =>
      exfalso
      unfold fract num at h
      rw [hn, if_pos rfl, Int.neg_tmod] at h
      have := Int.tmod_nonneg (2 ^ F.scale) (Int.natCast_nonneg (F.mag b))
      omega
  have hnum : F.num b = F.mag b := by
    unfold num
    rw [hneg]
    rfl
  have hfr : F.fract b = ((F.mag b % 2 ^ F.scale : Nat) : Int) := by
    unfold fract
    rw [hnum]
    rw [Int.tmod_eq_emod_of_nonneg (Int.natCast_nonneg _)]
    push_cast
    rfl
  have hm : F.mantissa b < 2 ^ F.mant := Nat.mod_lt _ (by positivity)
  obtain ⟨c, j, hc, e⟩ : ∃ c j, c < 2 ^ (F.mant + 1) ∧ F.mag b = c * 2 ^ j := by
    unfold mag
    split
    · exact ⟨F.mantissa b, 0, by rw [pow_succ]; omega, by rw [pow_zero, Nat.mul_one]⟩
    · exact ⟨2 ^ F.mant + F.mantissa b, F.exponent b - 1, by rw [pow_succ]; omega, rfl⟩
  rw [hfr] at h ⊢
  by_cases hj : F.scale ≤ j
  · exfalso
    have : 2 ^ F.scale ∣ F.mag b := by
      rw [e]
      exact Dvd.dvd.mul_left (Nat.pow_dvd_pow 2 hj) _
    rw [Nat.mod_eq_zero_of_dvd this] at h
    simp at h
  · refine ⟨c % 2 ^ (F.scale - j), j, (Nat.mod_le _ _).trans_lt hc, by omega, ?_, hnum⟩
    congr 1
    rw [e, ← Nat.mul_mod_mul_right, ← pow_add, show F.scale - j + j = F.scale by omega]

end FloatFormat

/-- The fractional part of a positive number. -/
theorem scaled_part {N : Int} {s : Nat} (h : 0 ≤ N) :
    (N : ℚ) / 2 ^ s - ⌊(N : ℚ) / 2 ^ s⌋ = ((N.tmod (2 ^ s) : Int) : ℚ) / 2 ^ s := by
  have hD : (0 : ℚ) < 2 ^ s := by positivity
  rw [Int.tmod_eq_emod_of_nonneg h, scaled_floor]
  have hq : (N : ℚ) = 2 ^ s * ((N / 2 ^ s : Int) : ℚ) + ((N % 2 ^ s : Int) : ℚ) := by
    exact_mod_cast (Int.mul_ediv_add_emod N (2 ^ s)).symm
  rw [eq_div_iff hD.ne', sub_mul, div_mul_cancel₀ _ hD.ne']
  rw [hq]; ring_nf

theorem f64_bits_small {b : Nat} (h : b < f64Format.inf) : (UInt64.ofNat b).toNat = b ∧ F64Finite (UInt64.ofNat b) ∧
    f64Format.num b = f64Format.mag b := by
  have e : f64Format.inf = 2047 * 2 ^ 52 := rfl
  rw [e] at h
  have h1 : (UInt64.ofNat b).toNat = b := by rw [UInt64.toNat_ofNat']; exact Nat.mod_eq_of_lt (by omega)
  refine ⟨h1, ?_, FloatFormat.num_pos (by show b < 2 ^ (52 + 11); omega)⟩
  unfold F64Finite
  rw [h1]
  omega

/-- What an error about decimals carries. -/
theorem f64_decimals {bits : UInt64} (h : 0 < f64Format.fract bits.toNat) :
    F64Finite (.ofNat (f64Format.ofRatio (f64Format.fract bits.toNat).toNat (2 ^ 1074))) ∧
    f64Value (.ofNat (f64Format.ofRatio (f64Format.fract bits.toNat).toNat (2 ^ 1074))) = f64Value bits - ⌊f64Value bits⌋ := by
  obtain ⟨c, j, hc, hj, e, hn⟩ := FloatFormat.fract_parts f64Format bits.toNat h
  have ht : (f64Format.fract bits.toNat).toNat = c * 2 ^ j := by rw [e, Int.toNat_natCast]
  have hj' : j ≤ 1074 := hj
  obtain ⟨hm, hf⟩ := FloatFormat.mag_ofRatio (F := f64Format) (n := c * 2 ^ j) (d := 2 ^ 1074) (by positivity) hc
    (by show j + 3 ≤ 2 ^ 11; omega) rfl
  rw [ht]
  obtain ⟨h1, h2, h3⟩ := f64_bits_small hf
  refine ⟨h2, ?_⟩
  rw [f64Value_eq, f64Value_eq bits, h1, h3, hm, scaled_part (by rw [hn]; exact Int.natCast_nonneg _)]
  have e' : (f64Format.num bits.toNat).tmod (2 ^ 1074) = ((c * 2 ^ j : Nat) : Int) := e
  rw [e', Int.cast_natCast]

/-- The same for `f32`. -/
theorem f32_decimals {bits : UInt32} (h : 0 < f32Format.fract bits.toNat) :
    F64Finite (.ofNat (f64Format.ofRatio (f32Format.fract bits.toNat).toNat (2 ^ 149))) ∧
    f64Value (.ofNat (f64Format.ofRatio (f32Format.fract bits.toNat).toNat (2 ^ 149))) = f32Value bits - ⌊f32Value bits⌋ := by
  obtain ⟨c, j, hc, hj, e, hn⟩ := FloatFormat.fract_parts f32Format bits.toNat h
  have ht : (f32Format.fract bits.toNat).toNat = c * 2 ^ j := by rw [e, Int.toNat_natCast]
  have hj' : j ≤ 149 := hj
  have hc' : c < 2 ^ (f64Format.mant + 1) := hc.trans (by decide)
  obtain ⟨hm, hf⟩ := FloatFormat.mag_ofRatio (F := f64Format) (n := c * 2 ^ j) (d := 2 ^ 149) (c := c) (j := j + 925)
    (by positivity) hc' (by show j + 925 + 3 ≤ 2 ^ 11; omega) (by
      show c * 2 ^ j * 2 ^ 1074 = _
      rw [show 1074 = 925 + 149 from rfl, pow_add 2 925, pow_add 2 j]
      simp only [Nat.mul_assoc])
  rw [ht]
  obtain ⟨h1, h2, h3⟩ := f64_bits_small hf
  refine ⟨h2, ?_⟩
  rw [f64Value_eq, f32Value_eq bits, h1, h3, hm, scaled_part (by rw [hn]; exact Int.natCast_nonneg _)]
  have e' : (((f32Format.num bits.toNat).tmod (2 ^ 149) : Int) : ℚ) = c * 2 ^ j := by
    have : (f32Format.num bits.toNat).tmod (2 ^ 149) = ((c * 2 ^ j : Nat) : Int) := e
    rw [this]
    push_cast
    rfl
  rw [e', show (2 : ℚ) ^ 1074 = 2 ^ 925 * 2 ^ 149 by rw [← pow_add]]
  push_cast
  rw [pow_add]
  field_simp

theorem ofSigned16_value {n : Int} (h1 : -(2 ^ 127) ≤ n) (h2 : n < 2 ^ 127) :
    (ofSigned 16 n).value = n :=
  (C01_value (by unfold Width; decide)).2 n (by unfold IsSigned; omega)

theorem ofUnsigned16_value {n : Nat} (h : n < 2 ^ 128) : (ofUnsigned 16 n).value = n :=
  (C01_value (by unfold Width; decide)).1 n (by unfold IsUnsigned; omega)

/-- C10, `f64`: what the conversion really does, for every bit pattern. Not finite: an error. A
non-negative number with a fractional part above `2^-52`: an error that carries exactly this part. Otherwise the *floor* of the number,
if it lies strictly between `-2^127` and `2^128`. -/
theorem C10_f64_law (bits : UInt64) :
    (¬ F64Finite bits → ofF64 bits = .err .notFinite) ∧
    (F64Finite bits →
      ((0 ≤ f64Value bits ∧ 1 / 2 ^ 52 < f64Value bits - ⌊f64Value bits⌋) →
        ∃ d, ofF64 bits = .err (.decimalsNotSupported d) ∧ F64Finite d ∧ f64Value d = f64Value bits - ⌊f64Value bits⌋) ∧
      (¬ (0 ≤ f64Value bits ∧ 1 / 2 ^ 52 < f64Value bits - ⌊f64Value bits⌋) →
        ((-(2 ^ 127) < ⌊f64Value bits⌋ ∧ ⌊f64Value bits⌋ < 2 ^ 128) →
          ∃ i, ofF64 bits = .ok i ∧ i.value = ⌊f64Value bits⌋) ∧
        (¬ (-(2 ^ 127) < ⌊f64Value bits⌋ ∧ ⌊f64Value bits⌋ < 2 ^ 128) →
          ofF64 bits = .err .tooLarge))) := by
  rw [← f64Finite_iff, ← f64_fract]
  have hpart := @f64_decimals bits
  rw [← f64_floor] at hpart ⊢
  unfold ofF64
  refine ⟨fun h => by simp only [if_pos h], fun h => ⟨fun h2 => ?_, fun h2 => ⟨?_, ?_⟩⟩⟩
  · simp only [h, not_true_eq_false, if_false, if_pos h2]
    exact ⟨_, rfl, hpart (lt_trans (by positivity) h2)⟩
  · rintro ⟨h3, h4⟩
    simp only [h, not_true_eq_false, if_false, if_neg h2]
    by_cases h5 : f64Format.floor bits.toNat < 0
    · simp only [if_pos h5, if_pos h3]
      exact ⟨_, rfl, ofSigned16_value (by omega) (by omega)⟩
    · simp only [if_neg h5, if_pos h4]
      exact ⟨_, rfl, by rw [ofUnsigned16_value (by omega)]; omega⟩
  · intro h3
    simp only [h, not_true_eq_false, if_false, if_neg h2]
    by_cases h5 : f64Format.floor bits.toNat < 0
    · simp only [if_pos h5]
      rw [if_neg (by omega)]
    · simp only [if_neg h5]
      rw [if_neg (by omega)]

/-- C10, `f64`, partial: every integral `f64` strictly between `-2^127` and `2^128` converts to precisely
its number; and a successful conversion of an integral float is always exact. Missing: floats with a
fractional part that are accepted (`C10_refuted_f64_*`) and `-2^127` itself, which is refused. -/
theorem C10_f64_integral_partial (bits : UInt64) (hf : F64Finite bits) (n : Int)
    (hn : f64Value bits = n) :
    ((-(2 ^ 127) < n ∧ n < 2 ^ 128) → ∃ i, ofF64 bits = .ok i ∧ i.value = n) ∧
    (∀ i, ofF64 bits = .ok i → i.value = n ∧ -(2 ^ 127) < n ∧ n < 2 ^ 128) := by
  have hfl : ⌊f64Value bits⌋ = n := by rw [hn]; exact Int.floor_intCast n
  have hfr : ¬ (0 ≤ f64Value bits ∧ 1 / 2 ^ 52 < f64Value bits - ⌊f64Value bits⌋) := by
    rw [hfl, hn]; rintro ⟨_, h⟩; norm_num at h
  obtain ⟨h1, h2⟩ := ((C10_f64_law bits).2 hf).2 hfr
  rw [hfl] at h1 h2
  refine ⟨h1, fun i hi => ?_⟩
  by_cases h : -(2 ^ 127) < n ∧ n < 2 ^ 128
  · obtain ⟨j, hj, hv⟩ := h1 h
    rw [hj] at hi; cases hi
    exact ⟨hv, h⟩
  · rw [h2 h] at hi; cases hi

/-- C10, `f64`, partial: a clearly fractional non-negative number is refused, and the error carries the fraction. -/
theorem C10_f64_fraction_partial (bits : UInt64) (hf : F64Finite bits) (h0 : 0 ≤ f64Value bits)
    (h : 1 / 2 ^ 52 < f64Value bits - ⌊f64Value bits⌋) :
    ∃ d, ofF64 bits = .err (.decimalsNotSupported d) ∧ F64Finite d ∧ f64Value d = f64Value bits - ⌊f64Value bits⌋ :=
  ((C10_f64_law bits).2 hf).1 ⟨h0, h⟩

/-- C10 is violated on negative fractions: `Integer::try_from(-0.5f64)` is `-1`. -/
theorem C10_refuted_f64_negative :
    ∃ bits, F64Finite bits ∧ f64Value bits = -1 / 2 ∧ ∃ i, ofF64 bits = .ok i ∧ i.value = -1 := by
  refine ⟨0xBFE0000000000000, by unfold F64Finite; decide, ?_, ofSigned 16 (-1), by decide +kernel,
    by decide +kernel⟩
  rw [f64Value_eq]
  have : f64Format.num (0xBFE0000000000000 : UInt64).toNat = -(2 ^ 1073) := by decide +kernel
  rw [this]
  push_cast
  rw [show (2 : ℚ) ^ 1074 = 2 ^ 1073 * 2 from pow_succ _ _]
  field_simp

/-- C10 is violated just above an integer: `Integer::try_from(1.0 + f64::EPSILON)` is `1`. -/
theorem C10_refuted_f64_epsilon :
    ∃ bits, F64Finite bits ∧ f64Value bits = 1 + 1 / 2 ^ 52 ∧
      ∃ i, ofF64 bits = .ok i ∧ i.value = 1 := by
  refine ⟨0x3FF0000000000001, by unfold F64Finite; decide, ?_, ofUnsigned 16 1, by decide +kernel,
    by decide +kernel⟩
  rw [f64Value_eq]
  have : f64Format.num (0x3FF0000000000001 : UInt64).toNat = 2 ^ 1074 + 2 ^ 1022 := by decide +kernel
  rw [this]
  push_cast
  rw [show (2 : ℚ) ^ 1074 = 2 ^ 1022 * 2 ^ 52 by rw [← pow_add]]
  field_simp

/-- *Every* negative fraction (down to the range end) is accepted and rounded away from zero. -/
theorem C10_refuted_f64_all_negative (bits : UInt64) (hf : F64Finite bits) (h0 : f64Value bits < 0)
    (hr : -(2 ^ 127) < ⌊f64Value bits⌋) (hfrac : ((⌊f64Value bits⌋ : Int) : ℚ) ≠ f64Value bits) :
    ∃ i, ofF64 bits = .ok i ∧ (i.value : ℚ) < f64Value bits := by
  have h1 : ¬ (0 ≤ f64Value bits ∧ 1 / 2 ^ 52 < f64Value bits - ⌊f64Value bits⌋) := by
    rintro ⟨h, _⟩; linarith
  have hneg : ⌊f64Value bits⌋ < 0 := Int.floor_lt.mpr (by exact_mod_cast h0)
  obtain ⟨i, hi, hv⟩ := (((C10_f64_law bits).2 hf).2 h1).1 ⟨hr, by omega⟩
  exact ⟨i, hi, by rw [hv]; exact lt_of_le_of_ne (Int.floor_le _) hfrac⟩

/-- C10 is violated at the range end: `-2^127` is `i128::MIN`, yet it is refused. -/
theorem C10_refuted_f64_min :
    ∃ bits, F64Finite bits ∧ f64Value bits = -(2 ^ 127) ∧ ofF64 bits = .err .tooLarge := by
  refine ⟨0xC7E0000000000000, by unfold F64Finite; decide, ?_, by decide +kernel⟩
  rw [f64Value_eq]
  have : f64Format.num (0xC7E0000000000000 : UInt64).toNat = -(2 ^ 1201) := by decide +kernel
  rw [this]
  push_cast
  rw [show (2 : ℚ) ^ 1201 = 2 ^ 127 * 2 ^ 1074 by rw [← pow_add]]
  field_simp

/-- C10, `f32`: what the conversion really does. Only negative numbers ever convert; an error about decimals carries
exactly the fractional part. -/
theorem C10_f32_law (bits : UInt32) :
    (¬ F32Finite bits → ofF32 bits = .err .tooLarge) ∧
    (F32Finite bits →
      (0 ≤ f32Value bits →
        (1 / 2 ^ 23 < f32Value bits - ⌊f32Value bits⌋ →
          ∃ d, ofF32 bits = .err (.decimalsNotSupported d) ∧ F64Finite d ∧ f64Value d = f32Value bits - ⌊f32Value bits⌋) ∧
        (¬ 1 / 2 ^ 23 < f32Value bits - ⌊f32Value bits⌋ → ofF32 bits = .err .tooLarge)) ∧
      (f32Value bits < 0 → -(2 ^ 127) < ⌊f32Value bits⌋ →
        ∃ i, ofF32 bits = .ok i ∧ i.value = ⌊f32Value bits⌋) ∧
      (⌊f32Value bits⌋ ≤ -(2 ^ 127) → ofF32 bits = .err .tooLarge)) := by
  have hsign : f32Value bits < 0 ↔ f32Format.floor bits.toNat < 0 := by
    rw [f32_floor, Int.floor_lt, Int.cast_zero]
  have hfr : f32Format.floor bits.toNat < 0 → ¬ f32Format.fract bits.toNat > 2 ^ (149 - 23) := by
    intro h1 h2
    have := ((f32_fract bits).mp h2).1
    have := hsign.mpr h1
    linarith
  have hpart := @f32_decimals bits
  have hfrac := f32_fract bits
  rw [← not_lt, hsign] at hfrac ⊢
  rw [← f32Finite_iff, ← f32_floor]
  rw [← f32_floor] at hpart hfrac
  unfold ofF32
  refine ⟨fun h => by simp only [h]; rfl, fun h => ⟨fun h2 => ⟨fun h3 => ?_, fun h3 => ?_⟩, fun h2 h3 => ?_, fun h3 => ?_⟩⟩
  · have h4 := hfrac.mpr ⟨h2, h3⟩
    simp only [h, if_true, if_pos h4]
    exact ⟨_, rfl, hpart (lt_trans (by positivity) h4)⟩
  · have h4 := fun h4 => h3 (hfrac.mp h4).2
    simp only [h, if_true, if_neg h4, if_neg h2]
  · simp only [h, if_true]
    rw [if_neg (hfr h2), if_pos h2, if_pos h3]
    exact ⟨_, rfl, ofSigned16_value (by omega) (by omega)⟩
  · have h2 : f32Format.floor bits.toNat < 0 := by omega
    simp only [h, if_true]
    rw [if_neg (hfr h2), if_pos h2, if_neg (by omega)]

/-- C10, `f32`, partial: negative integral numbers above `-2^127` convert exactly. -/
theorem C10_f32_negative_partial (bits : UInt32) (hf : F32Finite bits) (n : Int)
    (hn : f32Value bits = n) (h0 : n < 0) (h1 : -(2 ^ 127) < n) :
    ∃ i, ofF32 bits = .ok i ∧ i.value = n := by
  have hfl : ⌊f32Value bits⌋ = n := by rw [hn]; exact Int.floor_intCast n
  have := ((C10_f32_law bits).2 hf).2.1 (by rw [hn]; exact_mod_cast h0) (by rw [hfl]; exact h1)
  rwa [hfl] at this

/-- C10 is violated for `f32`: no non-negative `f32` converts at all, `0.0` and `1.0` included. -/
theorem C10_refuted_f32_nonneg (bits : UInt32) (hf : F32Finite bits) (h0 : 0 ≤ f32Value bits) :
    ∃ e, ofF32 bits = .err e := by
  have := ((C10_f32_law bits).2 hf).1 h0
  by_cases h : 1 / 2 ^ 23 < f32Value bits - ⌊f32Value bits⌋
  · obtain ⟨d, hd, _⟩ := this.1 h
    exact ⟨_, hd⟩
  · exact ⟨_, this.2 h⟩

/-- ... for instance `1.0f32`. -/
theorem C10_refuted_f32_one :
    ∃ bits, F32Finite bits ∧ f32Value bits = 1 ∧ ofF32 bits = .err .tooLarge := by
  refine ⟨0x3F800000, by unfold F32Finite; decide, ?_, by decide +kernel⟩
  rw [f32Value_eq]
  have : f32Format.num (0x3F800000 : UInt32).toNat = 2 ^ 149 := by decide +kernel
  rw [this]
  norm_num

/-! ## C11: JSON numbers -/

/-- C11, partial: inside the documented range, a number goes to JSON and comes back as the same number,
comparing `==` unless it is a zero built from a signed type. Missing: `-2^64 ≤ n < -2^63`
(`C11_refuted_below_i64`), signed zeros (`C11_refuted_zero`). -/
theorem C11_json_partial {i : Integer} (hi : i.Native) :
    ((2 ^ 64 ≤ i.value ∨ i.value < -(2 ^ 64)) → i.toJson = none) ∧
    (-(2 ^ 63) ≤ i.value → i.value < 2 ^ 64 →
      ∃ j k, i.toJson = some j ∧ fromJson j = some k ∧ k.value = i.value ∧
        ((i.value = 0 → i.signedState ≠ .signedPositive) → k.eq i = true)) := by
  have hw : Width 8 := by unfold Width; decide
  have hneg := hi.neg_iff
  by_cases hn : i.value < 0
  · have hin : i.isNegative = true := by
      simp only [Integer.isNegative, hneg.mpr hn]; rfl
    constructor
    · intro h
      have : ¬ (-(2 ^ (8 * 8) : Int) ≤ i.value ∧ i.value < (2 ^ (8 * 8) : Int)) := by omega
      simp only [toJson, hin, if_true, C02_signed_law hi hw, if_neg this]
    · intro h1 h2
      have hfit : IsSigned 8 i.value := by unfold IsSigned; omega
      have hN : (ofSigned 8 i.value).Native := .signed hw hfit
      have hv := (C01_value hw).2 _ hfit
      refine ⟨.ofI64 i.value, ofSigned 8 i.value, ?_, ?_, hv, fun _ => ?_⟩
      · simp only [toJson, hin, if_true, C02_signed_fits_partial hi hw hfit]
      · simp only [SJNumber.ofI64, if_pos hn, fromJson, SJNumber.asU64, SJNumber.asI64, Option.map_some]
      · rw [Native.eq_iff hN hi]
        exact ⟨hv, fun h => by rw [hv] at h; omega⟩
  · have hin : i.isNegative = false := by
      have : i.signedState ≠ .signedNegative := fun h => hn (hneg.mp h)
      simp only [Integer.isNegative]
      cases hs : i.signedState <;> simp_all
    have hex := C02_unsigned_exact hi hw
    constructor
    · intro h
      obtain ⟨e, he⟩ := hex.2 (by rintro ⟨m, hm, hv⟩; unfold IsUnsigned at hm; omega)
      simp [toJson, hin, he]
    · intro h1 h2
      have hfit : IsUnsigned 8 i.value.toNat := by unfold IsUnsigned; omega
      have hN : (ofUnsigned 8 i.value.toNat).Native := .unsigned hw hfit
      have hv : (ofUnsigned 8 i.value.toNat).value = i.value := by
        rw [(C01_value hw).1 _ hfit]; omega
      refine ⟨.posInt i.value.toNat, ofUnsigned 8 i.value.toNat, ?_, rfl, hv, fun hz => ?_⟩
      · have := (hex.1 i.value.toNat).mpr ⟨hfit, by omega⟩
        simp [toJson, hin, this, SJNumber.ofU64]
      · rw [Native.eq_iff hN hi]
        refine ⟨hv, fun h => ?_⟩
        rw [hv] at h
        have h3 := hz h
        constructor
        · intro h4; cases h4
        · intro h4; exact absurd h4 h3

/-- C11 is violated below `i64::MIN`: the JSON of `-2^63 - 1` is the number `2^63 - 1`. -/
theorem C11_refuted_below_i64 :
    ∃ i : Integer, i.Native ∧ i.value = -(2 ^ 63) - 1 ∧
      i.toJson = some (.posInt (2 ^ 63 - 1)) :=
  ⟨ofSigned 16 (-(2 ^ 63) - 1), .signed (by unfold Width; decide) (by unfold IsSigned; decide),
    by decide +kernel, by decide +kernel⟩

/-- ... and so everywhere in `-2^64 ≤ n < -2^63`: never `None`, always a wrong number. -/
theorem C11_refuted_everywhere {i : Integer} (hi : i.Native) (h1 : -(2 ^ 64) ≤ i.value)
    (h2 : i.value < -(2 ^ 63)) :
    ∃ j k, i.toJson = some j ∧ fromJson j = some k ∧ k.value ≠ i.value := by
  have hw : Width 8 := by unfold Width; decide
  have hin : i.isNegative = true := by
    simp only [Integer.isNegative, hi.neg_iff.mpr (by omega)]; rfl
  obtain ⟨m, hm, hne⟩ := C02_refuted_everywhere hi hw (by omega) (by unfold IsSigned; omega)
  have hmS : 0 ≤ m ∧ m < 2 ^ 63 := by
    rw [C02_signed_law hi hw, if_pos (by omega)] at hm
    cases hm
    unfold ofPattern toPattern
    have : (256 : Nat) ^ 8 = 2 ^ 64 := by decide
    rw [this]
    split <;> omega
  refine ⟨.posInt m.toNat, ofUnsigned 8 m.toNat, ?_, rfl, ?_⟩
  · simp only [toJson, hin, if_true, hm, SJNumber.ofI64, if_neg (show ¬ m < 0 by omega)]
  · rw [(C01_value hw).1 _ (by unfold IsUnsigned; omega)]
    omega

/-- C11 is violated at the signed zero: `0i32` comes back from JSON as a zero that is not `==`. -/
theorem C11_refuted_zero :
    ∃ i : Integer, i.Native ∧ ∃ j k, i.toJson = some j ∧ fromJson j = some k ∧ k.eq i = false :=
  ⟨ofSigned 4 0, .signed (by unfold Width; decide) (by unfold IsSigned; decide),
    .posInt 0, ofUnsigned 8 0, by decide +kernel, rfl, by decide +kernel⟩

example : (ofSigned 16 (-9223372036854775808)).toJson = some (.negInt (-9223372036854775808)) := by
  decide +kernel
example : (ofUnsigned 16 (2 ^ 64)).toJson = none := by decide +kernel

end Souris
