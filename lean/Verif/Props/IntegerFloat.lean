import Verif.Lemmas.FloatCast
import Verif.Spec.IntegerFloat
import Verif.Props.IntegerConv
import Mathlib.Tactic.FieldSimp

/-! # C60: converting an `Integer` to a float -/

namespace Souris

open Integer

theorem log2_lt {n k : Nat} (hn : n ≠ 0) (h : n < 2 ^ (k + 1)) : Nat.log2 n ≤ k := by
  have := (Nat.log2_lt hn).mpr h
  omega

/-- The number that is cast. -/
theorem cast_eq {i : Integer} (hi : i.Native) (F : FloatFormat) : i.cast F = .ok (F.castInt i.value) := by
  have hw : Width 16 := by unfold Width; decide
  obtain ⟨h1, h2, h3⟩ := Native.range hi
  unfold Integer.cast
  cases hs : i.signedState with
  | unsigned =>
    simp only
    rw [hi.toUnsigned16 hs]
    have h0 := (hi.unsigned_value hs).1
    simp only [FloatFormat.castInt, if_neg (show ¬ i.value < 0 by omega)]
    congr 2
    omega
  | signedPositive =>
    simp only
    rw [C02_signed_fits_partial hi hw (by
      have := h3 (by rw [hs]; simp)
      constructor <;> omega)]
  | signedNegative =>
    simp only
    rw [C02_signed_fits_partial hi hw (by
      have := h3 (by rw [hs]; simp)
      constructor <;> omega)]

theorem f64_cast {z : Int} (h1 : -(2 ^ 127) ≤ z) (h2 : z < 2 ^ 128) :
    FloatFormat.CastI f64Format z (f64Format.castInt z) := by
  refine FloatFormat.castInt_spec (by decide) (by decide) z fun h => ?_
  have : Nat.log2 z.natAbs ≤ 127 := log2_lt (by omega) (by omega)
  show Nat.log2 z.natAbs + (1074 - 52 + 1) + 1 < 2 ^ 11
  omega

theorem f32_cast {z : Int} (h1 : -(2 ^ 127) ≤ z) (h2 : z < 2 ^ 128) :
    FloatFormat.CastI f32Format z (f32Format.castInt z) := by
  refine FloatFormat.castInt_spec (by decide) (by decide) z fun h => ?_
  have : Nat.log2 z.natAbs ≤ 127 := log2_lt (by omega) (by omega)
  show Nat.log2 z.natAbs + (149 - 23 + 1) + 1 < 2 ^ 8
  omega

/-- Distances in units of the smallest float. -/
theorem dist_scaled (x z : Int) (s : Nat) : |(x : ℚ) / 2 ^ s - z| = ((|x - z * 2 ^ s| : Int) : ℚ) / 2 ^ s := by
  have hs : (0 : ℚ) < 2 ^ s := by positivity
  rw [Int.cast_abs, eq_div_iff hs.ne', ← abs_of_pos hs, ← abs_mul, abs_of_pos hs, sub_mul,
    div_mul_cancel₀ _ hs.ne']
  push_cast
  rfl

theorem value_near {F : FloatFormat} {z : Int} {b : Nat} (h : FloatFormat.CastI F z b) (b' : Nat) :
    |(F.num b : ℚ) / 2 ^ F.scale - z| ≤ |(F.num b' : ℚ) / 2 ^ F.scale - z| ∧
    (|(F.num b : ℚ) / 2 ^ F.scale - z| = |(F.num b' : ℚ) / 2 ^ F.scale - z| →
      (F.num b' : ℚ) / 2 ^ F.scale = (F.num b : ℚ) / 2 ^ F.scale ∨ b % 2 = 0) := by
  have hs : (0 : ℚ) < 2 ^ F.scale := by positivity
  obtain ⟨h1, h2⟩ := h.near _ (FloatFormat.num_grid b')
  rw [dist_scaled, dist_scaled]
  refine ⟨(div_le_div_iff_of_pos_right hs).mpr (by exact_mod_cast h1), fun e => ?_⟩
  have e' : |F.num b - z * 2 ^ F.scale| = |F.num b' - z * 2 ^ F.scale| := by
    have := (div_left_inj' hs.ne').mp e
    exact_mod_cast this
  rcases h2 e' with h3 | h3
  · exact .inl (by rw [h3])
  · exact .inr h3

/-- C60: converting an `Integer` to `f64` gives the nearest `f64`, and the even one when there are two. -/
theorem C60_f64_nearest {i : Integer} (hi : i.Native) : ∃ b, i.toF64 = .ok b ∧ NearestF64 i.value b := by
  obtain ⟨h1, h2, _⟩ := Native.range hi
  have hc := f64_cast h1 h2
  have hlt : f64Format.castInt i.value < 2 ^ 64 := hc.lt
  refine ⟨UInt64.ofNat (f64Format.castInt i.value), ?_, ?_⟩
  · unfold Integer.toF64
    rw [cast_eq hi]
    rfl
  have hb : (UInt64.ofNat (f64Format.castInt i.value)).toNat = f64Format.castInt i.value := by
    rw [UInt64.toNat_ofNat', Nat.mod_eq_of_lt hlt]
  generalize UInt64.ofNat (f64Format.castInt i.value) = b at hb
  rw [← hb] at hc
  refine ⟨?_, fun b' _ => ?_⟩
  · -- finite, because not farther away than 0
    intro hinf
    obtain ⟨h3, _⟩ := hc.near 0 (fun k hk => dvd_zero _)
    have hmag : (2 : Int) ^ 52 * 2 ^ 2046 ≤ |f64Format.num b.toNat| := by
      have e1 : |f64Format.num b.toNat| = f64Format.mag b.toNat := by
        unfold FloatFormat.num
        split <;> simp
      rw [e1]
      have hx : f64Format.exponent b.toNat = 2047 := hinf
      unfold FloatFormat.mag
      rw [hx, if_neg (by decide)]
      have : f64Format.mant = 52 := rfl
      rw [this]
      push_cast
      exact mul_le_mul_of_nonneg_right (by have : (0 : Int) ≤ (f64Format.mantissa b.toNat : Int) := by positivity
                                           linarith) (by positivity)
    have hz : |i.value * 2 ^ f64Format.scale| ≤ 2 ^ 128 * 2 ^ 1074 := by
      rw [abs_mul, abs_of_pos (show (0 : Int) < 2 ^ f64Format.scale by positivity)]
      exact mul_le_mul_of_nonneg_right (abs_le.mpr ⟨by linarith, h2.le⟩) (by positivity)
    rw [zero_sub, abs_neg] at h3
    have h4 : |f64Format.num b.toNat| ≤ |f64Format.num b.toNat - i.value * 2 ^ f64Format.scale| +
        |i.value * 2 ^ f64Format.scale| := by
      have := abs_add_le (f64Format.num b.toNat - i.value * 2 ^ f64Format.scale) (i.value * 2 ^ f64Format.scale)
      rwa [sub_add_cancel] at this
    have h5 : (2 : Int) ^ 128 * 2 ^ 1074 + 2 ^ 128 * 2 ^ 1074 < 2 ^ 52 * 2 ^ 2046 := by
      rw [← two_mul, ← pow_add, ← pow_add, ← pow_succ']
      exact pow_lt_pow_right₀ (by decide) (by decide)
    exact absurd (le_trans hmag (le_trans h4 (add_le_add (le_trans h3 hz) hz))) (not_le.mpr h5)
  · rw [f64Value_eq, f64Value_eq]
    exact value_near hc b'.toNat

/-- C60: up to `2^53` the conversion to `f64` is exact. -/
theorem C60_f64_exact {i : Integer} (hi : i.Native) (h : |i.value| ≤ 2 ^ 53) :
    ∃ b, i.toF64 = .ok b ∧ F64Finite b ∧ f64Value b = i.value := by
  obtain ⟨b, e, hn⟩ := C60_f64_nearest hi
  refine ⟨b, e, hn.1, ?_⟩
  obtain ⟨h1, h2, _⟩ := Native.range hi
  have hc := f64_cast h1 h2
  have hlt : f64Format.castInt i.value < 2 ^ 64 := hc.lt
  unfold Integer.toF64 at e
  rw [cast_eq hi] at e
  have e : UInt64.ofNat (f64Format.castInt i.value) = b := by
    have : (Out.ok (UInt64.ofNat (f64Format.castInt i.value)) : Out Empty UInt64) = .ok b := e
    cases this
    rfl
  have hb : b.toNat = f64Format.castInt i.value := by rw [← e, UInt64.toNat_ofNat', Nat.mod_eq_of_lt hlt]
  have := hc.exact (by
    show i.value.natAbs ≤ 2 ^ 53
    have h' : (i.value.natAbs : Int) ≤ 2 ^ 53 := by rw [← Int.abs_eq_natAbs]; exact h
    exact_mod_cast h')
  rw [f64Value_eq, hb, this]
  have hs : (2 : ℚ) ^ 1074 ≠ 0 := by positivity
  have hsc : f64Format.scale = 1074 := rfl
  rw [hsc]
  push_cast
  exact mul_div_cancel_right₀ _ hs

/-- C60: there and back through `f64` up to `2^53`. -/
theorem C60_f64_roundtrip {i : Integer} (hi : i.Native) (h : |i.value| ≤ 2 ^ 53) :
    ∃ b j, i.toF64 = .ok b ∧ Integer.ofF64 b = .ok j ∧ j.value = i.value := by
  obtain ⟨b, e, hf, hv⟩ := C60_f64_exact hi h
  obtain ⟨h1, h2⟩ := abs_le.mp h
  obtain ⟨j, hj1, hj2⟩ := (C10_f64_integral_partial b hf i.value hv).1 ⟨by linarith, by linarith⟩
  exact ⟨b, j, e, hj1, hj2⟩

/-- C60: the conversion to `f32` gives the nearest `f32` below the rounding limit `2^128 - 2^103`. -/
theorem C60_f32_nearest {i : Integer} (hi : i.Native) (hlim : i.value < 2 ^ 128 - 2 ^ 103) :
    ∃ b, i.toF32 = .ok b ∧ NearestF32 i.value b := by
  obtain ⟨h1, h2, _⟩ := Native.range hi
  have hc := f32_cast h1 h2
  have hlt : f32Format.castInt i.value < 2 ^ 32 := hc.lt
  refine ⟨UInt32.ofNat (f32Format.castInt i.value), ?_, ?_⟩
  · unfold Integer.toF32
    rw [cast_eq hi]
    rfl
  have hb : (UInt32.ofNat (f32Format.castInt i.value)).toNat = f32Format.castInt i.value := by
    rw [UInt32.toNat_ofNat', Nat.mod_eq_of_lt hlt]
  generalize UInt32.ofNat (f32Format.castInt i.value) = b at hb
  rw [← hb] at hc
  refine ⟨?_, fun b' _ => ?_⟩
  · -- finite, because not farther away than the largest or the smallest finite number
    intro hinf
    have hmag : (2 : Int) ^ 277 ≤ f32Format.mag b.toNat := by
      have hx : f32Format.exponent b.toNat = 255 := hinf
      unfold FloatFormat.mag
      rw [hx, if_neg (by decide)]
      have : f32Format.mant = 23 := rfl
      rw [this]
      push_cast
      have : (0 : Int) ≤ (f32Format.mantissa b.toNat : Int) := by positivity
      calc (2 : Int) ^ 277 = 2 ^ 23 * 2 ^ (255 - 1) := by rw [← pow_add]
        _ ≤ _ := mul_le_mul_of_nonneg_right (by linarith) (by positivity)
    have hsc : f32Format.scale = 149 := rfl
    obtain ⟨h3, h3'⟩ := hc.near _ (FloatFormat.num_grid (F := f32Format) 0x7F7FFFFF)
    obtain ⟨h4, _⟩ := hc.near _ (FloatFormat.num_grid (F := f32Format) 0xFF7FFFFF)
    have e1 : f32Format.num 0x7F7FFFFF = 2 ^ 277 - 2 ^ 253 := by decide
    have e2 : f32Format.num 0xFF7FFFFF = -(2 ^ 277 - 2 ^ 253) := by decide
    rw [e1, hsc] at h3
    rw [e2, hsc] at h4
    have p1 : (2 : Int) ^ 277 = 2 ^ 128 * 2 ^ 149 := by rw [← pow_add]
    have p2 : (2 : Int) ^ 253 = 2 ^ 104 * 2 ^ 149 := by rw [← pow_add]
    rw [p1] at hmag
    rw [p1, p2] at h3 h4
    have hW : (0 : Int) < 2 ^ 149 := by positivity
    have b1 : i.value * 2 ^ 149 ≤ (2 ^ 128 - 2 ^ 103 - 1) * 2 ^ 149 := mul_le_mul_of_nonneg_right (by omega) hW.le
    have b2 : -(2 ^ 127) * 2 ^ 149 ≤ i.value * 2 ^ 149 := mul_le_mul_of_nonneg_right (by omega) hW.le
    generalize i.value * 2 ^ 149 = X at h3 h4 b1 b2
    generalize (2 : Int) ^ 149 = W at h3 h4 b1 b2 hmag hW
    unfold FloatFormat.num at h3 h4
    split at h3
    · rename_i hneg
      rw [if_pos hneg] at h4
      rw [abs_of_nonpos (by linarith)] at h4
      rw [abs_of_nonpos (by linarith)] at h4
      linarith
    · rw [abs_of_nonneg (by linarith)] at h3
      rcases abs_cases ((2 : Int) ^ 128 * W - 2 ^ 104 * W - X) with ⟨h5, h6⟩ | ⟨h5, h6⟩ <;>
        rw [h5] at h3 <;> linarith
  · rw [f32Value_eq, f32Value_eq]
    exact value_near hc b'.toNat

/-- C60: from `2^128 - 2^103` on the conversion to `f32` gives infinity. -/
theorem C60_f32_overflow {i : Integer} (hi : i.Native) (hlim : 2 ^ 128 - 2 ^ 103 ≤ i.value) :
    i.toF32 = .ok 0x7F800000 := by
  obtain ⟨_, h2, _⟩ := Native.range hi
  unfold Integer.toF32
  rw [cast_eq hi]
  have : f32Format.castInt i.value = 0x7F800000 := by
    unfold FloatFormat.castInt
    rw [if_neg (by omega)]
    obtain ⟨n, hn⟩ : ∃ n : Nat, i.value = n := ⟨i.value.toNat, by omega⟩
    rw [hn] at hlim h2 ⊢
    rw [Int.natAbs_natCast]
    have hl : Nat.log2 n = 127 := by
      refine (Nat.log2_eq_iff (by omega)).mpr ⟨by omega, by omega⟩
    unfold FloatFormat.castNat
    rw [if_neg (by omega)]
    simp only [hl]
    rw [if_neg (by decide)]
    have hs : 127 - f32Format.mant = 104 := by decide
    rw [hs]
    have hq : n / 2 ^ 104 = 2 ^ 24 - 1 := by omega
    have hr : 2 ^ 104 ≤ 2 * (n % 2 ^ 104) := by omega
    rw [hq]
    have hup : (decide (2 ^ 104 < 2 * (n % 2 ^ 104)) || (decide (2 * (n % 2 ^ 104) = 2 ^ 104) &&
        decide ((2 ^ 24 - 1) % 2 = 1))) = true := by
      simp only [Bool.or_eq_true, Bool.and_eq_true, decide_eq_true_eq]
      omega
    rw [if_pos hup]
    decide
  rw [this]
  rfl

/-- C60: up to `2^24` the conversion to `f32` is exact. -/
theorem C60_f32_exact {i : Integer} (hi : i.Native) (h : |i.value| ≤ 2 ^ 24) :
    ∃ b, i.toF32 = .ok b ∧ F32Finite b ∧ f32Value b = i.value := by
  obtain ⟨b, e, hn⟩ := C60_f32_nearest hi (by have := abs_le.mp h; omega)
  refine ⟨b, e, hn.1, ?_⟩
  obtain ⟨h1, h2, _⟩ := Native.range hi
  have hc := f32_cast h1 h2
  have hlt : f32Format.castInt i.value < 2 ^ 32 := hc.lt
  unfold Integer.toF32 at e
  rw [cast_eq hi] at e
  have e : UInt32.ofNat (f32Format.castInt i.value) = b := by
    have : (Out.ok (UInt32.ofNat (f32Format.castInt i.value)) : Out Empty UInt32) = .ok b := e
    cases this
    rfl
  have hb : b.toNat = f32Format.castInt i.value := by rw [← e, UInt32.toNat_ofNat', Nat.mod_eq_of_lt hlt]
  have := hc.exact (by
    show i.value.natAbs ≤ 2 ^ 24
    have h' : (i.value.natAbs : Int) ≤ 2 ^ 24 := by rw [← Int.abs_eq_natAbs]; exact h
    exact_mod_cast h')
  rw [f32Value_eq, hb, this]
  have hs : (2 : ℚ) ^ 149 ≠ 0 := by positivity
  have hsc : f32Format.scale = 149 := rfl
  rw [hsc]
  push_cast
  exact mul_div_cancel_right₀ _ hs

/-- C60: no `Integer` that can exist makes either conversion panic. -/
theorem C60_no_panic {i : Integer} (hi : i.Reachable) : (∃ b, i.toF64 = .ok b) ∧ ∃ b, i.toF32 = .ok b := by
  have hw := hi.serialisable.toWF
  have hu := hw.used_le
  have hc : ∀ F : FloatFormat, ∃ b, i.cast F = .ok b := by
    intro F
    unfold Integer.cast
    cases hs : i.signedState with
    | unsigned =>
      simp only [toUnsigned, if_neg (show ¬ i.used > 16 by omega), hs]
      exact ⟨_, rfl⟩
    | signedPositive =>
      simp only [toSigned, if_neg (show ¬ i.used > 16 by omega)]
      exact ⟨_, rfl⟩
    | signedNegative =>
      simp only [toSigned, if_neg (show ¬ i.used > 16 by omega)]
      exact ⟨_, rfl⟩
  obtain ⟨b, hb⟩ := hc f64Format
  obtain ⟨b', hb'⟩ := hc f32Format
  refine ⟨⟨UInt64.ofNat b, ?_⟩, ⟨UInt32.ofNat b', ?_⟩⟩
  · unfold Integer.toF64; rw [hb]; rfl
  · unfold Integer.toF32; rw [hb']; rfl

/-- C60 is violated by a deserialised integer: seventeen bytes denote `2^128 - 1`, which becomes `-1.0`. -/
theorem C60_refuted_noncanonical : ∃ i c,
    Integer.deser .signedPositive (Cursor.new (255 :: List.replicate 16 255)) = .ok (i, c) ∧
      i.value = 2 ^ 128 - 1 ∧ i.toF64 = .ok 0xBFF0000000000000 :=
  ⟨⟨.signedPositive, List.replicate 16 255, 16⟩, ⟨255 :: List.replicate 16 255, 17⟩,
    by decide, by decide +kernel, by decide +kernel⟩

-- a number between two `f64`s, rounded to the even one: 2^53 + 1
example : (Integer.ofUnsigned 8 (2 ^ 53 + 1)).toF64 = .ok 0x4340000000000000 := by decide
-- and 2^53 + 3, rounded up
example : (Integer.ofUnsigned 8 (2 ^ 53 + 3)).toF64 = .ok 0x4340000000000002 := by decide
example : (Integer.ofSigned 4 (-5)).toF64 = .ok 0xC014000000000000 := by decide
-- the largest number is infinite as `f32`
example : (Integer.ofUnsigned 16 (2 ^ 128 - 1)).toF32 = .ok 0x7F800000 := by decide
example : (Integer.ofUnsigned 8 (2 ^ 53 + 1)).Native := .unsigned (by unfold Width; decide) (by unfold IsUnsigned; decide)

end Souris
