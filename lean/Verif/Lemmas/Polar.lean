import Verif.Spec.Polar
import Verif.Lemmas.IntegerConv
import Mathlib.Analysis.SpecialFunctions.Trigonometric.Bounds
import Mathlib.Analysis.Real.Pi.Bounds

/-! # Lemmas about polar coordinates -/

namespace Souris

/-! ## Signs of floats -/

/-- Magnitude of a finite float. -/
def f64Mag (n : Nat) : ℚ :=
  if n / 2 ^ 52 % 2 ^ 11 = 0 then (n % 2 ^ 52 : Nat) * 2 ^ (-1074 : ℤ)
  else (2 ^ 52 + (n % 2 ^ 52 : Nat)) * 2 ^ (((n / 2 ^ 52 % 2 ^ 11 : Nat) : ℤ) - 1075)

theorem f64Value_mag (x : UInt64) : f64Value x = if f64Negative x then -f64Mag x.toNat else f64Mag x.toNat := by
  simp only [f64Value, f64Mag, f64Negative, decide_eq_true_eq]
  generalize x.toNat % 2 ^ 52 = m
  generalize x.toNat / 2 ^ 52 % 2 ^ 11 = e
  split_ifs <;> ring

theorem f64Mag_nonneg (n : Nat) : 0 ≤ f64Mag n := by
  unfold f64Mag
  split <;> positivity

theorem f64Mag_low {n m : Nat} (h : n % 2 ^ 63 = m % 2 ^ 63) : f64Mag n = f64Mag m := by
  have h1 : n / 2 ^ 52 % 2 ^ 11 = m / 2 ^ 52 % 2 ^ 11 := by omega
  have h2 : n % 2 ^ 52 = m % 2 ^ 52 := by omega
  unfold f64Mag
  rw [h1, h2]

theorem f64Mag_eq_zero {n : Nat} (h : f64Mag n = 0) : n % 2 ^ 63 = 0 := by
  unfold f64Mag at h
  split at h
  · have : ((n % 2 ^ 52 : Nat) : ℚ) = 0 := by
      rcases mul_eq_zero.mp h with h | h
      · exact h
      · exact absurd h (by positivity)
    have : n % 2 ^ 52 = 0 := by exact_mod_cast this
    omega
  · rcases mul_eq_zero.mp h with h | h
    · exact absurd h (by positivity)
    · exact absurd h (by positivity)

theorem toNat_abs (x : UInt64) : (f64Abs x).toNat = x.toNat % 2 ^ 63 := by
  unfold f64Abs
  rw [UInt64.toNat_ofNat']
  omega

theorem f64Negative_abs (x : UInt64) : f64Negative (f64Abs x) = false := by
  unfold f64Negative
  rw [toNat_abs]
  simp only [decide_eq_false_iff_not]
  omega

theorem f64Value_abs (x : UInt64) : f64Value (f64Abs x) = |f64Value x| := by
  rw [f64Value_mag, f64Value_mag x, f64Negative_abs, toNat_abs, f64Mag_low (m := x.toNat) (by omega)]
  have := f64Mag_nonneg x.toNat
  cases f64Negative x
  · simp [abs_of_nonneg this]
  · simp [abs_of_nonneg this]

theorem f64Finite_abs {x : UInt64} (h : F64Finite x) : F64Finite (f64Abs x) := by
  unfold F64Finite at *
  rw [toNat_abs]
  omega

theorem f64Abs_zero {x : UInt64} (h : f64Value x = 0) : f64Abs x = 0 := by
  have : f64Mag x.toNat = 0 := by
    rw [f64Value_mag] at h
    split at h
    · linarith
    · exact h
  have := f64Mag_eq_zero this
  apply UInt64.toNat_inj.mp
  rw [toNat_abs, this]
  rfl

theorem toNat_neg (x : UInt64) : (f64Neg x).toNat = (x.toNat + 2 ^ 63) % 2 ^ 64 := by
  have := x.toNat_lt
  unfold f64Neg f64Negative
  rw [UInt64.toNat_ofNat']
  by_cases h : x.toNat / 2 ^ 63 = 1
  · simp only [h, decide_true, if_true]; omega
  · simp only [h, decide_false]; simp

theorem f64Value_neg (x : UInt64) : f64Value (f64Neg x) = -f64Value x := by
  have := x.toNat_lt
  have hs : f64Negative (f64Neg x) = !f64Negative x := by
    unfold f64Negative
    rw [toNat_neg]
    by_cases h : x.toNat / 2 ^ 63 = 1
    · simp only [h, decide_true, Bool.not_true, decide_eq_false_iff_not]; omega
    · simp only [h, decide_false, Bool.not_false, decide_eq_true_eq]; omega
  rw [f64Value_mag, f64Value_mag x, hs, toNat_neg, f64Mag_low (m := x.toNat) (by omega)]
  cases f64Negative x <;> simp

theorem f64Finite_neg {x : UInt64} (h : F64Finite x) : F64Finite (f64Neg x) := by
  have := x.toNat_lt
  unfold F64Finite at *
  rw [toNat_neg]
  omega

theorem f64Real_abs (x : UInt64) : f64Real (f64Abs x) = |f64Real x| := by
  unfold f64Real
  rw [f64Value_abs, Rat.cast_abs]

theorem f64Real_neg (x : UInt64) : f64Real (f64Neg x) = -f64Real x := by
  unfold f64Real
  rw [f64Value_neg, Rat.cast_neg]

theorem f64Real_sign (x : UInt64) :
    f64Real x = if f64Negative x then -|f64Real x| else |f64Real x| := by
  have h := f64Mag_nonneg x.toNat
  have hv := f64Value_mag x
  unfold f64Real
  cases hs : f64Negative x
  · rw [hs] at hv
    simp only [Bool.false_eq_true, if_false] at hv ⊢
    rw [hv, abs_of_nonneg (by exact_mod_cast h)]
  · rw [hs] at hv
    simp only [if_true] at hv ⊢
    rw [hv, Rat.cast_neg, abs_neg, abs_of_nonneg (by exact_mod_cast h)]

theorem f64Real_eq_zero {x : UInt64} : f64Real x = 0 ↔ f64Value x = 0 := by
  unfold f64Real
  exact_mod_cast Iff.rfl

/-! ## Pi -/

theorem f64Pi_finite : F64Finite f64Pi := by unfold F64Finite f64Pi; decide

theorem f64Pi_value : f64Value f64Pi = 884279719003555 / 2 ^ 48 := by
  have h1 : f64Pi.toNat / 2 ^ 52 % 2 ^ 11 = 1024 := by decide
  have h2 : f64Pi.toNat % 2 ^ 52 = 2570638124657944 := by decide
  have h3 : ¬ f64Pi.toNat / 2 ^ 63 = 1 := by decide
  unfold f64Value
  simp only [h1, h2, h3, if_false]
  norm_num

theorem f64Pi_error : |f64Real f64Pi - Real.pi| ≤ 1 / 2 ^ 52 := by
  have h1 := Real.pi_gt_d20
  have h2 := Real.pi_lt_d20
  have hv : f64Real f64Pi = 884279719003555 / 2 ^ 48 := by
    unfold f64Real
    rw [f64Pi_value]
    norm_num
  rw [hv, abs_le]
  norm_num at h1 h2 ⊢
  constructor <;> linarith

/-! ## Arcus tangens -/

theorem arctan_le_self {t : ℝ} (h : 0 ≤ t) : Real.arctan t ≤ t := by
  have h1 := Real.le_tan (Real.arctan_nonneg.mpr h) (Real.arctan_lt_pi_div_two t)
  rwa [Real.tan_arctan] at h1

theorem arctan_sub_le {a b : ℝ} (hb : 0 ≤ b) (hab : b ≤ a) :
    Real.arctan a - Real.arctan b ≤ (a - b) / (1 + a * b) := by
  have ha : 0 ≤ a := le_trans hb hab
  have h1 : a * -b < 1 := by nlinarith
  have h2 := Real.arctan_add h1
  rw [Real.arctan_neg] at h2
  have h3 : (a + -b) / (1 - a * -b) = (a - b) / (1 + a * b) := by ring_nf
  rw [h3] at h2
  have h4 : 0 ≤ (a - b) / (1 + a * b) := div_nonneg (by linarith) (by nlinarith)
  have := arctan_le_self h4
  linarith

theorem arctan_close {q q' ε : ℝ} (hq : 0 ≤ q) (hq' : 0 ≤ q') (hε : 0 ≤ ε) (hε' : ε ≤ 1 / 4)
    (h : |q' - q| ≤ ε * (1 + q)) : |Real.arctan q' - Real.arctan q| ≤ 2 * ε := by
  have key : ε * (1 + q) ≤ 2 * ε * (1 + q' * q) := by
    have : 1 + q ≤ 2 * (1 + q' * q) := by
      rcases le_total q 1 with h1 | h1
      · nlinarith [mul_nonneg hq' hq]
      · have h2 := (abs_le.mp h).1
        have : q / 2 ≤ q' := by nlinarith
        nlinarith
    nlinarith
  rcases le_total q q' with hle | hle
  · have h1 := arctan_sub_le hq hle
    have h2 : 0 ≤ Real.arctan q' - Real.arctan q := sub_nonneg.mpr (Real.arctan_mono hle)
    rw [abs_of_nonneg h2]
    rw [abs_of_nonneg (by linarith)] at h
    refine le_trans h1 ?_
    rw [div_le_iff₀ (by nlinarith [mul_nonneg hq' hq])]
    linarith
  · have h1 := arctan_sub_le hq' hle
    have h2 : 0 ≤ Real.arctan q - Real.arctan q' := sub_nonneg.mpr (Real.arctan_mono hle)
    rw [abs_sub_comm, abs_of_nonneg h2]
    rw [abs_sub_comm, abs_of_nonneg (by linarith)] at h
    refine le_trans h1 ?_
    rw [div_le_iff₀ (by nlinarith [mul_nonneg hq' hq])]
    nlinarith

theorem arctan_large {q ε : ℝ} (hε : 0 < ε) (h : 1 / ε ≤ q) : |Real.pi / 2 - Real.arctan q| ≤ ε := by
  have hq : 0 < q := lt_of_lt_of_le (by positivity) h
  have h1 := Real.arctan_inv_of_pos hq
  have h2 : q⁻¹ ≤ ε := by
    rw [inv_le_comm₀ hq hε]
    simpa using h
  have h3 := arctan_le_self (inv_nonneg.mpr hq.le)
  rw [← h1, abs_of_nonneg (Real.arctan_nonneg.mpr (inv_nonneg.mpr hq.le))]
  linarith

/-! ## Quadrants -/

/-- The angle in the first quadrant. -/
noncomputable def quadrantAngle (x y : ℝ) : ℝ := if x = 0 then Real.pi / 2 else Real.arctan (|y| / |x|)

theorem quadrantAngle_spec (x y : ℝ) :
    0 ≤ quadrantAngle x y ∧ quadrantAngle x y ≤ Real.pi / 2 ∧
    |x| = √(x ^ 2 + y ^ 2) * Real.cos (quadrantAngle x y) ∧
    |y| = √(x ^ 2 + y ^ 2) * Real.sin (quadrantAngle x y) := by
  unfold quadrantAngle
  have hpi := Real.pi_pos
  by_cases hx : x = 0
  · rw [if_pos hx, hx]
    refine ⟨by positivity, le_refl _, by simp, ?_⟩
    rw [Real.sin_pi_div_two, mul_one, show (0 : ℝ) ^ 2 + y ^ 2 = y ^ 2 by ring, Real.sqrt_sq_eq_abs]
  · rw [if_neg hx]
    have hx' : 0 < |x| := abs_pos.mpr hx
    have ht : 0 ≤ |y| / |x| := by positivity
    have hr : √(x ^ 2 + y ^ 2) = |x| * √(1 + (|y| / |x|) ^ 2) := by
      have : x ^ 2 + y ^ 2 = |x| ^ 2 * (1 + (|y| / |x|) ^ 2) := by
        rw [div_pow, mul_add, mul_div_cancel₀ _ (by positivity), sq_abs, sq_abs, mul_one]
      rw [this, Real.sqrt_mul (by positivity), Real.sqrt_sq hx'.le]
    have hs : 0 < √(1 + (|y| / |x|) ^ 2) := Real.sqrt_pos.mpr (by positivity)
    refine ⟨Real.arctan_nonneg.mpr ht, (Real.arctan_lt_pi_div_two _).le, ?_, ?_⟩
    · rw [hr, Real.cos_arctan]
      field_simp
    · rw [hr, Real.sin_arctan]
      field_simp

end Souris
