import Verif.Lemmas.Polar
import Verif.Lemmas.PolarSample
import Verif.Props.IntegerFloat

/-! # Property C63: the two forms of imaginary numbers -/

namespace Souris

open Integer

/-- The angle in the first quadrant, as computed. -/
theorem phi_close {L : Libm} {ε : ℝ} (hL : L.Accurate ε) (h0 : 0 < ε) (h1 : ε ≤ 1 / 4) {re im : UInt64}
    (hre : F64Finite re) (him : F64Finite im) (hne : ¬ (f64Value re = 0 ∧ f64Value im = 0)) :
    F64Finite (L.atan (L.div (f64Abs im) (f64Abs re))) ∧
    |f64Real (L.atan (L.div (f64Abs im) (f64Abs re))) - quadrantAngle (f64Real re) (f64Real im)| ≤ 3 * ε := by
  by_cases hz : f64Value re = 0
  · have hi : 0 < f64Real (f64Abs im) := by
      rw [f64Real_abs]
      exact abs_pos.mpr fun h => hne ⟨hz, f64Real_eq_zero.mp h⟩
    rw [f64Abs_zero hz, hL.div_zero _ (f64Finite_abs him) hi]
    unfold quadrantAngle
    rw [if_pos (f64Real_eq_zero.mpr hz)]
    exact ⟨hL.atan_inf.1, le_trans hL.atan_inf.2 (by linarith)⟩
  · have hr0 : f64Real re ≠ 0 := fun h => hz (f64Real_eq_zero.mp h)
    have hr : 0 < f64Real (f64Abs re) := by rw [f64Real_abs]; exact abs_pos.mpr hr0
    have hi : 0 ≤ f64Real (f64Abs im) := by rw [f64Real_abs]; exact abs_nonneg _
    have hq : 0 ≤ f64Real (f64Abs im) / f64Real (f64Abs re) := by positivity
    have hang : quadrantAngle (f64Real re) (f64Real im) =
        Real.arctan (f64Real (f64Abs im) / f64Real (f64Abs re)) := by
      unfold quadrantAngle
      rw [if_neg hr0, f64Real_abs, f64Real_abs]
    rw [hang]
    rcases hL.div _ _ (f64Finite_abs him) (f64Finite_abs hre) hi hr with ⟨hf, hn, hd⟩ | ⟨he, hbig⟩
    · obtain ⟨ha1, ha2⟩ := hL.atan _ hf hn
      refine ⟨ha1, ?_⟩
      have h3 := arctan_close hq hn h0.le h1 hd
      calc _ ≤ |f64Real (L.atan (L.div (f64Abs im) (f64Abs re))) -
              Real.arctan (f64Real (L.div (f64Abs im) (f64Abs re)))| +
            |Real.arctan (f64Real (L.div (f64Abs im) (f64Abs re))) -
              Real.arctan (f64Real (f64Abs im) / f64Real (f64Abs re))| := abs_sub_le _ _ _
        _ ≤ 3 * ε := by linarith
    · rw [he]
      have h3 := arctan_large h0 hbig
      refine ⟨hL.atan_inf.1, ?_⟩
      calc _ ≤ |f64Real (L.atan f64Inf) - Real.pi / 2| +
            |Real.pi / 2 - Real.arctan (f64Real (f64Abs im) / f64Real (f64Abs re))| := abs_sub_le _ _ _
        _ ≤ 3 * ε := by linarith [hL.atan_inf.2]

/-- C63, partial: for every point but the origin `polar_from_cartesian` returns polar coordinates of it: the
argument is finite and within `5ε` of an argument in `[-π, π]` of the point, and the modulus is its distance
from the origin up to rounding, or infinite if that exceeds `2^1023`. Missing: the origin, where the argument
is not a number (`C63_refuted_origin`). -/
theorem C63_polar_partial {L : Libm} {ε : ℝ} (hL : L.Accurate ε) (h0 : 1 / 2 ^ 52 ≤ ε) (h1 : ε ≤ 1 / 16)
    {re im : UInt64} (hre : F64Finite re) (him : F64Finite im)
    (hne : ¬ (f64Value re = 0 ∧ f64Value im = 0)) :
    ∃ m a θ, Imaginary.polarFromCartesian L re im = .polar m a ∧
      PolarOf (f64Real re) (f64Real im) (√(f64Real re ^ 2 + f64Real im ^ 2)) θ ∧
      F64Finite a ∧ |f64Real a - θ| ≤ 5 * ε ∧
      ((F64Finite m ∧ |f64Real m - √(f64Real re ^ 2 + f64Real im ^ 2)| ≤
          ε * √(f64Real re ^ 2 + f64Real im ^ 2) + 1 / 2 ^ 1074) ∨
        (m = f64Inf ∧ 2 ^ 1023 ≤ √(f64Real re ^ 2 + f64Real im ^ 2))) := by
  have hε : 0 < ε := lt_of_lt_of_le (by positivity) h0
  obtain ⟨hpf, hpc⟩ := phi_close hL hε (by linarith) hre him hne
  obtain ⟨hq0, hq1, hqx, hqy⟩ := quadrantAngle_spec (f64Real re) (f64Real im)
  have hpi := f64Pi_error
  have hpi' : |f64Real f64Pi - Real.pi| ≤ ε := le_trans hpi h0
  have hp3 := Real.pi_gt_three
  have hp4 := Real.pi_lt_d2
  have hr : (0 : ℝ) ≤ √(f64Real re ^ 2 + f64Real im ^ 2) := Real.sqrt_nonneg _
  have hsre := f64Real_sign re
  have hsim := f64Real_sign im
  have hmod := hL.hypot re im hre him
  revert hpf hpc
  simp only [Imaginary.polarFromCartesian]
  generalize L.atan (L.div (f64Abs im) (f64Abs re)) = phi
  revert hqx hqy hq0 hq1
  generalize quadrantAngle (f64Real re) (f64Real im) = φ
  intro hq0 hq1 hqx hqy hpf hpc
  obtain ⟨hc1, hc2⟩ := abs_le.mp hpc
  obtain ⟨hd1, hd2⟩ := abs_le.mp hpi'
  norm_num at hp4
  cases hnr : f64Negative re <;> cases hni : f64Negative im <;>
    simp only [hnr, hni, if_true, if_false, Bool.false_eq_true] at hsre hsim ⊢
  · refine ⟨_, _, φ, rfl, ⟨hr, by linarith, by linarith, ?_, ?_⟩, hpf, by linarith, hmod⟩
    · rw [← hqx]; exact hsre
    · rw [← hqy]; exact hsim
  · refine ⟨_, _, -φ, rfl, ⟨hr, by linarith, by linarith, ?_, ?_⟩, f64Finite_neg hpf, ?_, hmod⟩
    · rw [Real.cos_neg, ← hqx]; exact hsre
    · rw [Real.sin_neg, mul_neg, ← hqy]; exact hsim
    · rw [f64Real_neg, show -f64Real phi - -φ = -(f64Real phi - φ) by ring, abs_neg]
      linarith
  · obtain ⟨ha1, ha2⟩ := hL.sub f64Pi phi f64Pi_finite hpf (by rw [abs_le]; constructor <;> linarith)
    refine ⟨_, _, Real.pi - φ, rfl, ⟨hr, by linarith, by linarith, ?_, ?_⟩, ha1, ?_, hmod⟩
    · rw [Real.cos_pi_sub, mul_neg, ← hqx]; exact hsre
    · rw [Real.sin_pi_sub, ← hqy]; exact hsim
    · obtain ⟨he1, he2⟩ := abs_le.mp ha2
      rw [abs_le]
      constructor <;> linarith
  · have hv : f64Real (f64Neg f64Pi) = -f64Real f64Pi := f64Real_neg _
    obtain ⟨ha1, ha2⟩ := hL.add (f64Neg f64Pi) phi (f64Finite_neg f64Pi_finite) hpf
      (by rw [hv, abs_le]; constructor <;> linarith)
    rw [hv] at ha2
    refine ⟨_, _, φ - Real.pi, rfl, ⟨hr, by linarith, by linarith, ?_, ?_⟩, ha1, ?_, hmod⟩
    · rw [Real.cos_sub_pi, mul_neg, ← hqx]; exact hsre
    · rw [Real.sin_sub_pi, mul_neg, ← hqy]; exact hsim
    · obtain ⟨he1, he2⟩ := abs_le.mp ha2
      rw [abs_le]
      constructor <;> linarith

/-- C63, partial: a number given by integer coefficients up to `2^53`, except zero, gets polar coordinates of
that very point; a number in polar form stays as it is. -/
theorem C63_to_polar_partial {L : Libm} {ε : ℝ} (hL : L.Accurate ε) (h0 : 1 / 2 ^ 52 ≤ ε) (h1 : ε ≤ 1 / 16)
    {re im : Integer} (hre : re.Native) (him : im.Native) (hb : |re.value| ≤ 2 ^ 53) (hb' : |im.value| ≤ 2 ^ 53)
    (hne : ¬ (re.value = 0 ∧ im.value = 0)) :
    ∃ m a θ, (Imaginary.cartesian re im).toPolarForm L = .ok (.polar m a) ∧
      PolarOf re.value im.value (√((re.value : ℝ) ^ 2 + (im.value : ℝ) ^ 2)) θ ∧
      F64Finite a ∧ |f64Real a - θ| ≤ 5 * ε ∧
      F64Finite m ∧ |f64Real m - √((re.value : ℝ) ^ 2 + (im.value : ℝ) ^ 2)| ≤
          ε * √((re.value : ℝ) ^ 2 + (im.value : ℝ) ^ 2) + 1 / 2 ^ 1074 := by
  obtain ⟨br, e1, f1, v1⟩ := C60_f64_exact hre hb
  obtain ⟨bi, e2, f2, v2⟩ := C60_f64_exact him hb'
  have w1 : f64Real br = re.value := by unfold f64Real; rw [v1]; norm_cast
  have w2 : f64Real bi = im.value := by unfold f64Real; rw [v2]; norm_cast
  obtain ⟨m, a, θ, h2, h3, h4, h5, h6⟩ := C63_polar_partial hL h0 h1 f1 f2
    (by rw [v1, v2]; exact_mod_cast hne)
  rw [w1, w2] at h3 h6
  refine ⟨m, a, θ, ?_, h3, h4, h5, ?_⟩
  · simp only [Imaginary.toPolarForm, e1, e2]
    show Out.ok (Imaginary.polarFromCartesian L br bi) = _
    rw [h2]
  · rcases h6 with h6 | ⟨_, h6⟩
    · exact h6
    · exfalso
      have c1 : (re.value : ℝ) ^ 2 ≤ (2 ^ 53) ^ 2 := by
        rw [← sq_abs]
        exact pow_le_pow_left₀ (abs_nonneg _) (by exact_mod_cast hb) 2
      have c2 : (im.value : ℝ) ^ 2 ≤ (2 ^ 53) ^ 2 := by
        rw [← sq_abs]
        exact pow_le_pow_left₀ (abs_nonneg _) (by exact_mod_cast hb') 2
      have c3 : √((re.value : ℝ) ^ 2 + (im.value : ℝ) ^ 2) ≤ 2 ^ 54 :=
        Real.sqrt_le_iff.mpr ⟨by positivity, by linarith⟩
      have c4 : (2 : ℝ) ^ 54 < 2 ^ 1023 := pow_lt_pow_right₀ (by norm_num) (by norm_num)
      exact absurd (le_trans h6 c3) (not_le.mpr c4)

/-- C63: a number that has the wanted form already is returned as it is. -/
theorem C63_kept (L : Libm) (m a : UInt64) (re im : Integer) :
    (Imaginary.polar m a).toPolarForm L = .ok (.polar m a) ∧
    (Imaginary.cartesian re im).toCartesianForm L = .ok (.cartesian re im) := ⟨rfl, rfl⟩

theorem ofF64_cases (x : UInt64) : (∃ e, ofF64 x = .err e) ∨
    (F64Finite x ∧ ∃ i, ofF64 x = .ok i ∧ i.value = ⌊f64Value x⌋) := by
  by_cases hf : F64Finite x
  · by_cases h1 : 0 ≤ f64Value x ∧ 1 / 2 ^ 52 < f64Value x - ⌊f64Value x⌋
    · obtain ⟨d, hd, _⟩ := ((C10_f64_law x).2 hf).1 h1
      exact .inl ⟨_, hd⟩
    · obtain ⟨h2, h3⟩ := ((C10_f64_law x).2 hf).2 h1
      by_cases h4 : -(2 ^ 127) < ⌊f64Value x⌋ ∧ ⌊f64Value x⌋ < 2 ^ 128
      · exact .inr ⟨hf, h2 h4⟩
      · exact .inl ⟨_, h3 h4⟩
  · exact .inl ⟨_, (C10_f64_law x).1 hf⟩

/-- C63: a failed conversion to integer coefficients gives the number back, and a successful one returns
numbers below the computed real and imaginary part by less than one; nothing panics. -/
theorem C63_to_cartesian_partial (L : Libm) (m a : UInt64) :
    (∃ e, (Imaginary.polar m a).toCartesianForm L = .err (.polar m a, e)) ∨
    (∃ re im, (Imaginary.polar m a).toCartesianForm L = .ok (.cartesian re im) ∧
      F64Finite (L.mul m (L.cos a)) ∧ F64Finite (L.mul m (L.sin a)) ∧
      (re.value : ℚ) ≤ f64Value (L.mul m (L.cos a)) ∧ f64Value (L.mul m (L.cos a)) < re.value + 1 ∧
      (im.value : ℚ) ≤ f64Value (L.mul m (L.sin a)) ∧ f64Value (L.mul m (L.sin a)) < im.value + 1) := by
  unfold Imaginary.toCartesianForm
  rcases ofF64_cases (L.mul m (L.cos a)) with ⟨e, h⟩ | ⟨hf, re, h, hv⟩
  · exact .inl ⟨e, by simp only [h]⟩
  · rcases ofF64_cases (L.mul m (L.sin a)) with ⟨e, h'⟩ | ⟨hf', im, h', hv'⟩
    · exact .inl ⟨e, by simp only [h, h']⟩
    · refine .inr ⟨re, im, by simp only [h, h'], hf, hf', ?_, ?_, ?_, ?_⟩
      · rw [hv]; exact Int.floor_le _
      · rw [hv]; exact Int.lt_floor_add_one _
      · rw [hv']; exact Int.floor_le _
      · rw [hv']; exact Int.lt_floor_add_one _

/-- C63: if the computed parts are whole numbers in range, these are the coefficients. -/
theorem C63_to_cartesian_exact (L : Libm) (m a : UInt64) (x y : Int)
    (hf : F64Finite (L.mul m (L.cos a))) (hf' : F64Finite (L.mul m (L.sin a)))
    (hx : f64Value (L.mul m (L.cos a)) = x) (hy : f64Value (L.mul m (L.sin a)) = y)
    (rx : -(2 ^ 127) < x ∧ x < 2 ^ 128) (ry : -(2 ^ 127) < y ∧ y < 2 ^ 128) :
    ∃ re im, (Imaginary.polar m a).toCartesianForm L = .ok (.cartesian re im) ∧ re.value = x ∧ im.value = y := by
  obtain ⟨re, h1, h2⟩ := (C10_f64_integral_partial _ hf x hx).1 rx
  obtain ⟨im, h3, h4⟩ := (C10_f64_integral_partial _ hf' y hy).1 ry
  exact ⟨re, im, by simp only [Imaginary.toCartesianForm, h1, h3], h2, h4⟩

/-- C63 is violated at the origin: `0 + 0i` gets an argument that is not a number, whatever the library, as
long as `0/0` and `atan` of NaN are NaN. -/
theorem C63_refuted_origin {L : Libm} {ε : ℝ} (hL : L.Accurate ε) {j k : Nat} (hj : Width j) (hk : Width k) :
    ∃ m a, (Imaginary.cartesian (ofUnsigned j 0) (ofSigned k 0)).toPolarForm L = .ok (.polar m a) ∧ F64Nan a := by
  have e1 : (ofUnsigned j 0).toF64 = .ok 0 := by
    rcases hj with rfl | rfl | rfl | rfl | rfl <;> decide +kernel
  have e2 : (ofSigned k 0).toF64 = .ok 0 := by
    rcases hk with rfl | rfl | rfl | rfl | rfl <;> decide +kernel
  refine ⟨L.hypot 0 0, L.atan (L.div 0 0), ?_, hL.atan_nan _ hL.zero_div_zero⟩
  simp only [Imaginary.toPolarForm, e1, e2]
  rfl

-- the hypotheses can be met: the real operations rounded towards zero, and the number `2 - 2i`
example : sampleLibm.Accurate (1 / 2 ^ 49) ∧ (1 : ℝ) / 2 ^ 52 ≤ 1 / 2 ^ 49 ∧ (1 : ℝ) / 2 ^ 49 ≤ 1 / 16 :=
  ⟨sampleLibm_accurate, by norm_num, by norm_num⟩
example : ∃ m a θ, (Imaginary.cartesian (ofSigned 4 2) (ofSigned 4 (-2))).toPolarForm sampleLibm = .ok (.polar m a) ∧
    PolarOf 2 (-2) (√8) θ ∧ |f64Real a - θ| ≤ 5 * (1 / 2 ^ 49) := by
  have hw : Width 4 := by unfold Width; decide
  have v1 : (ofSigned 4 2).value = 2 := by decide
  have v2 : (ofSigned 4 (-2)).value = -2 := by decide
  obtain ⟨m, a, θ, h1, h2, _, h3, _⟩ := C63_to_polar_partial sampleLibm_accurate (by norm_num) (by norm_num)
    (re := ofSigned 4 2) (im := ofSigned 4 (-2)) (.signed hw (by unfold IsSigned; decide))
    (.signed hw (by unfold IsSigned; decide)) (by decide) (by decide) (by decide)
  rw [v1, v2] at h2
  refine ⟨m, a, θ, h1, ?_, h3⟩
  convert h2 using 2 <;> norm_num

end Souris
