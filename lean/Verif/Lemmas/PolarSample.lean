import Verif.Lemmas.Polar
import Verif.Lemmas.FloatCast
import Verif.Lemmas.IntegerConv

/-! # A library of rounded operations

Shows that the accuracy assumed in C63 can be had: every operation is the real one, rounded towards zero. -/

namespace Souris

/-- The bits of the largest float not above `n / 2^1074`. -/
def truncBits (n : Nat) : Nat :=
  if n < 2 ^ 52 then n else (Nat.log2 n - 52) * 2 ^ 52 + n / 2 ^ (Nat.log2 n - 52)

theorem truncBits_spec {n : Nat} (hn : n < 2 ^ 2098) :
    truncBits n < 2 ^ 63 ∧ truncBits n / 2 ^ 52 % 2 ^ 11 ≠ 2047 ∧ f64Format.mag (truncBits n) ≤ n ∧
    n * 2 ^ 52 ≤ f64Format.mag (truncBits n) * 2 ^ 52 + n := by
  unfold truncBits
  by_cases h : n < 2 ^ 52
  · rw [if_pos h]
    have hx : n / 2 ^ 52 % 2 ^ 11 = 0 := by omega
    have hm : f64Format.mag n = n := by
      unfold FloatFormat.mag
      rw [if_pos (show f64Format.exponent n = 0 from hx)]
      exact Nat.mod_eq_of_lt h
    rw [hm]
    exact ⟨by omega, by omega, Nat.le_refl _, by omega⟩
  · rw [if_neg h]
    have hne : n ≠ 0 := by omega
    have hlo : 2 ^ Nat.log2 n ≤ n := Nat.log2_self_le hne
    have hhi : n < 2 ^ (Nat.log2 n + 1) := Nat.lt_log2_self
    have ht52 : 52 ≤ Nat.log2 n := by
      by_contra hc
      have : 2 ^ (Nat.log2 n + 1) ≤ 2 ^ 52 := Nat.pow_le_pow_right (by decide) (by omega)
      omega
    have htop : Nat.log2 n < 2098 := by
      by_contra hc
      have : (2 : Nat) ^ 2098 ≤ 2 ^ Nat.log2 n := Nat.pow_le_pow_right (by decide) (by omega)
      exact absurd (Nat.lt_of_lt_of_le hn this) (Nat.not_lt.mpr hlo)
    obtain ⟨s, hs⟩ : ∃ s, Nat.log2 n = s + 52 := ⟨_, (Nat.sub_add_cancel ht52).symm⟩
    rw [hs, Nat.add_sub_cancel]
    rw [hs] at hlo hhi htop
    have hsp : 0 < 2 ^ s := by positivity
    have hq1 : 2 ^ 52 ≤ n / 2 ^ s := by
      rw [Nat.le_div_iff_mul_le hsp, ← pow_add, Nat.add_comm]; exact hlo
    have hq2 : n / 2 ^ s < 2 ^ 53 := by
      rw [Nat.div_lt_iff_lt_mul hsp, ← pow_add, show 53 + s = s + 52 + 1 by omega]; exact hhi
    have hb : s * 2 ^ 52 + n / 2 ^ s = (s + 1) * 2 ^ 52 + (n / 2 ^ s - 2 ^ 52) := by omega
    have hmp := FloatFormat.mag_parts (F := f64Format) (e := s + 1) (t := n / 2 ^ s - 2 ^ 52) (by omega)
      (show n / 2 ^ s - 2 ^ 52 ≤ 2 ^ 52 by omega)
      (by
        rw [if_neg (show ¬ n / 2 ^ s - 2 ^ 52 = 2 ^ f64Format.mant from
          fun h' => by have : f64Format.mant = 52 := rfl; rw [this] at h'; omega)]
        show s + 1 + 0 < 2 ^ 11
        omega)
    have hmant : f64Format.mant = 52 := rfl
    rw [hmant] at hmp
    obtain ⟨hmag, hexp⟩ := hmp
    rw [if_neg (by omega)] at hexp
    rw [hb, hmag]
    have hexp' : ((s + 1) * 2 ^ 52 + (n / 2 ^ s - 2 ^ 52)) / 2 ^ 52 % 2 ^ 11 = s + 1 := hexp
    have hadd : 2 ^ 52 + (n / 2 ^ s - 2 ^ 52) = n / 2 ^ s := by omega
    rw [hadd, Nat.add_sub_cancel]
    have hdm := Nat.div_add_mod n (2 ^ s)
    have hmod := Nat.mod_lt n hsp
    have hle : n / 2 ^ s * 2 ^ s ≤ n := Nat.div_mul_le_self n _
    refine ⟨by omega, by rw [hexp']; omega, hle, ?_⟩
    have h1 : n < n / 2 ^ s * 2 ^ s + 2 ^ s := by rw [Nat.mul_comm] at hdm; omega
    have h2 : 2 ^ s * 2 ^ 52 ≤ n := by rw [← pow_add]; exact hlo
    nlinarith

/-- A non-negative real, rounded towards zero. -/
noncomputable def truncPos (x : ℝ) : UInt64 := UInt64.ofNat (truncBits ⌊x * 2 ^ 1074⌋₊)

theorem truncPos_spec {x : ℝ} (h0 : 0 ≤ x) (h1 : x < 2 ^ 1024) :
    F64Finite (truncPos x) ∧ 0 ≤ f64Real (truncPos x) ∧ f64Real (truncPos x) ≤ x ∧
      x - f64Real (truncPos x) ≤ x / 2 ^ 52 + 1 / 2 ^ 1074 := by
  have hp : (0 : ℝ) < 2 ^ 1074 := by positivity
  have hx : 0 ≤ x * 2 ^ 1074 := by positivity
  have hn : ⌊x * 2 ^ 1074⌋₊ < 2 ^ 2098 := by
    rw [Nat.floor_lt hx]
    have : ((2 ^ 2098 : Nat) : ℝ) = 2 ^ 1024 * 2 ^ 1074 := by
      rw [Nat.cast_pow, ← pow_add]; rfl
    rw [this]
    exact mul_lt_mul_of_pos_right h1 hp
  have hf1 := Nat.floor_le hx
  have hf2 := Nat.lt_floor_add_one (x * 2 ^ 1074)
  obtain ⟨hb1, hb2, hb3, hb4⟩ := truncBits_spec hn
  have htn : (truncPos x).toNat = truncBits ⌊x * 2 ^ 1074⌋₊ := by
    unfold truncPos
    rw [UInt64.toNat_ofNat']
    omega
  have hv : f64Real (truncPos x) = (f64Format.mag (truncBits ⌊x * 2 ^ 1074⌋₊) : ℝ) / 2 ^ 1074 := by
    unfold f64Real
    rw [f64Value_eq, htn, FloatFormat.num_pos (F := f64Format) (by exact hb1)]
    push_cast
    rfl
  have hfin : F64Finite (truncPos x) := by unfold F64Finite; rw [htn]; exact hb2
  rw [hv]
  clear hv hn htn hb1 hb2
  revert hb3 hb4 hf1 hf2
  generalize f64Format.mag (truncBits ⌊x * 2 ^ 1074⌋₊) = g
  generalize ⌊x * 2 ^ 1074⌋₊ = n
  revert hp hx
  generalize (2 : ℝ) ^ 1074 = P
  intro hp hx hf1 hf2 hb3 hb4
  have c3 : (g : ℝ) ≤ n := by exact_mod_cast hb3
  have c4 : (n : ℝ) * 2 ^ 52 ≤ g * 2 ^ 52 + n := by exact_mod_cast hb4
  refine ⟨hfin, by positivity, ?_, ?_⟩
  · rw [div_le_iff₀ hp]; linarith
  · have : x - g / P = (x * P - g) / P := by field_simp
    rw [this, show x / 2 ^ 52 + 1 / P = (x * P / 2 ^ 52 + 1) / P by field_simp]
    apply div_le_div_of_nonneg_right _ hp.le
    linarith

/-- A real, rounded towards zero. -/
noncomputable def trunc (x : ℝ) : UInt64 := if 0 ≤ x then truncPos x else f64Neg (truncPos (-x))

theorem trunc_spec {x : ℝ} (h : |x| < 2 ^ 1024) :
    F64Finite (trunc x) ∧ |f64Real (trunc x) - x| ≤ |x| / 2 ^ 52 + 1 / 2 ^ 1074 ∧
      (0 ≤ x → 0 ≤ f64Real (trunc x)) := by
  unfold trunc
  by_cases h0 : 0 ≤ x
  · rw [if_pos h0]
    rw [abs_of_nonneg h0] at h ⊢
    obtain ⟨a, b, c, d⟩ := truncPos_spec h0 h
    refine ⟨a, ?_, fun _ => b⟩
    rw [abs_sub_comm, abs_of_nonneg (by linarith)]
    exact d
  · rw [if_neg h0]
    have h0' : x < 0 := lt_of_not_ge h0
    rw [abs_of_neg h0'] at h ⊢
    obtain ⟨a, b, c, d⟩ := truncPos_spec (x := -x) (by linarith) h
    refine ⟨f64Finite_neg a, ?_, fun hx => absurd hx h0⟩
    rw [f64Real_neg, abs_of_nonneg (by linarith)]
    linarith

open Classical in
/-- Operations rounded towards zero. -/
noncomputable def sampleLibm : Libm where
  add a b := trunc (f64Real a + f64Real b)
  sub a b := trunc (f64Real a - f64Real b)
  mul a b := trunc (f64Real a * f64Real b)
  div a b :=
    if f64Real b = 0 then (if f64Real a = 0 then 0x7FF8000000000000 else f64Inf)
    else if f64Real a / f64Real b < 2 ^ 1000 then trunc (f64Real a / f64Real b) else f64Inf
  hypot a b :=
    if √(f64Real a ^ 2 + f64Real b ^ 2) < 2 ^ 1023 then trunc √(f64Real a ^ 2 + f64Real b ^ 2) else f64Inf
  atan x :=
    if F64Nan x then 0x7FF8000000000000
    else if x = f64Inf then trunc (Real.pi / 2) else trunc (Real.arctan (f64Real x))
  sin x := trunc (Real.sin (f64Real x))
  cos x := trunc (Real.cos (f64Real x))

theorem f64Real_zero : f64Real 0 = 0 := by
  rw [f64Real_eq_zero]
  unfold f64Value
  norm_num

theorem small_lt {x : ℝ} (h : |x| ≤ 4) : |x| < 2 ^ 1024 :=
  lt_of_le_of_lt h (lt_of_eq_of_lt (show (4 : ℝ) = 2 ^ 2 by norm_num) (pow_lt_pow_right₀ (by norm_num) (by norm_num)))

theorem tiny_le : (1 : ℝ) / 2 ^ 1074 ≤ 1 / 2 ^ 52 :=
  one_div_le_one_div_of_le (by positivity) (pow_le_pow_right₀ (by norm_num) (by norm_num))

theorem trunc_small {x : ℝ} (h : |x| ≤ 4) : F64Finite (trunc x) ∧ |f64Real (trunc x) - x| ≤ 1 / 2 ^ 49 := by
  obtain ⟨a, b, _⟩ := trunc_spec (small_lt h)
  refine ⟨a, le_trans b ?_⟩
  have := tiny_le
  have h2 : |x| / 2 ^ 52 ≤ 4 / 2 ^ 52 := by gcongr
  calc _ ≤ (4 : ℝ) / 2 ^ 52 + 1 / 2 ^ 52 := add_le_add h2 this
    _ ≤ 1 / 2 ^ 49 := by norm_num

theorem sampleLibm_accurate : sampleLibm.Accurate (1 / 2 ^ 49) where
  div a b _ _ ha hb := by
    simp only [sampleLibm]
    rw [if_neg hb.ne']
    have hq : 0 ≤ f64Real a / f64Real b := by positivity
    revert hq
    generalize f64Real a / f64Real b = q
    intro hq
    by_cases h : q < 2 ^ 1000
    · rw [if_pos h]
      left
      obtain ⟨c, d, e⟩ := trunc_spec (x := q) (by
        rw [abs_of_nonneg hq]
        exact lt_trans h (pow_lt_pow_right₀ (by norm_num) (by norm_num)))
      refine ⟨c, e hq, le_trans d ?_⟩
      rw [abs_of_nonneg hq]
      have := tiny_le
      calc q / 2 ^ 52 + 1 / 2 ^ 1074 ≤ q / 2 ^ 52 + 1 / 2 ^ 52 := by gcongr
        _ = 1 / 2 ^ 52 * (1 + q) := by ring
        _ ≤ 1 / 2 ^ 49 * (1 + q) := by
          apply mul_le_mul_of_nonneg_right _ (by linarith)
          norm_num
    · rw [if_neg h]
      right
      refine ⟨rfl, ?_⟩
      rw [one_div_one_div]
      exact le_trans (pow_le_pow_right₀ (by norm_num) (by norm_num)) (not_lt.mp h)
  div_zero a _ ha := by
    simp only [sampleLibm]
    rw [if_pos f64Real_zero, if_neg ha.ne']
  zero_div_zero := by
    simp only [sampleLibm]
    rw [if_pos f64Real_zero, if_pos f64Real_zero]
    unfold F64Nan
    decide
  atan x hx h0 := by
    have hn : ¬ F64Nan x := fun h => hx h.1
    have hi : ¬ x = f64Inf := by rintro rfl; exact hx (by decide)
    simp only [sampleLibm]
    rw [if_neg hn, if_neg hi]
    apply trunc_small
    have h1 := Real.arctan_lt_pi_div_two (f64Real x)
    have h2 := Real.arctan_nonneg.mpr h0
    have h3 := Real.pi_lt_d2
    rw [abs_of_nonneg h2]
    norm_num at h3
    linarith
  atan_inf := by
    have hn : ¬ F64Nan f64Inf := by unfold F64Nan; decide
    simp only [sampleLibm]
    rw [if_neg hn, if_pos trivial]
    apply trunc_small
    have h3 := Real.pi_lt_d2
    rw [abs_of_nonneg (by positivity)]
    norm_num at h3
    linarith
  atan_nan x hx := by
    simp only [sampleLibm]
    rw [if_pos hx]
    unfold F64Nan
    decide
  add a b _ _ h := trunc_small h
  sub a b _ _ h := trunc_small h
  hypot a b _ _ := by
    simp only [sampleLibm]
    have hr : 0 ≤ √(f64Real a ^ 2 + f64Real b ^ 2) := Real.sqrt_nonneg _
    revert hr
    generalize √(f64Real a ^ 2 + f64Real b ^ 2) = r
    intro hr
    by_cases h : r < 2 ^ 1023
    · rw [if_pos h]
      left
      obtain ⟨c, d, _⟩ := trunc_spec (x := r) (by
        rw [abs_of_nonneg hr]
        exact lt_trans h (pow_lt_pow_right₀ (by norm_num) (by norm_num)))
      refine ⟨c, le_trans d ?_⟩
      rw [abs_of_nonneg hr]
      apply add_le_add _ (le_refl _)
      rw [div_eq_mul_inv, mul_comm]
      apply mul_le_mul_of_nonneg_right _ hr
      norm_num
    · rw [if_neg h]
      exact .inr ⟨rfl, not_lt.mp h⟩

end Souris
