import Verif.Lemmas.JsonFloatText

/-! # How far a float that is read is from the number that is written -/

namespace Souris

namespace SerdeJson

open FloatFormat

/-- Half of the smallest float. -/
def tiny : ℚ := 1 / (2 * ((2 ^ f64Format.scale : Nat) : ℚ))

theorem tiny_pos : 0 < tiny := by
  unfold tiny
  have := unit_pos
  positivity

theorem rne_half (a : Nat) {D : Nat} (hD : 0 < D) : 2 * (rne a D * D) ≤ 2 * a + D ∧ 2 * a ≤ 2 * (rne a D * D) + D := by
  have h1 := Nat.div_add_mod' a D
  have h2 := Nat.mod_lt a hD
  unfold rne roundQ
  split
  · rename_i h
    have h3 : D ≤ 2 * (a % D) := by
      simp only [Bool.or_eq_true, decide_eq_true_eq, Bool.and_eq_true] at h
      omega
    rw [Nat.add_mul, Nat.one_mul]
    omega
  · rename_i h
    have h3 : 2 * (a % D) ≤ D := by
      simp only [Bool.or_eq_true, decide_eq_true_eq, Bool.and_eq_true, not_or] at h
      omega
    omega

/-- A rounded number differs by at most half of the spacing. -/
theorem ofRatio_close {n d : Nat} (hd : 0 < d) (h : f64Format.ofRatio n d < f64Format.inf) :
    |val (f64Format.ofRatio n d) - n / d| ≤ 1 / 2 ^ 53 * (n / d) + tiny := by
  have hm := (ofRatio_fin h).2
  have hlo := fun hs => space_lo (F := f64Format) (A := n * 2 ^ f64Format.scale / d) hs
  rw [← spacing_eq, Nat.div_div_eq_div_mul] at hlo
  have hU := unit_pos
  have hhalf := rne_half (n * 2 ^ f64Format.scale) (D := d * 2 ^ f64Format.spacing n d) (by positivity)
  unfold val tiny
  rw [hm]
  generalize f64Format.spacing n d = s at *
  generalize rne (n * 2 ^ f64Format.scale) (d * 2 ^ s) = R at *
  have h52 : f64Format.mant = 52 := rfl
  rw [h52] at hlo
  clear hm h h52
  generalize 2 ^ f64Format.scale = U at *
  have hd' : (0 : ℚ) < d := by exact_mod_cast hd
  have e1 : ((R * 2 ^ s : Nat) : ℚ) / U - n / d = (R * (d * 2 ^ s) - n * U) / (d * U) := by
    field_simp
    push_cast
    ring
  have hb : |((R : ℚ) * (d * 2 ^ s) - n * U)| ≤ d * 2 ^ s / 2 := by
    have h1 : (2 : ℚ) * (R * (d * 2 ^ s)) ≤ 2 * (n * U) + d * 2 ^ s := by exact_mod_cast hhalf.1
    have h2 : (2 : ℚ) * (n * U) ≤ 2 * (R * (d * 2 ^ s)) + d * 2 ^ s := by exact_mod_cast hhalf.2
    rw [abs_le]
    constructor <;> linarith
  have hdU : (0 : ℚ) < d * U := by positivity
  rw [e1, abs_div, abs_of_pos hdU, div_le_iff₀ hdU]
  refine hb.trans ?_
  have e2 : (1 / 2 ^ 53 * ((n : ℚ) / d) + 1 / (2 * U)) * (d * U) = n * U / 2 ^ 53 + d / 2 := by
    field_simp
  rw [e2]
  have hn : (0 : ℚ) ≤ n * U := by positivity
  rcases Nat.eq_zero_or_pos s with rfl | hs
  · rw [pow_zero, mul_one]
    have : (0 : ℚ) ≤ n * U / 2 ^ 53 := by positivity
    linarith
  · have h1 := hlo hs
    rw [Nat.le_div_iff_mul_le (by positivity)] at h1
    have h2 : (2 : ℚ) ^ 52 * (d * 2 ^ s) ≤ n * U := by exact_mod_cast h1
    have h3 : (d : ℚ) * 2 ^ s / 2 ≤ n * U / 2 ^ 53 := by
      rw [le_div_iff₀ (by positivity)]
      linarith
    linarith

/-! ## How errors grow -/

theorem near_div {s t f p a b δ : ℚ} (hs : 0 ≤ s) (ht : 0 < t) (ha : 0 ≤ a) (hb : 0 ≤ b) (hb' : b ≤ 1 / 4) (hδ : 0 ≤ δ)
    (hf : |f - s| ≤ a * s + δ) (hp : |p - t| ≤ b * t) : |f / p - s / t| ≤ (a + b) * (1 + 2 * b) * (s / t) + 2 * δ / t := by
  have hp1 : t * (1 - b) ≤ p := by
    have := (abs_le.mp hp).1
    linarith
  have h1b : 0 < 1 - b := by linarith
  have hp0 : 0 < p := lt_of_lt_of_le (by positivity) hp1
  have e : f / p - s / t = ((f - s) * t - s * (p - t)) / (p * t) := by
    field_simp
    ring
  have hnum : |(f - s) * t - s * (p - t)| ≤ ((a + b) * s + δ) * t := by
    calc |(f - s) * t - s * (p - t)| ≤ |(f - s) * t| + |s * (p - t)| := abs_sub _ _
      _ = |f - s| * t + s * |p - t| := by rw [abs_mul, abs_mul, abs_of_pos ht, abs_of_nonneg hs]
      _ ≤ (a * s + δ) * t + s * (b * t) :=
        add_le_add (mul_le_mul_of_nonneg_right hf ht.le) (mul_le_mul_of_nonneg_left hp hs)
      _ = ((a + b) * s + δ) * t := by ring
  have hX : 0 ≤ (a + b) * s + δ := by positivity
  have hinv : 1 / p ≤ (1 + 2 * b) / t := by
    rw [div_le_div_iff₀ hp0 ht]
    have h1 : 1 ≤ (1 + 2 * b) * (1 - b) := by nlinarith
    calc 1 * t ≤ ((1 + 2 * b) * (1 - b)) * t := mul_le_mul_of_nonneg_right h1 ht.le
      _ = (1 + 2 * b) * (t * (1 - b)) := by ring
      _ ≤ (1 + 2 * b) * p := mul_le_mul_of_nonneg_left hp1 (by linarith)
  rw [e, abs_div, abs_of_pos (show 0 < p * t by positivity)]
  calc |(f - s) * t - s * (p - t)| / (p * t) ≤ ((a + b) * s + δ) * t / (p * t) :=
        div_le_div_of_nonneg_right hnum (by positivity)
    _ = ((a + b) * s + δ) * (1 / p) := by field_simp
    _ ≤ ((a + b) * s + δ) * ((1 + 2 * b) / t) := mul_le_mul_of_nonneg_left hinv hX
    _ = (a + b) * (1 + 2 * b) * (s / t) + (1 + 2 * b) * δ / t := by ring
    _ ≤ (a + b) * (1 + 2 * b) * (s / t) + 2 * δ / t := by
      have : (1 + 2 * b) * δ / t ≤ 2 * δ / t :=
        div_le_div_of_nonneg_right (mul_le_mul_of_nonneg_right (by linarith) hδ) ht.le
      linarith

theorem near_mul {s t f p a b : ℚ} (hs : 0 ≤ s) (ht : 0 < t) (hf : |f - s| ≤ a * s) (hp : |p - t| ≤ b * t) : |f * p - s * t| ≤ (a + b + a * b) * (s * t) := by
  have e : f * p - s * t = (f - s) * t + s * (p - t) + (f - s) * (p - t) := by ring
  have has : 0 ≤ a * s := (abs_nonneg _).trans hf
  rw [e]
  calc |(f - s) * t + s * (p - t) + (f - s) * (p - t)| ≤ |(f - s) * t| + |s * (p - t)| + |(f - s) * (p - t)| :=
        (abs_add_le _ _).trans (add_le_add_left (abs_add_le _ _) _)
    _ = |f - s| * t + s * |p - t| + |f - s| * |p - t| := by
        rw [abs_mul, abs_mul, abs_mul, abs_of_pos ht, abs_of_nonneg hs]
    _ ≤ a * s * t + s * (b * t) + a * s * (b * t) := by
        refine add_le_add (add_le_add (mul_le_mul_of_nonneg_right hf ht.le) (mul_le_mul_of_nonneg_left hp hs)) ?_
        exact mul_le_mul hf hp (abs_nonneg _) has
    _ = (a + b + a * b) * (s * t) := by ring

theorem near_round {s f g a δ u η : ℚ} (hu : 0 ≤ u) (hf : |f - s| ≤ a * s + δ) (hg : |g - f| ≤ u * f + η) :
    |g - s| ≤ (a + u * (1 + a)) * s + ((1 + u) * δ + η) := by
  have h1 : f ≤ s + (a * s + δ) := by linarith [(abs_le.mp hf).2]
  calc |g - s| = |(g - f) + (f - s)| := by ring_nf
    _ ≤ |g - f| + |f - s| := abs_add_le _ _
    _ ≤ (u * f + η) + (a * s + δ) := add_le_add hg hf
    _ ≤ (u * (s + (a * s + δ)) + η) + (a * s + δ) := by
      have := mul_le_mul_of_nonneg_left h1 hu
      linarith
    _ = (a + u * (1 + a)) * s + ((1 + u) * δ + η) := by ring

/-! ## Reading -/

/-- The error of one rounding of a number that is not tiny. -/
def once : ℚ := 101 / (100 * 2 ^ 53)

theorem tiny_le : tiny ≤ 1 / (100 * 2 ^ 53) := by
  have h : 100 * 2 ^ 53 ≤ 2 * 2 ^ f64Format.scale := by decide +kernel
  have hU := unit_pos
  unfold tiny
  generalize 2 ^ f64Format.scale = U at *
  refine one_div_le_one_div_of_le (by positivity) ?_
  exact_mod_cast h

/-- A rounded number of at least one. -/
theorem ofRatio_once {n d : Nat} (hd : 0 < d) (hn : d ≤ n) (h : f64Format.ofRatio n d < f64Format.inf) :
    |val (f64Format.ofRatio n d) - n / d| ≤ once * (n / d) := by
  refine (ofRatio_close hd h).trans ?_
  have h1 : (1 : ℚ) ≤ n / d := by
    rw [one_le_div (by exact_mod_cast hd)]
    exact_mod_cast hn
  have h2 := tiny_le
  have h3 : once = 1 / 2 ^ 53 + 1 / (100 * 2 ^ 53) := by unfold once; norm_num
  rw [h3, add_mul]
  have h4 : 1 / (100 * 2 ^ 53) * 1 ≤ 1 / (100 * 2 ^ 53) * ((n : ℚ) / d) := mul_le_mul_of_nonneg_left h1 (by positivity)
  linarith

theorem castNat_once {n : Nat} (h1 : 1 ≤ n) (h : n < 2 ^ 64) : |val (f64Format.castNat n) - n| ≤ once * n := by
  have hf := castNat_fin h
  rw [castNat_ratio h] at hf ⊢
  simpa using ofRatio_once (by decide) h1 hf

theorem pow10_once {e : Nat} (h : e ≤ 308) : |val (pow10 e) - 10 ^ e| ≤ once * 10 ^ e := by
  have := ofRatio_once (n := 10 ^ e) (by decide) (Nat.one_le_pow _ _ (by decide)) (pow10_fin h)
  simpa [pow10] using this

theorem val_mono {a b : Nat} (h : a ≤ b) (hb : b < f64Format.inf) : val a ≤ val b := by
  unfold val
  refine div_le_div_of_nonneg_right ?_ unit_pos.le
  exact_mod_cast mag_mono h hb

theorem mul_close {f p : Nat} (h : f64Format.mul f p < f64Format.inf) :
    |val (f64Format.mul f p) - val f * val p| ≤ 1 / 2 ^ 53 * (val f * val p) + tiny := by
  have hc := ofRatio_close (by positivity) h
  have e : ((f64Format.mag f * f64Format.mag p : Nat) : ℚ) / ((2 ^ (2 * f64Format.scale) : Nat) : ℚ) = val f * val p := by
    unfold val
    rw [div_mul_div_comm, Nat.two_mul, Nat.pow_add, Nat.cast_mul, Nat.cast_mul]
  rw [e] at hc
  exact hc

theorem div_close {f p : Nat} (hp : 0 < f64Format.mag p) (h : f64Format.div f p < f64Format.inf) :
    |val (f64Format.div f p) - val f / val p| ≤ 1 / 2 ^ 53 * (val f / val p) + tiny := by
  have hc := ofRatio_close hp h
  have e : (f64Format.mag f : ℚ) / (f64Format.mag p : ℚ) = val f / val p := by
    unfold val
    have := unit_pos
    rw [div_div_div_cancel_right₀ this.ne']
  rw [e] at hc
  exact hc

theorem div_step {f : Nat} {s a δ : ℚ} {e : Nat} (he : e ≤ 308) (hf : f < f64Format.inf) (hs : 0 ≤ s) (ha : 0 ≤ a)
    (ha' : a ≤ 8 * once) (hδ : 0 ≤ δ) (h : |val f - s| ≤ a * s + δ) :
    |val (f64Format.div f (pow10 e)) - s / 10 ^ e| ≤ (a + 21 / 10 * once) * (s / 10 ^ e) + (3 * δ / 10 ^ e + tiny) := by
  have hp := pow10_ge he
  have hp0 : 0 < f64Format.mag (pow10 e) := lt_of_lt_of_le (Nat.two_pow_pos _) hp
  have h1 := near_div hs (show (0 : ℚ) < 10 ^ e by positivity) ha (by unfold once; norm_num) (by unfold once; norm_num) hδ h
    (pow10_once he)
  have h2 := near_round (by norm_num) h1 (div_close hp0 (div_fin hf he))
  refine h2.trans (add_le_add (mul_le_mul_of_nonneg_right ?_ (by positivity)) (add_le_add ?_ le_rfl))
  · unfold once at *
    have : (a + 101 / (100 * 2 ^ 53)) * (1 + 2 * (101 / (100 * 2 ^ 53))) =
      a + 101 / (100 * 2 ^ 53) + 2 * (101 / (100 * 2 ^ 53)) * a + 2 * (101 / (100 * 2 ^ 53)) * (101 / (100 * 2 ^ 53)) := by ring
    rw [this]
    norm_num at ha' ⊢
    linarith
  · rw [show (1 + 1 / 2 ^ 53) * (2 * δ / 10 ^ e) = ((1 + 1 / 2 ^ 53) * 2) * δ / 10 ^ e by ring]
    refine div_le_div_of_nonneg_right (mul_le_mul_of_nonneg_right (by norm_num) hδ) (by positivity)

theorem mul_step {f : Nat} {s : ℚ} {e : Nat} (he : e ≤ 308) (hs : 0 ≤ s) (h : |val f - s| ≤ once * s)
    (hfin : f64Format.mul f (pow10 e) < f64Format.inf) :
    |val (f64Format.mul f (pow10 e)) - s * 10 ^ e| ≤ 4 * once * (s * 10 ^ e) + tiny := by
  have h1 := near_mul hs (show (0 : ℚ) < 10 ^ e by positivity) h (pow10_once he)
  have h2 := near_round (δ := 0) (by norm_num) (by rw [add_zero]; exact h1) (mul_close hfin)
  rw [mul_zero, zero_add] at h2
  refine h2.trans (add_le_add (mul_le_mul_of_nonneg_right ?_ (by positivity)) le_rfl)
  unfold once
  norm_num

/-- Small exponents only make smaller. -/
theorem scale_down {fuel f : Nat} {e : Int} {g : Nat} (hf : f < f64Format.inf) (he : e ≤ 0) (h : scale fuel f e = some g) :
    g ≤ f := by
  have hdiv : ∀ {f k : Nat}, f < f64Format.inf → k ≤ 308 → f64Format.div f (pow10 k) ≤ f := by
    intro f k hf h
    have hp := pow10_ge h
    exact ofRatio_le hf (lt_of_lt_of_le (by positivity) hp) (Nat.mul_le_mul_left _ hp)
  induction fuel generalizing f e with
  | zero => simp [scale] at h
  | succ fuel ih =>
    unfold scale at h
    split at h
    · rename_i hk
      split at h
      · rename_i h0
        have : e = 0 := by omega
        subst this
        simp only at h
        split at h
        · cases h
        · rw [← Option.some.inj h]
          unfold FloatFormat.mul
          rw [Int.natAbs_zero, pow10_mag (by decide)]
          refine ofRatio_le hf (by positivity) ?_
          rw [pow_zero, Nat.one_mul, Nat.two_mul, Nat.pow_add, Nat.mul_assoc]
      · rw [← Option.some.inj h]
        exact hdiv hf hk
    · split at h
      · rw [← Option.some.inj h]
      · split at h
        · omega
        · exact (ih (div_fin hf (by decide)) (by omega) h).trans (hdiv hf (by decide))

theorem far_le : (2 : ℚ) ^ 64 / 10 ^ 308 / 10 ^ 308 ≤ tiny / 10 := by
  have h : 2 ^ 64 * (10 * (2 * 2 ^ f64Format.scale)) ≤ 10 ^ 308 * 10 ^ 308 := by decide +kernel
  have hU := unit_pos
  unfold tiny
  generalize 2 ^ f64Format.scale = U at *
  generalize hT : (10 : Nat) ^ 308 = T at *
  have hT' : (10 : ℚ) ^ 308 = T := by rw [← hT, Nat.cast_pow, Nat.cast_ofNat]
  have hT0 : (0 : ℚ) < T := by rw [← hT']; positivity
  rw [hT', div_div, div_div, div_le_div_iff₀ (by positivity) (by positivity)]
  have h' : (2 : ℚ) ^ 64 * (10 * (2 * U)) ≤ T * T := by exact_mod_cast h
  linarith

/-- How far the result of `f64_from_parts` is from the number. -/
theorem scale_close {sig : Nat} (h1 : 1 ≤ sig) (hs : sig < 2 ^ 64) {fuel : Nat} {e : Int} {g : Nat}
    (h : scale fuel (f64Format.castNat sig) e = some g) :
    |val g - sig * 10 ^ e| ≤ 6 * once * (sig * 10 ^ e) + 2 * tiny := by
  have hc := castNat_once h1 hs
  have hfin := castNat_fin hs
  have ht := tiny_pos
  have ho : 0 < once := by unfold once; norm_num
  have hsig : (1 : ℚ) ≤ sig := by exact_mod_cast h1
  have hsig' : (sig : ℚ) ≤ 2 ^ 64 := by exact_mod_cast hs.le
  generalize f64Format.castNat sig = f at *
  have hq : (0 : ℚ) < sig * 10 ^ e := mul_pos (by linarith) (ten_pos e)
  cases fuel with
  | zero => simp [scale] at h
  | succ fuel =>
    unfold scale at h
    split at h
    · rename_i hk
      split at h
      · rename_i h0
        simp only at h
        split at h
        · cases h
        · rename_i hne
          rw [← Option.some.inj h]
          have hlt : f64Format.mul f (pow10 e.natAbs) < f64Format.inf := lt_of_le_of_ne (ofRatio_le_inf _ _) hne
          have hm := mul_step hk (by linarith) hc hlt
          have e1 : (10 : ℚ) ^ e.natAbs = 10 ^ e := by
            rw [← zpow_natCast]
            congr 1
            omega
          rw [e1] at hm
          have : 0 < once * (sig * 10 ^ e) := mul_pos ho hq
          linarith
      · rename_i h0
        rw [← Option.some.inj h]
        have hm := div_step (s := (sig : ℚ)) (a := once) (δ := 0) hk hfin (by linarith) ho.le (by linarith) le_rfl (by rw [add_zero]; exact hc)
        have e1 : (sig : ℚ) / 10 ^ e.natAbs = sig * 10 ^ e := by
          rw [← zpow_natCast, div_eq_mul_inv, ← zpow_neg]
          congr 2
          omega
        rw [e1] at hm
        have : 0 < once * (sig * 10 ^ e) := mul_pos ho hq
        simp only [mul_zero, zero_div, zero_add] at hm
        linarith
    · rename_i hk
      split at h
      · rename_i hf0
        exfalso
        subst hf0
        rw [show val 0 = 0 by unfold val; simp [FloatFormat.mag, FloatFormat.exponent, FloatFormat.mantissa]] at hc
        rw [zero_sub, abs_neg, abs_of_nonneg (by linarith)] at hc
        have : once < 1 := by unfold once; norm_num
        nlinarith
      · split at h
        · cases h
        · rename_i h0
          have h308 : (308 : Nat) ≤ 308 := le_refl _
          have hm := div_step (s := (sig : ℚ)) (a := once) (δ := 0) h308 hfin (by linarith) ho.le (by linarith) le_rfl (by rw [add_zero]; exact hc)
          have hf1 := div_fin hfin h308
          simp only [mul_zero, zero_div, zero_add] at hm
          generalize f64Format.div f (pow10 308) = f1 at *
          have hx0 : (0 : ℚ) ≤ (sig : ℚ) / 10 ^ 308 := by positivity
          cases fuel with
          | zero => simp [scale] at h
          | succ fuel =>
            unfold scale at h
            split at h
            · rename_i hk2
              rw [if_neg (by omega)] at h
              rw [← Option.some.inj h]
              have hm2 := div_step hk2 hf1 hx0 (by linarith) (by linarith) ht.le hm
              have e1 : (sig : ℚ) / 10 ^ 308 / 10 ^ (e + 308).natAbs = sig * 10 ^ e := by
                rw [div_div, ← pow_add, ← zpow_natCast, div_eq_mul_inv, ← zpow_neg]
                congr 2
                omega
              rw [e1] at hm2
              have h10 : (10 : ℚ) ≤ 10 ^ (e + 308).natAbs := by
                calc (10 : ℚ) = 10 ^ 1 := by norm_num
                  _ ≤ 10 ^ (e + 308).natAbs := pow_le_pow_right₀ (by norm_num) (by omega)
              have h3 : 3 * tiny / 10 ^ (e + 308).natAbs ≤ tiny := by
                rw [div_le_iff₀ (by positivity)]
                nlinarith
              have : 0 < once * (sig * 10 ^ e) := mul_pos ho hq
              linarith
            · rename_i hk2
              -- the number is far below the smallest float
              have hfar := far_le
              have hx : (sig : ℚ) / 10 ^ 308 / 10 ^ 308 ≤ tiny / 10 := by
                refine le_trans ?_ hfar
                exact div_le_div_of_nonneg_right (div_le_div_of_nonneg_right hsig' (by positivity)) (by positivity)
              have hqx : (sig : ℚ) * 10 ^ e ≤ sig / 10 ^ 308 / 10 ^ 308 := by
                rw [div_div, ← pow_add, div_eq_mul_inv]
                refine mul_le_mul_of_nonneg_left ?_ (by linarith)
                rw [← zpow_natCast, ← zpow_neg]
                exact zpow_le_zpow_right₀ (by norm_num) (by omega)
              have hg : val g ≤ 2 * tiny := by
                split at h
                · rename_i hf0
                  rw [← Option.some.inj h, hf0]
                  rw [show val 0 = 0 by unfold val; simp [FloatFormat.mag, FloatFormat.exponent, FloatFormat.mantissa]]
                  linarith
                · rw [if_neg (by omega)] at h
                  have hm2 := div_step h308 hf1 hx0 (by linarith) (by linarith) ht.le hm
                  have hle := val_mono (scale_down (div_fin hf1 h308) (by omega) h) (div_fin hf1 h308)
                  have h3 : 3 * tiny / 10 ^ 308 ≤ tiny / 10 := by
                    rw [div_le_div_iff₀ (by positivity) (by norm_num)]
                    have : (30 : ℚ) ≤ 10 ^ 308 := by
                      calc (30 : ℚ) ≤ 10 ^ 2 := by norm_num
                        _ ≤ 10 ^ 308 := pow_le_pow_right₀ (by norm_num) (by norm_num)
                    rw [show 3 * tiny * 10 = tiny * 30 by ring]
                    exact mul_le_mul_of_nonneg_left this ht.le
                  have h4 := (abs_le.mp hm2).2
                  have hX0 : (0 : ℚ) ≤ (sig : ℚ) / 10 ^ 308 / 10 ^ 308 := by positivity
                  have h5 : (once + 21 / 10 * once + 21 / 10 * once) * ((sig : ℚ) / 10 ^ 308 / 10 ^ 308) ≤
                      1 * ((sig : ℚ) / 10 ^ 308 / 10 ^ 308) :=
                    mul_le_mul_of_nonneg_right (by unfold once; norm_num) hX0
                  clear hm2 hm hfar hqx
                  generalize (sig : ℚ) / 10 ^ 308 / 10 ^ 308 = X at *
                  generalize 3 * tiny / 10 ^ 308 = Y at *
                  linarith
              have hv := val_nonneg g
              have : 0 < once * (sig * 10 ^ e) := mul_pos ho hq
              rw [abs_le]
              constructor <;> linarith

theorem castNat_near {n : Nat} (h : n < 2 ^ 64) : |val (f64Format.castNat n) - n| ≤ once * n := by
  rcases Nat.eq_zero_or_pos n with rfl | h1
  · rw [show f64Format.castNat 0 = 0 by decide +kernel, val_zero]
    simp
  · exact castNat_once h1 h

theorem scale_zero {fuel : Nat} {e : Int} {g : Nat} (h : scale fuel 0 e = some g) : g = 0 := by
  have hz : ∀ d, 0 < d → f64Format.ofRatio 0 d = 0 := fun d hd =>
    Nat.le_zero.mp (ofRatio_le (by decide +kernel) hd (by simp))
  have hm : f64Format.mag 0 = 0 := by simp [FloatFormat.mag, FloatFormat.exponent, FloatFormat.mantissa]
  cases fuel with
  | zero => simp [scale] at h
  | succ fuel =>
    unfold scale at h
    split at h
    · rename_i hk
      split at h
      · simp only at h
        split at h
        · cases h
        · rw [← Option.some.inj h]
          unfold FloatFormat.mul
          rw [hm, Nat.zero_mul]
          exact hz _ (by positivity)
      · rw [← Option.some.inj h]
        unfold FloatFormat.div
        rw [hm]
        exact hz _ (lt_of_lt_of_le (Nat.two_pow_pos _) (pow10_ge hk))
    · rw [if_pos rfl] at h
      rw [← Option.some.inj h]

theorem two_tiny : 2 * tiny ≤ 1 / 10 ^ 323 := by
  have h : 10 ^ 323 ≤ 2 ^ f64Format.scale := by decide +kernel
  have hU := unit_pos
  unfold tiny
  generalize 2 ^ f64Format.scale = U at *
  have h' : (10 : ℚ) ^ 323 ≤ U := by exact_mod_cast h
  rw [show (2 : ℚ) * (1 / (2 * U)) = 1 / U by field_simp]
  exact one_div_le_one_div_of_le (by positivity) h'

/-- What is kept of the digits is about the number. -/
theorem Kept.close {sig D : Nat} {start k e : Int} (h : Kept sig start D k) :
    |(sig : ℚ) * 10 ^ (start + e) - D * 10 ^ (k + e)| ≤ D * 10 ^ (k + e) / 10 ^ 18 := by
  obtain ⟨drop, _, _, h3, rfl⟩ := h
  have h4 : |(sig : ℚ) * 10 ^ drop - D| * 10 ^ 18 ≤ D := by
    have : ((((sig * 10 ^ drop - D : Int).natAbs * 10 ^ 18 : Nat)) : ℚ) ≤ (D : ℚ) := by exact_mod_cast h3
    rw [Nat.cast_mul, Nat.cast_natAbs] at this
    push_cast at this
    exact this
  have hp := ten_pos (k + e)
  have e1 : (sig : ℚ) * 10 ^ (k + drop + e) - D * 10 ^ (k + e) = (sig * 10 ^ drop - D) * 10 ^ (k + e) := by
    rw [show k + drop + e = drop + (k + e) by omega, zpow_add₀ (by norm_num), zpow_natCast]
    ring
  rw [e1, abs_mul, abs_of_pos hp, le_div_iff₀ (by norm_num), mul_right_comm]
  exact mul_le_mul_of_nonneg_right h4 hp.le

theorem Kept.zero {sig D : Nat} {start k : Int} (h : Kept sig start D k) (hs : sig = 0) : D = 0 := by
  obtain ⟨drop, _, _, h3, _⟩ := h
  subst hs
  simp only [Nat.cast_zero, zero_mul, zero_sub, Int.natAbs_neg, Int.natAbs_natCast] at h3
  omega

/-- The float that is read is about the number. -/
theorem took_close {pos : Bool} {D : Nat} {k e : Int} {b : Nat} (hb : b < f64Format.inf) (h : Took pos D k e (signed pos b))
    {L : Nat} (hD : D < 10 ^ L) (hL : (L : Int) + k ≤ 2 ^ 30) :
    |val b - D * 10 ^ (k + e)| ≤ D * 10 ^ (k + e) / 10 ^ 15 + 1 / 10 ^ 323 := by
  obtain ⟨sig, start, hk, h1, h2⟩ := h
  have hq : (0 : ℚ) ≤ D * 10 ^ (k + e) := mul_nonneg (by positivity) (ten_pos _).le
  have h323 : (0 : ℚ) ≤ 1 / 10 ^ 323 := by positivity
  have same : ∀ {g : Nat}, g < f64Format.inf → signed pos g = signed pos b → g = b := by
    intro g hg h
    have := congrArg UInt64.toNat h
    rw [signed_toNat pos hb, signed_toNat pos hg] at this
    split at this <;> omega
  have zero : D = 0 → b = 0 → |val b - D * 10 ^ (k + e)| ≤ D * 10 ^ (k + e) / 10 ^ 15 + 1 / 10 ^ 323 := by
    rintro rfl rfl
    rw [val_zero]
    simp
  rcases lt_or_ge (|e|) (2 ^ 31) with he | he
  · have h1 := h1 he
    unfold fromParts at h1
    rw [Option.map_eq_some_iff] at h1
    obtain ⟨g, hg, hgb⟩ := h1
    have hs : sig < 2 ^ 64 := by obtain ⟨_, hs, _⟩ := hk; exact hs
    obtain rfl := same (scale_fin (castNat_fin hs) hg) hgb
    rcases Nat.eq_zero_or_pos sig with h0 | h0
    · refine zero (hk.zero h0) ?_
      subst h0
      rw [show f64Format.castNat 0 = 0 by decide +kernel] at hg
      exact scale_zero hg
    · have hc := scale_close h0 hs hg
      have hn := hk.close (e := e)
      have ht := two_tiny
      generalize (sig : ℚ) * 10 ^ (start + e) = S at *
      generalize (D : ℚ) * 10 ^ (k + e) = Q at *
      have hS : S ≤ Q + Q / 10 ^ 18 := by linarith [(abs_le.mp hn).2]
      have ho : 6 * once * S ≤ 6 * once * (Q + Q / 10 ^ 18) := mul_le_mul_of_nonneg_left hS (by unfold once; norm_num)
      have ho2 : 6 * once * (Q + Q / 10 ^ 18) + Q / 10 ^ 18 ≤ Q / 10 ^ 15 := by
        have : 6 * once * (1 + 1 / 10 ^ 18) + 1 / 10 ^ 18 ≤ (1 : ℚ) / 10 ^ 15 := by unfold once; norm_num
        have := mul_le_mul_of_nonneg_right this hq
        ring_nf at this ⊢
        linarith
      calc |val g - Q| = |(val g - S) + (S - Q)| := by ring_nf
        _ ≤ |val g - S| + |S - Q| := abs_add_le _ _
        _ ≤ Q / 10 ^ 15 + 1 / 10 ^ 323 := by
          clear hD
          generalize (1 : ℚ) / 10 ^ 323 = T at *
          linarith
  · obtain ⟨h3, h4⟩ := h2 he
    have hb0 : b = 0 := (same (by decide +kernel) h3.symm).symm
    rcases h4 with h4 | h4
    · exact zero (hk.zero h4) hb0
    · subst hb0
      rw [val_zero, zero_sub, abs_neg, abs_of_nonneg hq]
      have hDq : (D : ℚ) ≤ 10 ^ (L : Int) := by rw [zpow_natCast]; exact_mod_cast hD.le
      have : (D : ℚ) * 10 ^ (k + e) ≤ 1 / 10 ^ 323 := by
        calc (D : ℚ) * 10 ^ (k + e) ≤ 10 ^ (L : Int) * 10 ^ (k + e) := mul_le_mul_of_nonneg_right hDq (ten_pos _).le
          _ = 10 ^ (L + (k + e)) := by rw [← zpow_add₀ (by norm_num)]
          _ ≤ 10 ^ (-323 : Int) := by
            refine zpow_le_zpow_right₀ (by norm_num) ?_
            rw [abs_of_neg h4] at he
            omega
          _ = 1 / 10 ^ 323 := by rw [zpow_neg, one_div]; rfl
      have : (0 : ℚ) ≤ D * 10 ^ (k + e) / 10 ^ 15 := by positivity
      linarith

theorem realValue_nonneg (int frac : List Char) (e : Int) : 0 ≤ realValue int frac e :=
  mul_nonneg (by positivity) (ten_pos _).le

theorem close_signed {pos : Bool} {b : Nat} (hb : b < f64Format.inf) {q : ℚ} (hq : 0 ≤ q)
    (h : |val b - q| ≤ q / 10 ^ 15 + 1 / 10 ^ 323) : Close (signed pos b) (if pos then q else -q) := by
  unfold Close
  rw [f64Value_signed pos hb]
  cases pos with
  | true => simpa [abs_of_nonneg hq] using h
  | false =>
    simp only [Bool.false_eq_true, if_false, abs_neg, abs_of_nonneg hq]
    rw [show -val b - -q = -(val b - q) by ring, abs_neg]
    exact h

theorem digits_lt {ds : List Char} (h : ∀ c ∈ ds, c ∈ decimalDigits) : digitsValue ds < 10 ^ ds.length := by
  have := (dig_bounds 0 h).2
  rw [digitsValue_eq]
  simpa using this

theorem real_lengths {t int frac : List Char} {e : Int} (h : JsonReal t int frac e) :
    int.length + frac.length ≤ t.length ∧ ∀ c ∈ int ++ frac, c ∈ decimalDigits := by
  obtain ⟨fr, ex, rfl, hw, hf, _⟩ := h
  refine ⟨?_, fun c hc => ?_⟩
  · have : frac.length ≤ fr.length := by
      rcases hf with ⟨rfl, rfl⟩ | ⟨_, rfl⟩
      · exact le_refl _
      · simp
    simp only [List.length_append]
    omega
  · rcases List.mem_append.mp hc with hc | hc
    · exact hw.1.2 c hc
    · exact fraction_digits hf c hc

/-- A number that is read is about the one that is written. -/
theorem number_close {pos : Bool} {cs : List Char} {n : SJNumber} {rest : List Char} (h : number pos cs = some (n, rest)) :
    ∃ t, cs = t ++ rest ∧ JsonClose (if pos then t else '-' :: t) n := by
  obtain ⟨int, hw, h1 | ⟨t, frac, e, r, h1, h2, h3, h4, ⟨b, hb, hr⟩, h6⟩⟩ := number_shape h
  · obtain ⟨rfl, h2, rfl⟩ := h1
    refine ⟨int, rfl, ?_⟩
    unfold integerEnd
    cases pos with
    | true => exact .posInt hw h2
    | false =>
      simp only [Bool.false_eq_true, if_false]
      split
      · rename_i hbig
        have hfin := castNat_fin h2
        refine .negFloat (int := int) (frac := []) (e := 0) ⟨[], [], by simp, hw, .inl ⟨rfl, rfl⟩, .none⟩
          (fun _ => hbig) (signed_finite false hfin) ?_ ?_
        · rw [signed_toNat false hfin, if_neg (by decide)]
          omega
        · intro _
          refine close_signed (pos := false) hfin (realValue_nonneg _ _ _) ?_
          have hc := castNat_near h2
          have hv : realValue int [] 0 = (digitsValue int : ℚ) := by unfold realValue; simp
          rw [hv]
          have h5 : once * digitsValue int ≤ 1 / 10 ^ 15 * (digitsValue int : ℚ) :=
            mul_le_mul_of_nonneg_right (by unfold once; norm_num) (by positivity)
          have h323 : (0 : ℚ) ≤ 1 / 10 ^ 323 := by positivity
          generalize (1 : ℚ) / 10 ^ 323 = T at *
          refine hc.trans (h5.trans ?_)
          rw [one_div_mul_eq_div]
          linarith
      · rename_i hsmall
        exact .negInt hw (by omega) (by omega)
  · subst h4 hr
    refine ⟨t, h2, ?_⟩
    have near : t.length ≤ 2 ^ 30 → Close (signed pos b) (if pos then realValue int frac e else -realValue int frac e) := by
      intro hl
      obtain ⟨hlen, hd⟩ := real_lengths h1
      refine close_signed hb (realValue_nonneg _ _ _) ?_
      have := took_close hb h6 (L := (int ++ frac).length) (digits_lt hd) (by
        simp only [List.length_append]
        omega)
      rw [neg_add_eq_sub] at this
      exact this
    cases pos with
    | true =>
      refine .posFloat h1 h3 (signed_finite true hb) ?_ near
      rw [signed_toNat true hb, if_pos rfl]
      rw [inf_val] at hb
      omega
    | false =>
      refine .negFloat h1 (fun h => .inr ?_) (signed_finite false hb) ?_ near
      · have := h3 h
        omega
      · rw [signed_toNat false hb, if_neg (by decide)]
        omega

/-! ## What fits a float -/

/-- The bound is a little below the largest float. -/
theorem fits_max : (1797601 : ℚ) * 10 ^ 302 ≤ val (f64Format.inf - 1) := by
  have h : 1797601 * 10 ^ 302 * 2 ^ f64Format.scale ≤ f64Format.mag (f64Format.inf - 1) := by decide +kernel
  have hU := unit_pos
  unfold val
  generalize f64Format.mag (f64Format.inf - 1) = M at *
  rw [le_div_iff₀ hU]
  generalize 2 ^ f64Format.scale = U at *
  exact_mod_cast h

theorem fromParts_fits (pos : Bool) {sig : Nat} {e : Int} (hs : sig < 2 ^ 64)
    (h : (sig : ℚ) * 10 ^ e ≤ 1797600001 * 10 ^ 299) : ∃ r, fromParts pos sig e = some r := by
  rcases le_or_gt e 280 with he | he
  · obtain ⟨b, _, hb⟩ := fromParts_ok pos hs he
    exact ⟨_, hb⟩
  have hc := castNat_near hs
  unfold fromParts
  suffices hx : ∃ g, scale (e.natAbs / 308 + 1) (f64Format.castNat sig) e = some g by
    obtain ⟨g, hg⟩ := hx
    exact ⟨_, by rw [hg]; rfl⟩
  unfold scale
  split
  · rename_i hk
    rw [if_pos (by omega)]
    simp only
    have hfin : f64Format.mul (f64Format.castNat sig) (pow10 e.natAbs) < f64Format.inf := by
      refine lt_of_le_of_lt (b := f64Format.inf - 1) ?_ (by decide +kernel)
      refine ofRatio_le (by decide +kernel) (by positivity) ?_
      have hm := fits_max
      have h1 := near_mul (by positivity) (show (0 : ℚ) < 10 ^ e.natAbs by positivity) hc (pow10_once hk)
      have e1 : (10 : ℚ) ^ e.natAbs = 10 ^ e := by
        rw [← zpow_natCast]
        congr 1
        omega
      rw [e1] at h1
      have h0 : (0 : ℚ) ≤ sig * 10 ^ e := mul_nonneg (by positivity) (ten_pos e).le
      have h2 : (once + once + once * once) * ((sig : ℚ) * 10 ^ e) ≤ 1 / 10 ^ 9 * (sig * 10 ^ e) :=
        mul_le_mul_of_nonneg_right (by unfold once; norm_num) h0
      have h3 : val (f64Format.castNat sig) * val (pow10 e.natAbs) ≤ val (f64Format.inf - 1) := by
        have h4 := (abs_le.mp h1).2
        have e2 : (10 : ℚ) ^ 302 = 10 ^ 3 * 10 ^ 299 := by rw [← pow_add]
        rw [e2] at hm
        generalize (sig : ℚ) * 10 ^ e = S at *
        have h5 : (0 : ℚ) ≤ 10 ^ 299 := by positivity
        generalize (10 : ℚ) ^ 299 = T at *
        linarith
      unfold val at h3
      have hU := unit_pos
      rw [Nat.two_mul, Nat.pow_add]
      clear hm h1 h2 hc
      generalize f64Format.mag (f64Format.inf - 1) = M at *
      generalize f64Format.mag (f64Format.castNat sig) = F at *
      generalize f64Format.mag (pow10 e.natAbs) = P at *
      generalize 2 ^ f64Format.scale = U at *
      have h4 : (F : ℚ) * P * U ≤ M * (U * U) := by
        rw [div_mul_div_comm, div_le_div_iff₀ (mul_pos hU hU) hU] at h3
        exact h3
      exact_mod_cast h4
    rw [if_neg (ne_of_lt hfin)]
    exact ⟨_, rfl⟩
  · rename_i hk
    rcases Nat.eq_zero_or_pos sig with rfl | h0
    · rw [if_pos (by decide +kernel)]
      exact ⟨_, rfl⟩
    · exfalso
      have h1 : (10 : ℚ) ^ 309 ≤ sig * 10 ^ e := by
        calc (10 : ℚ) ^ 309 = 1 * 10 ^ (309 : Int) := by rw [one_mul]; rfl
          _ ≤ sig * 10 ^ e := mul_le_mul (by exact_mod_cast h0) (zpow_le_zpow_right₀ (by norm_num) (by omega)) (ten_pos _).le (by positivity)
      have h2 := h1.trans h
      have h3 : (10 : ℚ) ^ 309 = 10 ^ 10 * 10 ^ 299 := by rw [← pow_add]
      rw [h3] at h2
      have h4 : (0 : ℚ) < 10 ^ 299 := by positivity
      have := le_of_mul_le_mul_right h2 h4
      norm_num at this

/-- Numbers that fit a float are read, whatever follows. -/
theorem number_fits (pos : Bool) {t int frac : List Char} {x : Int} (h : JsonReal t int frac x) (hl : t.length ≤ 2 ^ 30)
    (hs : realValue int frac x ≤ 17976 * 10 ^ 304) : ∃ n, ∀ rest, Stops rest → number pos (t ++ rest) = some (n, rest) := by
  by_cases hint : t = int → 2 ^ 64 ≤ digitsValue int
  · obtain ⟨ex, hx, sig, start, hk, h3⟩ := number_real pos h hint
    have hn := hk.close (e := x)
    have hlen := (real_lengths h).1
    unfold realValue at hs
    rw [neg_add_eq_sub] at hn
    have hq : (0 : ℚ) ≤ digitsValue (int ++ frac) * 10 ^ (x - frac.length) := mul_nonneg (by positivity) (ten_pos _).le
    have hS : (sig : ℚ) * 10 ^ (start + x) ≤ 1797600001 * 10 ^ 299 := by
      have h4 := (abs_le.mp hn).2
      have e2 : (10 : ℚ) ^ 304 = 10 ^ 5 * 10 ^ 299 := by rw [← pow_add]
      rw [e2] at hs
      generalize (digitsValue (int ++ frac) : ℚ) * 10 ^ (x - frac.length) = Q at *
      have h5 : Q / 10 ^ 18 ≤ Q / 10 ^ 10 := div_le_div_of_nonneg_left hq (by positivity) (by norm_num)
      have h6 : (0 : ℚ) ≤ 10 ^ 299 := by positivity
      generalize (sig : ℚ) * 10 ^ (start + x) = S at *
      generalize (10 : ℚ) ^ 299 = T at *
      linarith
    suffices hr : ∃ r, ∀ rest, Stops rest → expOrEnd pos sig start (ex ++ rest) = some (r, rest) by
      obtain ⟨r, hr⟩ := hr
      exact ⟨.float r, fun rest hrest => by rw [h3 rest hrest, hr rest hrest]; rfl⟩
    rcases lt_or_ge (|x|) (2 ^ 31) with hlt | hge
    · have hs' : sig < 2 ^ 64 := by obtain ⟨_, hs, _⟩ := hk; exact hs
      obtain ⟨r, hr⟩ := fromParts_fits pos hs' hS
      exact ⟨r, fun rest hrest => by rw [expOrEnd_reads hx hrest hlt, hr]; rfl⟩
    · refine expOrEnd_far hx hge (fun h0 => ?_)
      by_contra hne
      obtain ⟨drop, _, _, _, rfl⟩ := hk
      rw [abs_of_nonneg h0] at hge
      have h1 : (10 : ℚ) ^ 309 ≤ sig * 10 ^ (-(frac.length : Int) + drop + x) := by
        calc (10 : ℚ) ^ 309 = 1 * 10 ^ (309 : Int) := by rw [one_mul]; rfl
          _ ≤ sig * 10 ^ (-(frac.length : Int) + drop + x) :=
            mul_le_mul (by exact_mod_cast Nat.pos_of_ne_zero hne) (zpow_le_zpow_right₀ (by norm_num) (by omega)) (ten_pos _).le (by positivity)
      have h2 := h1.trans hS
      have h3 : (10 : ℚ) ^ 309 = 10 ^ 10 * 10 ^ 299 := by rw [← pow_add]
      rw [h3] at h2
      have h4 : (0 : ℚ) < 10 ^ 299 := by positivity
      have := le_of_mul_le_mul_right h2 h4
      norm_num at this
  · simp only [Classical.not_imp, not_le] at hint
    obtain ⟨rfl, hv⟩ := hint
    obtain ⟨fr, ex, _, hw, _⟩ := h
    exact ⟨_, fun rest hr => number_integer hw hr hv⟩

/-- Numbers of at most 308 digits in front of the point fit. -/
theorem fits_of_digits {int frac : List Char} {e : Int} (hd : ∀ c ∈ int ++ frac, c ∈ decimalDigits)
    (h : int.length + e ≤ 308) : realValue int frac e ≤ 17976 * 10 ^ 304 := by
  have h1 : (digitsValue (int ++ frac) : ℚ) ≤ 10 ^ (((int ++ frac).length : Nat) : Int) := by
    rw [zpow_natCast]
    exact_mod_cast (digits_lt hd).le
  calc realValue int frac e ≤ 10 ^ (((int ++ frac).length : Nat) : Int) * 10 ^ (e - frac.length) :=
        mul_le_mul_of_nonneg_right h1 (ten_pos _).le
    _ = 10 ^ (int.length + e) := by
      rw [← zpow_add₀ (by norm_num), List.length_append]
      congr 1
      push_cast
      omega
    _ ≤ 10 ^ (308 : Int) := zpow_le_zpow_right₀ (by norm_num) h
    _ = 10 ^ 4 * 10 ^ 304 := by rw [← pow_add]; rfl
    _ ≤ 17976 * 10 ^ 304 := mul_le_mul_of_nonneg_right (by norm_num) (by positivity)

/-- Only numbers that fit are about floats. -/
theorem close_fits {b : UInt64} {q : ℚ} (hb : F64Finite b) (h : Close b q) : |q| ≤ 17977 * 10 ^ 304 := by
  obtain ⟨pos, a, ha, rfl⟩ := finite_signed hb
  unfold Close at h
  rw [f64Value_signed pos ha] at h
  have hm : val a ≤ 17976932 * 10 ^ 301 := by
    refine (val_mono (show a ≤ f64Format.inf - 1 by omega) (by decide +kernel)).trans ?_
    have h : f64Format.mag (f64Format.inf - 1) ≤ 17976932 * 10 ^ 301 * 2 ^ f64Format.scale := by decide +kernel
    have hU := unit_pos
    unfold val
    generalize f64Format.mag (f64Format.inf - 1) = M at *
    rw [div_le_iff₀ hU]
    generalize 2 ^ f64Format.scale = U at *
    exact_mod_cast h
  have hv := val_nonneg a
  have h1 : |if pos then val a else -val a| = val a := by
    split
    · exact abs_of_nonneg hv
    · rw [abs_neg, abs_of_nonneg hv]
  generalize (if pos then val a else -val a) = x at *
  have h2 : |q| ≤ |x| + |x - q| := by
    calc |q| = |x - (x - q)| := by ring_nf
      _ ≤ |x| + |x - q| := abs_sub _ _
  have h3 : (1 : ℚ) / 10 ^ 323 ≤ 10 ^ 301 := by
    rw [div_le_iff₀ (by positivity), ← pow_add]
    exact one_le_pow₀ (by norm_num)
  have e2 : (10 : ℚ) ^ 304 = 10 ^ 3 * 10 ^ 301 := by rw [← pow_add]
  rw [e2]
  have h4 : (0 : ℚ) ≤ 10 ^ 301 := by positivity
  have h5 : |q| / 10 ^ 15 ≤ |q| / 10 ^ 10 := div_le_div_of_nonneg_left (abs_nonneg q) (by positivity) (by norm_num)
  generalize (1 : ℚ) / 10 ^ 323 = E at *
  generalize (10 : ℚ) ^ 301 = T at *
  generalize |q| = Q at *
  clear e2
  rw [h1] at h2
  norm_num at h5 ⊢
  linarith

/-! ## Numbers are unambiguous -/

theorem split_unique {a b a' b' : List Char} (ha : ∀ c ∈ a, c ∈ decimalDigits) (ha' : ∀ c ∈ a', c ∈ decimalDigits)
    (hb : NoDigit b) (hb' : NoDigit b') (h : a ++ b = a' ++ b') : a = a' ∧ b = b' := by
  induction a generalizing a' with
  | nil =>
    cases a' with
    | nil => exact ⟨rfl, h⟩
    | cons c cs => exact absurd (ha' c (by simp)) (hb c (by rw [List.nil_append] at h; rw [h]; rfl))
  | cons c cs ih =>
    cases a' with
    | nil => exact absurd (ha c (by simp)) (hb' c (by rw [List.nil_append] at h; rw [← h]; rfl))
    | cons c' cs' =>
      rw [List.cons_append, List.cons_append, List.cons.injEq] at h
      obtain ⟨h1, h2⟩ := ih (fun x hx => ha x (by simp [hx])) (fun x hx => ha' x (by simp [hx])) h.2
      exact ⟨by rw [h.1, h1], h2⟩

theorem exponent_unique {ex : List Char} {e e' : Int} (h : JsonExponent ex e) (h' : JsonExponent ex e') : e = e' := by
  have hp : ∀ ds : List Char, ¬ JsonDigits ('+' :: ds) := fun ds h => absurd (h.2 '+' (by simp)) (by decide)
  have hm : ∀ ds : List Char, ¬ JsonDigits ('-' :: ds) := fun ds h => absurd (h.2 '-' (by simp)) (by decide)
  cases h with
  | none => cases h'; rfl
  | plain hc hd =>
    cases h' with
    | plain hc' hd' => rfl
    | plus hc' hd' => exact absurd hd (hp _)
    | minus hc' hd' => exact absurd hd (hm _)
  | plus hc hd =>
    cases h' with
    | plain hc' hd' => exact absurd hd' (hp _)
    | plus hc' hd' => rfl
  | minus hc hd =>
    cases h' with
    | plain hc' hd' => exact absurd hd' (hm _)
    | minus hc' hd' => rfl

theorem real_unique {t int frac int' frac' : List Char} {e e' : Int} (h : JsonReal t int frac e)
    (h' : JsonReal t int' frac' e') : int = int' ∧ frac = frac' ∧ e = e' := by
  obtain ⟨fr, ex, rfl, hw, hf, hx⟩ := h
  obtain ⟨fr', ex', heq, hw', hf', hx'⟩ := h'
  have hs : Stops [] := fun c hc => by simp at hc
  have hn := exponent_tail hx hs
  have hn' := exponent_tail hx' hs
  rw [List.append_nil] at hn hn'
  rw [List.append_assoc, List.append_assoc] at heq
  obtain ⟨rfl, h2⟩ := split_unique hw.1.2 hw'.1.2 (fraction_tail hf hn.1) (fraction_tail hf' hn'.1) heq
  rcases hf with ⟨rfl, rfl⟩ | ⟨hd, rfl⟩
  · rcases hf' with ⟨rfl, rfl⟩ | ⟨hd', rfl⟩
    · rw [List.nil_append, List.nil_append] at h2
      subst h2
      exact ⟨rfl, rfl, exponent_unique hx hx'⟩
    · rw [List.nil_append] at h2
      rw [h2] at hn
      exact absurd rfl hn.2
  · rcases hf' with ⟨rfl, rfl⟩ | ⟨hd', rfl⟩
    · rw [List.nil_append] at h2
      rw [← h2] at hn'
      exact absurd rfl hn'.2
    · rw [List.cons_append, List.cons_append, List.cons.injEq] at h2
      obtain ⟨rfl, rfl⟩ := split_unique hd.2 hd'.2 hn.1 hn'.1 h2.2
      exact ⟨rfl, rfl, exponent_unique hx hx'⟩

/-- The characters of numbers. -/
theorem real_chars {t int frac : List Char} {e : Int} (h : JsonReal t int frac e) :
    ∀ c ∈ t, c ∈ decimalDigits ∨ c = '.' ∨ c = 'e' ∨ c = 'E' ∨ c = '+' ∨ c = '-' := by
  obtain ⟨fr, ex, rfl, hw, hf, hx⟩ := h
  intro c hc
  rw [List.mem_append, List.mem_append] at hc
  rcases hc with (hc | hc) | hc
  · exact .inl (hw.1.2 c hc)
  · rcases hf with ⟨rfl, rfl⟩ | ⟨hd, rfl⟩
    · simp at hc
    · rcases List.mem_cons.mp hc with rfl | hc
      · simp
      · exact .inl (hd.2 c hc)
  · cases hx with
    | none => simp at hc
    | plain hc' hd =>
      rcases List.mem_cons.mp hc with rfl | hc
      · rcases hc' with h | h <;> simp [h]
      · exact .inl (hd.2 c hc)
    | plus hc' hd =>
      simp only [List.mem_cons] at hc
      rcases hc with rfl | rfl | hc
      · rcases hc' with h | h <;> simp [h]
      · simp
      · exact .inl (hd.2 c hc)
    | minus hc' hd =>
      simp only [List.mem_cons] at hc
      rcases hc with rfl | rfl | hc
      · rcases hc' with h | h <;> simp [h]
      · simp
      · exact .inl (hd.2 c hc)

end SerdeJson

end Souris
