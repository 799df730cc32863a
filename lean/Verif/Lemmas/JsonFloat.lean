import Verif.Lemmas.JsonNumberRead

/-! # The decimal of a float

Floats that are nearest to decimals of at most 15 digits are printed as decimals that are read as the same
float. -/

namespace Souris

namespace SerdeJson

open FloatFormat

/-- The value of a float without sign. -/
def val (b : Nat) : ℚ := (f64Format.mag b : ℚ) / ((2 ^ f64Format.scale : Nat) : ℚ)

theorem unit_pos : (0 : ℚ) < ((2 ^ f64Format.scale : Nat) : ℚ) := by
  have := Nat.two_pow_pos f64Format.scale
  exact_mod_cast this

theorem ten_pos (k : Int) : (0 : ℚ) < 10 ^ k := zpow_pos (by norm_num) k

theorem roundTo_ratio (d : Nat) (k : Int) : ∃ n m, 0 < m ∧ roundTo d k = f64Format.ofRatio n m ∧ (n : ℚ) / m = d * 10 ^ k := by
  unfold roundTo
  split
  · rename_i hk
    refine ⟨_, _, Nat.one_pos, rfl, ?_⟩
    obtain ⟨m, rfl⟩ := Int.eq_ofNat_of_zero_le hk
    simp
  · rename_i hk
    refine ⟨_, _, by positivity, rfl, ?_⟩
    obtain ⟨m, rfl⟩ : ∃ m : Nat, k = -(m : Int) := ⟨k.natAbs, by omega⟩
    simp [div_eq_mul_inv]

theorem ratio_le {n m n' m' : Nat} (hm : 0 < m) (hm' : 0 < m') (h : (n : ℚ) / m ≤ (n' : ℚ) / m') : n * m' ≤ n' * m := by
  rw [div_le_div_iff₀ (by exact_mod_cast hm) (by exact_mod_cast hm')] at h
  exact_mod_cast h

theorem roundTo_mono {d d' : Nat} {k k' : Int} (h : (d : ℚ) * 10 ^ k ≤ d' * 10 ^ k') : roundTo d k ≤ roundTo d' k' := by
  obtain ⟨n, m, hm, e, hv⟩ := roundTo_ratio d k
  obtain ⟨n', m', hm', e', hv'⟩ := roundTo_ratio d' k'
  rw [e, e']
  exact ofRatio_mono hm hm' (ratio_le hm hm' (by rw [hv, hv']; exact h))

theorem roundTo_congr {d d' : Nat} {k k' : Int} (h : (d : ℚ) * 10 ^ k = d' * 10 ^ k') : roundTo d k = roundTo d' k' :=
  Nat.le_antisymm (roundTo_mono h.le) (roundTo_mono h.ge)

theorem roundTo_le {b d : Nat} {k : Int} (hb : b < f64Format.inf) (h : (d : ℚ) * 10 ^ k ≤ val b) : roundTo d k ≤ b := by
  obtain ⟨n, m, hm, e, hv⟩ := roundTo_ratio d k
  rw [e]
  refine ofRatio_le hb hm (ratio_le hm (Nat.two_pow_pos _) ?_)
  rw [hv]
  exact h

theorem le_roundTo {b d : Nat} {k : Int} (hb : b < f64Format.inf) (h : val b ≤ d * 10 ^ k) : b ≤ roundTo d k := by
  obtain ⟨n, m, hm, e, hv⟩ := roundTo_ratio d k
  rw [e]
  refine le_ofRatio hb hm (ratio_le (Nat.two_pow_pos _) hm ?_)
  rw [hv]
  exact h

/-- A rounded number is at most twice as large. -/
theorem val_roundTo_le {d : Nat} {k : Int} (h : roundTo d k < f64Format.inf) : val (roundTo d k) ≤ 2 * (d * 10 ^ k) := by
  obtain ⟨n, m, hm, e, hv⟩ := roundTo_ratio d k
  rw [e] at h ⊢
  rw [← hv]
  have h0 := (ofRatio_near (F := f64Format) (by decide) hm h 0 (num_grid 0 |> fun g => by simpa [FloatFormat.num, FloatFormat.mag, FloatFormat.neg, FloatFormat.exponent, FloatFormat.mantissa] using g)).1
  have hcast : ((2 : Int) ^ f64Format.scale) = ((2 ^ f64Format.scale : Nat) : Int) := by rw [Nat.cast_pow]; rfl
  rw [hcast] at h0
  unfold val
  generalize f64Format.mag (f64Format.ofRatio n m) = g at h0 ⊢
  have hU := unit_pos
  generalize 2 ^ f64Format.scale = U at h0 hU ⊢
  have h1 : g * m ≤ 2 * (n * U) := by
    have hn : (0 : Int) ≤ (n : Int) * (U : Int) := Int.mul_nonneg (Int.natCast_nonneg _) (Int.natCast_nonneg _)
    rw [zero_mul, zero_sub, abs_neg, abs_of_nonneg hn, abs_le] at h0
    have h2 : (g * m : Int) ≤ 2 * (n * U) := by linarith [h0.2]
    exact_mod_cast h2
  rw [div_le_iff₀ hU]
  have hm' : (0 : ℚ) < m := by exact_mod_cast hm
  have h2 : (g : ℚ) * m ≤ 2 * (n * U) := by exact_mod_cast h1
  rw [show 2 * ((n : ℚ) / m) * U = 2 * (n * U) / m by ring, le_div_iff₀ hm']
  exact h2

/-- A rounded number is at least half as large. -/
theorem le_val_roundTo {d : Nat} {k : Int} (h : roundTo d k < f64Format.inf) (hd : 0 < d) (hk : -300 ≤ k) :
    (d : ℚ) * 10 ^ k ≤ 2 * val (roundTo d k) := by
  obtain ⟨n, m, hm, e, hv⟩ := roundTo_ratio d k
  rw [e] at h ⊢
  rw [← hv]
  have hm' : (0 : ℚ) < m := by exact_mod_cast hm
  have hU := unit_pos
  have h1 : m ≤ n * 2 ^ f64Format.scale := by
    have hd' : (1 : ℚ) ≤ d := by exact_mod_cast hd
    have hsmall : (1 : ℚ) ≤ 10 ^ k * ((2 ^ f64Format.scale : Nat) : ℚ) := by
      have h1 : (10 : ℚ) ^ (-300 : Int) ≤ 10 ^ k := zpow_le_zpow_right₀ (by norm_num) hk
      have h2 : (10 : Nat) ^ 300 ≤ 2 ^ f64Format.scale := by decide +kernel
      generalize 2 ^ f64Format.scale = U at h2 hU ⊢
      have h3 : ((10 : ℚ) ^ (300 : Nat)) ≤ U := by
        have := (Nat.cast_le (α := ℚ)).mpr h2
        rwa [Nat.cast_pow, Nat.cast_ofNat] at this
      have h4 : (10 : ℚ) ^ (-300 : Int) * 10 ^ (300 : Nat) = 1 := by
        rw [← zpow_natCast, ← zpow_add₀ (by norm_num)]
        rfl
      calc (1 : ℚ) = 10 ^ (-300 : Int) * 10 ^ (300 : Nat) := h4.symm
        _ ≤ 10 ^ k * U := mul_le_mul h1 h3 (by positivity) (ten_pos k).le
    have h2 : (1 : ℚ) ≤ (n : ℚ) / m * ((2 ^ f64Format.scale : Nat) : ℚ) := by
      rw [hv, mul_assoc]
      calc (1 : ℚ) ≤ 10 ^ k * ((2 ^ f64Format.scale : Nat) : ℚ) := hsmall
        _ ≤ d * (10 ^ k * ((2 ^ f64Format.scale : Nat) : ℚ)) := le_mul_of_one_le_left (by linarith) hd'
    generalize 2 ^ f64Format.scale = U at h2 ⊢
    rw [div_mul_eq_mul_div, le_div_iff₀ hm', one_mul] at h2
    exact_mod_cast h2
  have h2 := half_le_mag hm h h1
  unfold val
  generalize f64Format.mag (f64Format.ofRatio n m) = g at h2 ⊢
  generalize 2 ^ f64Format.scale = U at h2 hU ⊢
  rw [show 2 * ((g : ℚ) / U) = 2 * g / U by ring, div_le_div_iff₀ hm' hU]
  exact_mod_cast h2

/-! ## Digits -/

theorem units_spec (b : Nat) (k : Int) :
    ((units b k).1 : ℚ) * 10 ^ k ≤ val b ∧ val b < ((units b k).1 + 1) * 10 ^ k := by
  have hU := Nat.two_pow_pos f64Format.scale
  have hs : f64Format.scale = 1074 := rfl
  unfold units val
  rw [← hs]
  split
  · rename_i hk
    obtain ⟨m, rfl⟩ := Int.eq_ofNat_of_zero_le hk
    simp only [Int.natAbs_natCast, zpow_natCast]
    generalize f64Format.mag b = g
    generalize 2 ^ f64Format.scale = U at hU ⊢
    have hU' : (0 : ℚ) < U := by exact_mod_cast hU
    have h1 := Nat.div_mul_le_self g (U * 10 ^ m)
    have h2 := Nat.lt_div_mul_add (a := g) (b := U * 10 ^ m) (by positivity)
    rw [le_div_iff₀ hU', div_lt_iff₀ hU']
    constructor
    · have : ((g / (U * 10 ^ m) * (U * 10 ^ m) : Nat) : ℚ) ≤ g := by exact_mod_cast h1
      push_cast at this ⊢
      linarith
    · have : (g : ℚ) < ((g / (U * 10 ^ m) * (U * 10 ^ m) + U * 10 ^ m : Nat) : ℚ) := by exact_mod_cast h2
      push_cast at this ⊢
      linarith
  · rename_i hk
    obtain ⟨m, rfl⟩ : ∃ m : Nat, k = -(m : Int) := ⟨k.natAbs, by omega⟩
    simp only [Int.natAbs_neg, Int.natAbs_natCast, zpow_neg, zpow_natCast]
    generalize f64Format.mag b = g
    generalize 2 ^ f64Format.scale = U at hU ⊢
    have hU' : (0 : ℚ) < U := by exact_mod_cast hU
    have h1 := Nat.div_mul_le_self (g * 10 ^ m) U
    have h2 := Nat.lt_div_mul_add (a := g * 10 ^ m) (b := U) hU
    have hp : (0 : ℚ) < 10 ^ m := by positivity
    rw [← div_eq_mul_inv, ← div_eq_mul_inv, div_le_div_iff₀ hp hU', div_lt_div_iff₀ hU' hp]
    constructor
    · have : ((g * 10 ^ m / U * U : Nat) : ℚ) ≤ ((g * 10 ^ m : Nat) : ℚ) := by exact_mod_cast h1
      push_cast at this ⊢
      exact this
    · have : ((g * 10 ^ m : Nat) : ℚ) < ((g * 10 ^ m / U * U + U : Nat) : ℚ) := by exact_mod_cast h2
      push_cast at this ⊢
      linarith

theorem tryUnit_spec {b d : Nat} {k : Int} (h : tryUnit b k = some d) :
    roundTo d k = b ∧ (d : ℚ) * 10 ^ k ≤ val b + 10 ^ k := by
  have hu := (units_spec b k).1
  have hp := ten_pos k
  unfold tryUnit at h
  have key : d ≤ (units b k).1 + 1 → (d : ℚ) * 10 ^ k ≤ val b + 10 ^ k := by
    intro hd
    have : (d : ℚ) ≤ (units b k).1 + 1 := by exact_mod_cast hd
    nlinarith
  generalize hx : units b k = x at *
  obtain ⟨q, r, D⟩ := x
  simp only at h key
  split_ifs at h <;> simp only [Option.some.injEq] at h <;> subst h <;> exact ⟨by assumption, key (by omega)⟩

theorem tryUnit_some {b y : Nat} {k : Int} (hb : b < f64Format.inf) (h : roundTo y k = b) : ∃ d, tryUnit b k = some d := by
  obtain ⟨hu1, hu2⟩ := units_spec b k
  have hp := ten_pos k
  have hor : roundTo (units b k).1 k = b ∨ roundTo ((units b k).1 + 1) k = b := by
    rcases Nat.lt_or_ge (units b k).1 y with hy | hy
    · right
      have hc : (((units b k).1 + 1 : Nat) : ℚ) = (units b k).1 + 1 := Nat.cast_succ _
      refine Nat.le_antisymm ?_ (le_roundTo hb (by rw [hc]; exact hu2.le))
      conv_rhs => rw [← h]
      refine roundTo_mono ?_
      have : (((units b k).1 + 1 : Nat) : ℚ) ≤ y := Nat.cast_le.mpr hy
      exact mul_le_mul_of_nonneg_right this hp.le
    · left
      refine Nat.le_antisymm (roundTo_le hb hu1) ?_
      conv_lhs => rw [← h]
      refine roundTo_mono ?_
      have : (y : ℚ) ≤ (units b k).1 := Nat.cast_le.mpr hy
      exact mul_le_mul_of_nonneg_right this hp.le
  clear hb hu1 hu2 hp h
  unfold tryUnit
  generalize units b k = x at *
  obtain ⟨q, r, D⟩ := x
  simp only at hor ⊢
  by_cases hC : D < 2 * r ∨ (2 * r = D ∧ q % 2 = 1)
  · rw [if_pos hC, if_pos hC]
    generalize roundTo q k = A at hor ⊢
    generalize roundTo (q + 1) k = B at hor ⊢
    split_ifs with h1 h2
    · exact ⟨_, rfl⟩
    · exact ⟨_, rfl⟩
    · exact absurd hor (by simp [h1, h2])
  · rw [if_neg hC, if_neg hC]
    generalize roundTo q k = A at hor ⊢
    generalize roundTo (q + 1) k = B at hor ⊢
    split_ifs with h1 h2
    · exact ⟨_, rfl⟩
    · exact ⟨_, rfl⟩
    · exact absurd hor (by simp [h1, h2])

theorem firstDigit_spec {b : Nat} {t0 : Int} (h : (10 : ℚ) ^ t0 ≤ val b) (h0 : -323 ≤ t0) (fuel : Nat) (hf : t0 + 323 < fuel) :
    t0 ≤ firstDigit b fuel ∧ (10 : ℚ) ^ firstDigit b fuel ≤ val b := by
  induction fuel with
  | zero => omega
  | succ fuel ih =>
    unfold firstDigit
    simp only
    obtain ⟨hu1, hu2⟩ := units_spec b ((fuel : Int) - 323)
    split_ifs with hz
    · refine ih ?_
      by_contra hc
      have : t0 = (fuel : Int) - 323 := by push_cast at hf; omega
      rw [hz, ← this] at hu2
      simp at hu2
      linarith
    · refine ⟨by push_cast at hf; omega, ?_⟩
      have : (1 : ℚ) ≤ (units b ((fuel : Int) - 323)).1 := by exact_mod_cast Nat.one_le_iff_ne_zero.mpr hz
      have hp := ten_pos ((fuel : Int) - 323)
      nlinarith

theorem searchDigits_spec {b : Nat} {t k0 : Int} {y : Nat} (hb : b < f64Format.inf) (hy : roundTo y k0 = b) (hlo : t - 16 ≤ k0)
    (fuel : Nat) (hf : fuel ≤ 17) (hhi : k0 ≤ t - (17 - fuel)) :
    ∃ k', k0 ≤ k' ∧ k' ≤ t ∧ k' ≤ (searchDigits b t fuel).2 ∧ (searchDigits b t fuel).2 ≤ k' + 1 ∧
      roundTo (searchDigits b t fuel).1 (searchDigits b t fuel).2 = b ∧
      ((searchDigits b t fuel).1 : ℚ) * 10 ^ (searchDigits b t fuel).2 ≤ val b + 10 ^ k' := by
  induction fuel with
  | zero => push_cast at hhi; omega
  | succ fuel ih =>
    unfold searchDigits
    simp only
    have hk : t - (17 - ((fuel + 1 : Nat) : Int)) ≤ t := by push_cast; omega
    cases hu : tryUnit b (t - (17 - ((fuel + 1 : Nat) : Int))) with
    | none =>
      simp only
      refine ih (by omega) ?_
      have : k0 ≠ t - (17 - ((fuel + 1 : Nat) : Int)) := by
        rintro rfl
        obtain ⟨d, hd⟩ := tryUnit_some hb hy
        rw [hd] at hu
        cases hu
      push_cast at this hhi ⊢
      omega
    | some d =>
      obtain ⟨h1, h2⟩ := tryUnit_spec hu
      simp only
      generalize t - (17 - ((fuel + 1 : Nat) : Int)) = k at *
      split_ifs with hfix
      · obtain ⟨rfl, -⟩ := hfix
        have e : ((1 : Nat) : ℚ) * 10 ^ (k + 1) = ((10 : Nat) : ℚ) * 10 ^ k := by
          rw [zpow_add₀ (by norm_num)]
          push_cast
          ring
        exact ⟨k, hhi, hk, by simp, by simp, by rw [← h1]; exact roundTo_congr e, by rw [e]; exact h2⟩
      · exact ⟨k, hhi, hk, le_refl _, by simp, h1, h2⟩

/-! ## Decimals of at most 15 digits -/

/-- What is printed for a float that is nearest to a decimal of at most 15 digits. -/
theorem shortest_spec {b m e : Nat} (hb : b < f64Format.inf) (hm0 : 0 < m) (hm : m < 10 ^ 15) (he : e ≤ 21)
    (hr : roundTo m (-(e : Int)) = b) :
    roundTo (shortest b).1 (shortest b).2 = b ∧ (shortest b).1 < 2 ^ 53 ∧ (shortest b).2.natAbs ≤ 22 ∧
      (0 ≤ (shortest b).2 → (shortest b).1 * 5 ^ ((shortest b).2.natAbs + 1) < 2 ^ 53) := by
  have hmq : (1 : ℚ) ≤ m := by exact_mod_cast hm0
  have hmq' : (m : ℚ) ≤ 10 ^ 15 := by
    have : (m : ℚ) ≤ ((10 ^ 15 : Nat) : ℚ) := Nat.cast_le.mpr hm.le
    rwa [Nat.cast_pow, Nat.cast_ofNat] at this
  have hfin : roundTo m (-(e : Int)) < f64Format.inf := by rw [hr]; exact hb
  have hup : val b ≤ 2 * (m * 10 ^ (-(e : Int))) := by
    have := val_roundTo_le hfin
    rwa [hr] at this
  have hlo : (m : ℚ) * 10 ^ (-(e : Int)) ≤ 2 * val b := by
    have := le_val_roundTo hfin hm0 (by omega)
    rwa [hr] at this
  have hE := ten_pos (-(e : Int))
  have h15 : val b ≤ 2 * 10 ^ (15 - (e : Int)) := by
    have : (10 : ℚ) ^ (15 - (e : Int)) = 10 ^ 15 * 10 ^ (-(e : Int)) := by
      rw [sub_eq_add_neg, zpow_add₀ (by norm_num)]
      rfl
    rw [this]
    nlinarith
  -- the value is at most 10^15
  have hV : val b ≤ 10 ^ 15 := by
    have hle : b ≤ f64Format.castNat (10 ^ 15) := by
      rw [castNat_ratio (by decide), ← hr]
      have h1 : f64Format.ofRatio (10 ^ 15) 1 = roundTo (10 ^ 15) 0 := by
        unfold roundTo
        rw [if_pos (le_refl _), Int.natAbs_zero, pow_zero, mul_one]
      rw [h1]
      refine roundTo_mono ?_
      have h2 : (10 : ℚ) ^ (-(e : Int)) ≤ 1 := by
        have : (10 : ℚ) ^ (-(e : Int)) ≤ 10 ^ (0 : Int) := zpow_le_zpow_right₀ (by norm_num) (by omega)
        simpa using this
      rw [zpow_zero, mul_one, Nat.cast_pow, Nat.cast_ofNat]
      exact le_trans (mul_le_of_le_one_right (by linarith only [hmq]) h2) hmq'
    have hmag := castNat_mag (n := 10 ^ 15) (c := 10 ^ 15) (j := 0) (by decide) (by decide) (by decide) (by decide)
    have hmono := mag_mono hle (castNat_fin (by decide))
    rw [hmag] at hmono
    unfold val
    have hU := unit_pos
    generalize 2 ^ f64Format.scale = U at hmono hU ⊢
    rw [div_le_iff₀ hU]
    exact_mod_cast hmono
  -- the first digit
  have ht0 : (10 : ℚ) ^ (-(e : Int) - 1) ≤ val b := by
    have : (10 : ℚ) ^ (-(e : Int) - 1) = 10 ^ (-(e : Int)) / 10 := by
      rw [zpow_sub₀ (by norm_num)]
      simp
    rw [this]
    nlinarith
  obtain ⟨ht1, ht2⟩ := firstDigit_spec ht0 (by omega) 632 (by omega)
  have htE : (10 : ℚ) ^ (-(e : Int)) ≤ val b → -(e : Int) ≤ firstDigit b 632 := fun h =>
    (firstDigit_spec h (by omega) 632 (by omega)).1
  unfold shortest
  generalize firstDigit b 632 = t at *
  have ht3 : t ≤ 15 - (e : Int) := by
    by_contra hc
    have h1 : (10 : ℚ) ^ (16 - (e : Int)) ≤ 10 ^ t := zpow_le_zpow_right₀ (by norm_num) (by omega)
    have h2 : (10 : ℚ) ^ (16 - (e : Int)) = 10 * 10 ^ (15 - (e : Int)) := by
      rw [show 16 - (e : Int) = 1 + (15 - e) by ring, zpow_add₀ (by norm_num)]
      rfl
    have := ten_pos (15 - (e : Int))
    linarith
  -- the unit at which the search ends at the latest
  obtain ⟨k0, y, hy, hk1, hk2, hk3, hk4⟩ : ∃ k0 y, roundTo y k0 = b ∧ -(e : Int) - 1 ≤ k0 ∧ k0 ≤ t ∧ t - 16 ≤ k0 ∧
      val b ≤ 2 * 10 ^ 15 * 10 ^ k0 := by
    by_cases hc : -(e : Int) ≤ t
    · refine ⟨-e, m, hr, by omega, hc, by omega, ?_⟩
      have : (10 : ℚ) ^ (15 - (e : Int)) = 10 ^ 15 * 10 ^ (-(e : Int)) := by
        rw [sub_eq_add_neg, zpow_add₀ (by norm_num)]
        rfl
      rw [this] at h15
      linarith
    · have hlt : val b < 10 ^ (-(e : Int)) := by
        by_contra h
        exact hc (htE (by linarith))
      have e1 : t = -(e : Int) - 1 := by omega
      have e2 : (10 : ℚ) ^ (-(e : Int)) = 10 * 10 ^ t := by
        rw [e1, show -(e : Int) = 1 + (-(e : Int) - 1) by ring, zpow_add₀ (by norm_num)]
        simp
      refine ⟨t, 10 * m, ?_, by omega, le_refl _, by omega, ?_⟩
      · rw [← hr]
        refine roundTo_congr ?_
        rw [e2]
        push_cast
        ring
      · have := ten_pos t
        nlinarith
  obtain ⟨k', g1, g2, g3, g4, g5, g6⟩ := searchDigits_spec hb hy hk3 17 (le_refl _) (by simpa using hk2)
  generalize searchDigits b t 17 = dk at *
  obtain ⟨d, k⟩ := dk
  simp only at g3 g4 g5 g6 ⊢
  have hp := ten_pos k'
  have hk'0 : (10 : ℚ) ^ k0 ≤ 10 ^ k' := zpow_le_zpow_right₀ (by norm_num) g1
  have hk'k : (10 : ℚ) ^ k' ≤ 10 ^ k := zpow_le_zpow_right₀ (by norm_num) g3
  refine ⟨g5, ?_, by omega, fun hk => ?_⟩
  · have h1 : (d : ℚ) * 10 ^ k' ≤ (2 * 10 ^ 15 + 1) * 10 ^ k' := by
      have : (d : ℚ) * 10 ^ k' ≤ d * 10 ^ k := mul_le_mul_of_nonneg_left hk'k (by positivity)
      nlinarith
    have h2 : (d : ℚ) ≤ 2 * 10 ^ 15 + 1 := le_of_mul_le_mul_right h1 hp
    have h3 : d ≤ 2 * 10 ^ 15 + 1 := by exact_mod_cast h2
    omega
  · obtain ⟨n, rfl⟩ := Int.eq_ofNat_of_zero_le hk
    simp only [Int.natAbs_natCast]
    cases n with
    | zero =>
      have h1 : (10 : ℚ) ^ k' ≤ 1 := by
        have := hk'k
        simpa using this
      have h2 : (d : ℚ) ≤ 10 ^ 15 + 1 := by
        have : (d : ℚ) * 10 ^ ((0 : Nat) : Int) = d := by simp
        rw [this] at g6
        linarith
      have h3 : d ≤ 10 ^ 15 + 1 := by exact_mod_cast h2
      omega
    | succ n =>
      have h1 : (10 : ℚ) ^ k' ≤ val b := le_trans (zpow_le_zpow_right₀ (by norm_num) g2) ht2
      have h2 : (d : ℚ) * 10 ^ (n + 1) ≤ 2 * 10 ^ 15 := by
        rw [zpow_natCast] at g6
        linarith
      have h3 : d * 10 ^ (n + 1) ≤ 2 * 10 ^ 15 := by exact_mod_cast h2
      have h4 : d * 10 ^ (n + 1) = d * 5 ^ (n + 1) * 2 ^ (n + 1) := by
        rw [Nat.mul_assoc, ← Nat.mul_pow]
      have h5 : d * 5 ^ (n + 1) * 2 ≤ d * 5 ^ (n + 1) * 2 ^ (n + 1) :=
        Nat.mul_le_mul_left _ (by rw [pow_succ]; have := Nat.two_pow_pos n; omega)
      have h6 : d * 5 ^ (n + 1 + 1) = d * 5 ^ (n + 1) * 5 := by ring
      omega

end SerdeJson

end Souris
