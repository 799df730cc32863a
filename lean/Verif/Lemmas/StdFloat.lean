import Verif.Model.StdText
import Verif.Lemmas.JsonFloatText

/-! # The shortest decimal of a float, in any format -/

namespace Souris

namespace StdText

open FloatFormat

variable {F : FloatFormat}

/-- The value of a float without sign. -/
def val (F : FloatFormat) (b : Nat) : ℚ := (F.mag b : ℚ) / ((2 ^ F.scale : Nat) : ℚ)

theorem unit_pos : (0 : ℚ) < ((2 ^ F.scale : Nat) : ℚ) := by
  have := Nat.two_pow_pos F.scale
  exact_mod_cast this

theorem ten_pos (k : Int) : (0 : ℚ) < 10 ^ k := zpow_pos (by norm_num) k

theorem roundTo_ratio (d : Nat) (k : Int) : ∃ n m, 0 < m ∧ roundTo F d k = F.ofRatio n m ∧ (n : ℚ) / m = d * 10 ^ k := by
  unfold roundTo
  split
  · rename_i hk
    refine ⟨_, _, Nat.one_pos, rfl, ?_⟩
    obtain ⟨m, rfl⟩ := Int.eq_ofNat_of_zero_le hk
    simp
  · rename_i hk
    refine ⟨_, _, by positivity, rfl, ?_⟩
    obtain ⟨m, rfl⟩ : ∃ m : Nat, k = -(m : Int) := ⟨k.natAbs, by omega⟩
    simp [div_eq_mul_inv]

theorem roundTo_mono {d d' : Nat} {k k' : Int} (h : (d : ℚ) * 10 ^ k ≤ d' * 10 ^ k') : roundTo F d k ≤ roundTo F d' k' := by
  obtain ⟨n, m, hm, e, hv⟩ := roundTo_ratio (F := F) d k
  obtain ⟨n', m', hm', e', hv'⟩ := roundTo_ratio (F := F) d' k'
  rw [e, e']
  exact ofRatio_mono hm hm' (SerdeJson.ratio_le hm hm' (by rw [hv, hv']; exact h))

theorem roundTo_congr {d d' : Nat} {k k' : Int} (h : (d : ℚ) * 10 ^ k = d' * 10 ^ k') : roundTo F d k = roundTo F d' k' :=
  Nat.le_antisymm (roundTo_mono h.le) (roundTo_mono h.ge)

theorem roundTo_le {b d : Nat} {k : Int} (hb : b < F.inf) (h : (d : ℚ) * 10 ^ k ≤ val F b) : roundTo F d k ≤ b := by
  obtain ⟨n, m, hm, e, hv⟩ := roundTo_ratio (F := F) d k
  rw [e]
  refine ofRatio_le hb hm (SerdeJson.ratio_le hm (Nat.two_pow_pos _) ?_)
  rw [hv]
  exact h

theorem le_roundTo {b d : Nat} {k : Int} (hb : b < F.inf) (h : val F b ≤ d * 10 ^ k) : b ≤ roundTo F d k := by
  obtain ⟨n, m, hm, e, hv⟩ := roundTo_ratio (F := F) d k
  rw [e]
  refine le_ofRatio hb hm (SerdeJson.ratio_le (Nat.two_pow_pos _) hm ?_)
  rw [hv]
  exact h

theorem val_lt {a b : Nat} (h : a < b) (hb : b < F.inf) : val F a < val F b := by
  have hU := unit_pos (F := F)
  have hm := mag_lt h hb
  unfold val
  exact div_lt_div_of_pos_right (Nat.cast_lt.mpr hm) hU

theorem val_nonneg (a : Nat) : 0 ≤ val F a := div_nonneg (Nat.cast_nonneg _) (Nat.cast_nonneg _)

/-- A rounded number is as near as any float. -/
theorem roundTo_near (hm1 : 1 ≤ F.mant) {d : Nat} {k : Int} {c : Nat} (h : roundTo F d k < F.inf) (hc : c < F.inf) :
    |val F (roundTo F d k) - d * 10 ^ k| ≤ |val F c - d * 10 ^ k| := by
  obtain ⟨n, m, hm, e, hv⟩ := roundTo_ratio (F := F) d k
  have hg : Grid F (F.mag c) := by
    have := num_grid (F := F) c
    rwa [num_pos (lt_of_lt_of_le hc (by
      have := inf_eq F
      have hp := Nat.two_pow_pos F.mant
      rw [pow_add, Nat.mul_comm]
      omega))] at this
  rw [e] at h ⊢
  have n1 := (ofRatio_near hm1 hm h (F.mag c) hg).1
  rw [← hv]
  have hcast : ((2 : Int) ^ F.scale) = ((2 ^ F.scale : Nat) : Int) := by rw [Nat.cast_pow]; rfl
  rw [hcast] at n1
  unfold val
  have a1 := SerdeJson.abs_ratio (F.mag (F.ofRatio n m) : Int) (n := n) (d := m) (U := 2 ^ F.scale) hm (Nat.two_pow_pos _)
  have a2 := SerdeJson.abs_ratio (F.mag c : Int) (n := n) (d := m) (U := 2 ^ F.scale) hm (Nat.two_pow_pos _)
  rw [Int.cast_natCast] at a1 a2
  rw [a1, a2]
  refine div_le_div_of_nonneg_right ?_ (mul_nonneg (Nat.cast_nonneg _) (Nat.cast_nonneg _))
  exact_mod_cast n1

/-! ## Digits -/

theorem units_spec (b : Nat) (k : Int) :
    ((units F b k).1 : ℚ) * 10 ^ k ≤ val F b ∧ val F b < ((units F b k).1 + 1) * 10 ^ k := by
  have hU := Nat.two_pow_pos F.scale
  unfold units val
  split
  · rename_i hk
    obtain ⟨m, rfl⟩ := Int.eq_ofNat_of_zero_le hk
    simp only [Int.natAbs_natCast, zpow_natCast]
    generalize F.mag b = g
    generalize 2 ^ F.scale = U at hU ⊢
    have hU' : (0 : ℚ) < U := by exact_mod_cast hU
    have h1 := Nat.div_mul_le_self g (U * 10 ^ m)
    have h2 := Nat.lt_div_mul_add (a := g) (b := U * 10 ^ m) (by positivity)
    rw [le_div_iff₀ hU', div_lt_iff₀ hU']
    constructor
    · have : ((g / (U * 10 ^ m) * (U * 10 ^ m) : Nat) : ℚ) ≤ g := by exact_mod_cast h1
      push_cast at this ⊢
      linarith
    · have : (g : ℚ) < ((g / (U * 10 ^ m) * (U * 10 ^ m) + U * 10 ^ m : Nat) : ℚ) := by exact_mod_cast h2
      push_cast at this ⊢
      linarith
  · rename_i hk
    obtain ⟨m, rfl⟩ : ∃ m : Nat, k = -(m : Int) := ⟨k.natAbs, by omega⟩
    simp only [Int.natAbs_neg, Int.natAbs_natCast, zpow_neg, zpow_natCast]
    generalize F.mag b = g
    generalize 2 ^ F.scale = U at hU ⊢
    have hU' : (0 : ℚ) < U := by exact_mod_cast hU
    have h1 := Nat.div_mul_le_self (g * 10 ^ m) U
    have h2 := Nat.lt_div_mul_add (a := g * 10 ^ m) (b := U) hU
    have hp : (0 : ℚ) < 10 ^ m := by positivity
    rw [← div_eq_mul_inv, ← div_eq_mul_inv, div_le_div_iff₀ hp hU', div_lt_div_iff₀ hU' hp]
    constructor
    · have : ((g * 10 ^ m / U * U : Nat) : ℚ) ≤ ((g * 10 ^ m : Nat) : ℚ) := by exact_mod_cast h1
      push_cast at this ⊢
      exact this
    · have : ((g * 10 ^ m : Nat) : ℚ) < ((g * 10 ^ m / U * U + U : Nat) : ℚ) := by exact_mod_cast h2
      push_cast at this ⊢
      linarith

theorem tryUnit_spec {b d : Nat} {k : Int} (h : tryUnit F b k = some d) :
    roundTo F d k = b ∧ (units F b k).1 ≤ d ∧ d ≤ (units F b k).1 + 1 := by
  unfold tryUnit at h
  generalize hx : units F b k = x at *
  obtain ⟨q, r, D⟩ := x
  simp only at h ⊢
  split_ifs at h <;> simp only [Option.some.injEq] at h <;> subst h <;> exact ⟨by assumption, by omega, by omega⟩

theorem tryUnit_some {b y : Nat} {k : Int} (hb : b < F.inf) (h : roundTo F y k = b) : ∃ d, tryUnit F b k = some d := by
  obtain ⟨hu1, hu2⟩ := units_spec (F := F) b k
  have hp := ten_pos k
  have hor : roundTo F (units F b k).1 k = b ∨ roundTo F ((units F b k).1 + 1) k = b := by
    rcases Nat.lt_or_ge (units F b k).1 y with hy | hy
    · right
      have hc : (((units F b k).1 + 1 : Nat) : ℚ) = (units F b k).1 + 1 := Nat.cast_succ _
      refine Nat.le_antisymm ?_ (le_roundTo hb (by rw [hc]; exact hu2.le))
      conv_rhs => rw [← h]
      refine roundTo_mono ?_
      have : (((units F b k).1 + 1 : Nat) : ℚ) ≤ y := Nat.cast_le.mpr hy
      exact mul_le_mul_of_nonneg_right this hp.le
    · left
      refine Nat.le_antisymm (roundTo_le hb hu1) ?_
      conv_lhs => rw [← h]
      refine roundTo_mono ?_
      have : (y : ℚ) ≤ (units F b k).1 := Nat.cast_le.mpr hy
      exact mul_le_mul_of_nonneg_right this hp.le
  clear hb hu1 hu2 hp h
  unfold tryUnit
  generalize units F b k = x at *
  obtain ⟨q, r, D⟩ := x
  simp only at hor ⊢
  by_cases hC : D ≤ 2 * r
  · rw [if_pos hC, if_pos hC]
    generalize roundTo F q k = A at hor ⊢
    generalize roundTo F (q + 1) k = B at hor ⊢
    split_ifs with h1 h2
    · exact ⟨_, rfl⟩
    · exact ⟨_, rfl⟩
    · exact absurd hor (by simp [h1, h2])
  · rw [if_neg hC, if_neg hC]
    generalize roundTo F q k = A at hor ⊢
    generalize roundTo F (q + 1) k = B at hor ⊢
    split_ifs with h1 h2
    · exact ⟨_, rfl⟩
    · exact ⟨_, rfl⟩
    · exact absurd hor (by simp [h1, h2])

/-! ## Enough digits tell floats apart -/

theorem mag_gap {b : Nat} (hb : b + 1 < F.inf) :
    F.mag (b + 1) ≤ 2 ^ (F.mant + 1) * (F.mag (b + 1) - F.mag b) := by
  obtain ⟨s, q, h1, h2, h3, h4⟩ := decode (F := F) (show b < F.inf by omega)
  have e : b + 1 = s * 2 ^ F.mant + (q + 1) := by omega
  have h5 := mag_code (F := F) (s := s) (q := q + 1) (by omega) (by omega) (by omega)
  rw [e, h5, h4, ← Nat.sub_mul, Nat.add_sub_cancel_left, Nat.one_mul]
  exact Nat.mul_le_mul_right _ (by omega)

theorem val_gap {b : Nat} (hb : b + 1 < F.inf) : val F (b + 1) ≤ 2 ^ (F.mant + 1) * (val F (b + 1) - val F b) := by
  have h := mag_gap hb
  have hlt := mag_lt (F := F) (Nat.lt_succ_self b) hb
  have hU := unit_pos (F := F)
  unfold val
  generalize F.mag (b + 1) = x at *
  generalize F.mag b = y at *
  generalize ((2 ^ F.scale : Nat) : ℚ) = U at *
  have hq : (x : ℚ) ≤ 2 ^ (F.mant + 1) * (x - y) := by
    have : ((x : Nat) : ℚ) ≤ ((2 ^ (F.mant + 1) * (x - y) : Nat) : ℚ) := Nat.cast_le.mpr h
    rw [Nat.cast_mul, Nat.cast_sub (by omega), Nat.cast_pow, Nat.cast_ofNat] at this
    exact this
  rw [← sub_div, ← mul_div_assoc]
  exact (div_le_div_iff_of_pos_right hU).mpr hq

/-- A decimal that is nearer to the float than half the distance to its neighbours is read as the float. -/
theorem close_roundTo (hm1 : 1 ≤ F.mant) {b d : Nat} {k : Int} (hb : b + 2 < F.inf)
    (h : |(d : ℚ) * 10 ^ k - val F (b + 1)| * (2 * 2 ^ (F.mant + 1)) < val F (b + 1)) : roundTo F d k = b + 1 := by
  have g1 := val_gap (F := F) (b := b) (by omega)
  have g2 := val_gap (F := F) (b := b + 1) (by omega)
  have hv := val_lt (F := F) (a := b + 1) (b := b + 2) (by omega) hb
  have hv0 := val_lt (F := F) (a := b) (b := b + 1) (by omega) (by omega)
  have near : ∀ c, roundTo F d k = c → c < F.inf → |val F c - d * 10 ^ k| ≤ |val F (b + 1) - d * 10 ^ k| := by
    intro c e hc
    have := roundTo_near (F := F) hm1 (d := d) (k := k) (c := b + 1) (by rw [e]; exact hc) (by omega)
    rwa [e] at this
  have up := fun h => roundTo_le (F := F) (b := b + 2) (d := d) (k := k) hb h
  have up1 := fun h => roundTo_le (F := F) (b := b + 1) (d := d) (k := k) (by omega) h
  have lo := fun h => le_roundTo (F := F) (b := b) (d := d) (k := k) (by omega) h
  have lo1 := fun h => le_roundTo (F := F) (b := b + 1) (d := d) (k := k) (by omega) h
  have near2 := near (b + 2)
  have near0 := near b
  clear near
  generalize roundTo F d k = r at *
  generalize (d : ℚ) * 10 ^ k = q at *
  have hpos := lt_of_le_of_lt (val_nonneg b) hv0
  generalize val F (b + 1 + 1) = v2 at *
  generalize val F (b + 1) = v1 at *
  generalize val F b = v0 at *
  have hP : (0 : ℚ) < 2 ^ (F.mant + 1) := by positivity
  generalize (2 : ℚ) ^ (F.mant + 1) = P at *
  rcases le_total v1 q with hq | hq
  · rw [abs_of_nonneg (by linarith only [hq])] at h
    have h1 := lo1 hq
    have hx : 2 * (q - v1) < v2 - v1 := by
      have : P * (2 * (q - v1)) < P * (v2 - v1) := by linarith only [h, g2, hv]
      exact lt_of_mul_lt_mul_left this hP.le
    have h2 := up (by linarith only [hx, hq])
    rcases Nat.lt_or_ge r (b + 2) with h3 | h3
    · omega
    · have := near2 (by omega) hb
      rw [abs_of_nonneg (by linarith only [hx, hq]), abs_sub_comm, abs_of_nonneg (by linarith only [hq])] at this
      linarith only [this, hx]
  · rw [abs_of_nonpos (by linarith only [hq])] at h
    have h1 := up1 hq
    have hx : 2 * (v1 - q) < v1 - v0 := by
      have : P * (2 * (v1 - q)) < P * (v1 - v0) := by linarith only [h, g1]
      exact lt_of_mul_lt_mul_left this hP.le
    have h2 := lo (by linarith only [hx, hq])
    rcases Nat.lt_or_ge b r with h3 | h3
    · omega
    · have := near0 (by omega) (by omega)
      rw [abs_of_nonpos (by linarith only [hx, hq]), abs_of_nonneg (by linarith only [hq])] at this
      linarith only [this, hx]

/-- The nearest one of the multiples of `10^k`. -/
theorem nearest_unit (b : Nat) (k : Int) : ∃ y : Nat, |(y : ℚ) * 10 ^ k - val F b| ≤ 10 ^ k / 2 := by
  obtain ⟨h1, h2⟩ := units_spec (F := F) b k
  generalize (units F b k).1 = u at *
  have hp := ten_pos k
  generalize (10 : ℚ) ^ k = p at *
  rcases le_total (val F b - u * p) (p / 2) with h | h
  · exact ⟨u, by rw [abs_le]; constructor <;> linarith only [h, h1, hp]⟩
  · refine ⟨u + 1, ?_⟩
    rw [Nat.cast_succ, abs_le]
    constructor <;> linarith only [h, h2, hp]

/-- What the numbers of a format have to be. -/
structure Right (D : Decimals) : Prop where
  m1 : 1 ≤ D.fmt.mant
  d1 : 1 ≤ D.digits
  /-- enough digits -/
  digits : 2 ^ (D.fmt.mant + 1) < 10 ^ (D.digits - 1)
  /-- the smallest float -/
  lo : 2 ^ D.fmt.scale ≤ D.fmt.mag 1 * 10 ^ D.lo
  lo1 : 1 ≤ D.lo
  /-- the largest float -/
  hi : D.fmt.mag (D.fmt.inf - 1) < 10 ^ D.hi * 2 ^ D.fmt.scale
  inf : 2 ≤ D.fmt.inf
  /-- the largest float has enough digits, too -/
  top : ∃ y, roundTo D.fmt y ((D.hi : Int) - 1 - (D.digits - 1)) = D.fmt.inf - 1
  /-- its first digit -/
  top' : 10 ^ (D.hi - 1) * 2 ^ D.fmt.scale ≤ D.fmt.mag (D.fmt.inf - 1)
  hi1 : 1 ≤ D.hi

/-- The digits suffice. -/
theorem digits_suffice (hm1 : 1 ≤ F.mant) {n : Nat} (hn : 2 ^ (F.mant + 1) < 10 ^ n) {b : Nat} {t : Int} (hb : b + 2 < F.inf)
    (ht : (10 : ℚ) ^ t ≤ val F (b + 1)) : ∃ y : Nat, roundTo F y (t - n) = b + 1 := by
  obtain ⟨y, hy⟩ := nearest_unit (F := F) (b + 1) (t - n)
  refine ⟨y, close_roundTo hm1 hb ?_⟩
  have e : (10 : ℚ) ^ (t - n) = 10 ^ t / 10 ^ n := by
    rw [zpow_sub₀ (by norm_num), zpow_natCast]
  have hp := ten_pos t
  generalize |(y : ℚ) * 10 ^ (t - n) - val F (b + 1)| = x at *
  rw [e] at hy
  generalize val F (b + 1) = v at *
  generalize (10 : ℚ) ^ t = p at *
  have hN : ((2 ^ (F.mant + 1) : Nat) : ℚ) < ((10 ^ n : Nat) : ℚ) := Nat.cast_lt.mpr hn
  rw [Nat.cast_pow, Nat.cast_pow, Nat.cast_ofNat, Nat.cast_ofNat] at hN
  have hP : (0 : ℚ) < 2 ^ (F.mant + 1) := by positivity
  have hT : (0 : ℚ) < 10 ^ n := by positivity
  generalize (2 : ℚ) ^ (F.mant + 1) = P at *
  generalize (10 : ℚ) ^ n = T at *
  have h1 : x * (2 * P) ≤ p * (P / T) := by
    have := mul_le_mul_of_nonneg_right hy (show (0 : ℚ) ≤ 2 * P by linarith only [hP])
    refine this.trans (le_of_eq ?_)
    ring
  have h2 : p * (P / T) < p := by
    have : P / T < 1 := (div_lt_one hT).mpr hN
    nlinarith only [this, hp]
  linarith only [h1, h2, ht]

section

variable {D : Decimals}

theorem firstDigit_le {b : Nat} (h : (10 : ℚ) ^ (-(D.lo : Int)) ≤ val D.fmt b) (fuel : Nat) :
    (10 : ℚ) ^ firstDigit D b fuel ≤ val D.fmt b := by
  induction fuel with
  | zero => exact h
  | succ fuel ih =>
    unfold firstDigit
    simp only
    obtain ⟨hu1, _⟩ := units_spec (F := D.fmt) b ((fuel : Int) + 1 - D.lo)
    split_ifs with hz
    · exact ih
    · have h1 : (1 : ℚ) ≤ (units D.fmt b ((fuel : Int) + 1 - D.lo)).1 := by exact_mod_cast Nat.one_le_iff_ne_zero.mpr hz
      have hp := ten_pos ((fuel : Int) + 1 - D.lo)
      nlinarith only [h1, hp, hu1]

/-- The float is less than ten times its first digit. -/
theorem lt_firstDigit {b : Nat} (fuel : Nat) (h : val D.fmt b < 10 ^ ((fuel : Int) + 1 - D.lo)) :
    val D.fmt b < 10 ^ (firstDigit D b fuel + 1) := by
  induction fuel with
  | zero =>
    unfold firstDigit
    rwa [show -(D.lo : Int) + 1 = ((0 : Nat) : Int) + 1 - D.lo by push_cast; ring]
  | succ fuel ih =>
    unfold firstDigit
    simp only
    obtain ⟨_, hu2⟩ := units_spec (F := D.fmt) b ((fuel : Int) + 1 - D.lo)
    split_ifs with hz
    · refine ih ?_
      rw [hz] at hu2
      simpa using hu2
    · have e : (fuel : Int) + 1 - D.lo + 1 = ((fuel + 1 : Nat) : Int) + 1 - D.lo := by push_cast; ring
      rw [e]
      exact h

/-- What the search for digits finds. -/
theorem searchDigits_spec {b : Nat} {t : Int} {y : Nat} (hb : b < D.fmt.inf) (hy : roundTo D.fmt y (t - (D.digits - 1 : Nat)) = b)
    (hd1 : 1 ≤ D.digits) (fuel : Nat) (h0 : 0 < fuel) (hf : fuel ≤ D.digits) :
    roundTo D.fmt (searchDigits D b t fuel).1 (searchDigits D b t fuel).2 = b := by
  induction fuel with
  | zero => omega
  | succ fuel ih =>
    unfold searchDigits
    simp only
    cases hu : tryUnit D.fmt b (t - (D.digits - ((fuel + 1 : Nat) : Int))) with
    | none =>
      simp only
      refine ih ?_ (by omega)
      rcases Nat.eq_zero_or_pos fuel with rfl | h
      · exfalso
        obtain ⟨d, hd⟩ := tryUnit_some hb hy
        rw [show t - ((D.digits : Int) - ((0 + 1 : Nat) : Int)) = t - (D.digits - 1 : Nat) by push_cast [hd1]; ring, hd] at hu
        cases hu
      · exact h
    | some d =>
      obtain ⟨h1, h2⟩ := tryUnit_spec hu
      simp only
      generalize t - (D.digits - ((fuel + 1 : Nat) : Int)) = k at *
      split_ifs with hfix
      · obtain ⟨rfl, -⟩ := hfix
        rw [← h1]
        refine roundTo_congr ?_
        rw [zpow_add₀ (by norm_num)]
        push_cast
        ring
      · exact h1

theorem val_ge_lo (hR : Right D) {b : Nat} (hb : b < D.fmt.inf) (h0 : 0 < b) : (10 : ℚ) ^ (-(D.lo : Int)) ≤ val D.fmt b := by
  have hU := unit_pos (F := D.fmt)
  have h1 : D.fmt.mag 1 ≤ D.fmt.mag b := mag_mono h0 hb
  have h2 : 2 ^ D.fmt.scale ≤ D.fmt.mag b * 10 ^ D.lo := hR.lo.trans (Nat.mul_le_mul_right _ h1)
  unfold val
  rw [zpow_neg, zpow_natCast, le_div_iff₀ hU, inv_mul_le_iff₀ (by positivity)]
  have : ((2 ^ D.fmt.scale : Nat) : ℚ) ≤ ((D.fmt.mag b * 10 ^ D.lo : Nat) : ℚ) := Nat.cast_le.mpr h2
  rw [Nat.cast_mul, Nat.cast_pow, Nat.cast_pow, Nat.cast_ofNat, Nat.cast_ofNat] at this
  rw [Nat.cast_pow, Nat.cast_ofNat]
  linarith only [this]

theorem val_lt_hi (hR : Right D) {b : Nat} (hb : b < D.fmt.inf) : val D.fmt b < 10 ^ (D.hi : Int) := by
  have hU := unit_pos (F := D.fmt)
  have h1 : D.fmt.mag b ≤ D.fmt.mag (D.fmt.inf - 1) := mag_mono (by omega) (by omega)
  have h2 := lt_of_le_of_lt h1 hR.hi
  unfold val
  rw [zpow_natCast, div_lt_iff₀ hU]
  have := Nat.cast_lt (α := ℚ).mpr h2
  rwa [Nat.cast_mul, Nat.cast_pow, Nat.cast_ofNat] at this

/-- The first digit of a float, and that the digits suffice. -/
theorem firstDigit_facts (hR : Right D) {b : Nat} (hb : b < D.fmt.inf) (h0 : 0 < b) :
    (10 : ℚ) ^ firstDigit D b (D.hi + D.lo - 1) ≤ val D.fmt b ∧ val D.fmt b < 10 ^ (firstDigit D b (D.hi + D.lo - 1) + 1) ∧
    ∃ y, roundTo D.fmt y (firstDigit D b (D.hi + D.lo - 1) - (D.digits - 1 : Nat)) = b := by
  have hv1 := val_ge_lo hR hb h0
  have hv2 := val_lt_hi hR hb
  have hlo1 := hR.lo1
  have hhi1 := hR.hi1
  have ht := firstDigit_le hv1 (D.hi + D.lo - 1)
  have ht' := lt_firstDigit (D := D) (b := b) (D.hi + D.lo - 1)
    (by rwa [show ((D.hi + D.lo - 1 : Nat) : Int) + 1 - D.lo = D.hi by omega])
  refine ⟨ht, ht', ?_⟩
  · obtain ⟨c, rfl⟩ : ∃ c, b = c + 1 := ⟨b - 1, by omega⟩
    rcases Nat.lt_or_ge (c + 2) D.fmt.inf with h | h
    · exact digits_suffice hR.m1 hR.digits h ht
    · have hc : c + 1 = D.fmt.inf - 1 := by omega
      have e : firstDigit D (c + 1) (D.hi + D.lo - 1) = (D.hi : Int) - 1 := by
        have hge : (10 : ℚ) ^ ((D.hi : Int) - 1) ≤ val D.fmt (c + 1) := by
          have hU := unit_pos (F := D.fmt)
          have h3 := Nat.cast_le (α := ℚ).mpr hR.top'
          rw [← hc, Nat.cast_mul, Nat.cast_pow, Nat.cast_ofNat] at h3
          unfold val
          rw [show (D.hi : Int) - 1 = ((D.hi - 1 : Nat) : Int) by omega, zpow_natCast, le_div_iff₀ hU]
          exact h3
        have e1 := (zpow_lt_zpow_iff_right₀ (by norm_num : (1 : ℚ) < 10)).mp (lt_of_le_of_lt ht hv2)
        have e2 := (zpow_lt_zpow_iff_right₀ (by norm_num : (1 : ℚ) < 10)).mp (lt_of_le_of_lt hge ht')
        omega
      obtain ⟨y, hy⟩ := hR.top
      refine ⟨y, ?_⟩
      rw [e, hc, ← hy]
      congr 1
      have := hR.d1
      push_cast [this]
      ring

/-- The digits of a float stand for it. -/
theorem shortest_round (hR : Right D) {b : Nat} (hb : b < D.fmt.inf) (h0 : 0 < b) :
    roundTo D.fmt (shortest D b).1 (shortest D b).2 = b := by
  obtain ⟨_, _, y, hy⟩ := firstDigit_facts hR hb h0
  exact searchDigits_spec hb hy hR.d1 D.digits hR.d1 (le_refl _)

theorem roundTo_zero (hR : Right D) (k : Int) : roundTo D.fmt 0 k = 0 := by
  have := hR.inf
  have h := roundTo_le (F := D.fmt) (b := 0) (d := 0) (k := k) (by omega) (by rw [Nat.cast_zero, zero_mul]; exact val_nonneg 0)
  omega

theorem shortest_pos (hR : Right D) {b : Nat} (hb : b < D.fmt.inf) (h0 : 0 < b) : 0 < (shortest D b).1 := by
  have h := shortest_round hR hb h0
  rcases Nat.eq_zero_or_pos (shortest D b).1 with h1 | h1
  · rw [h1, roundTo_zero hR] at h
    omega
  · exact h1

end

/-! ## No decimal has fewer digits -/

section

variable {D : Decimals}

/-- Where the search ends. -/
theorem searchDigits_first {b : Nat} {t : Int} {y : Nat} (hb : b < D.fmt.inf) (hy : roundTo D.fmt y (t - (D.digits - 1 : Nat)) = b)
    (hd1 : 1 ≤ D.digits) (fuel : Nat) (h0 : 0 < fuel) (hf : fuel ≤ D.digits) :
    ∃ n d, D.digits - fuel < n ∧ n ≤ D.digits ∧ tryUnit D.fmt b (t + 1 - (n : Nat)) = some d ∧
      (∀ n', D.digits - fuel < n' → n' < n → tryUnit D.fmt b (t + 1 - (n' : Nat)) = none) ∧
      searchDigits D b t fuel = (if d = 10 ∧ n = 1 then (1, t + 1) else (d, t + 1 - (n : Nat))) := by
  induction fuel with
  | zero => omega
  | succ fuel ih =>
    have e : t - ((D.digits : Int) - ((fuel + 1 : Nat) : Int)) = t + 1 - ((D.digits - fuel : Nat) : Int) := by
      push_cast [show fuel ≤ D.digits by omega]
      ring
    cases hu : tryUnit D.fmt b (t - (D.digits - ((fuel + 1 : Nat) : Int))) with
    | none =>
      have hpos : 0 < fuel := by
        rcases Nat.eq_zero_or_pos fuel with rfl | h
        · exfalso
          obtain ⟨d, hd⟩ := tryUnit_some hb hy
          rw [show t - ((D.digits : Int) - ((0 + 1 : Nat) : Int)) = t - (D.digits - 1 : Nat) by push_cast [hd1]; ring, hd] at hu
          cases hu
        · exact h
      obtain ⟨n, d, h1, h2, h3, h4, h5⟩ := ih hpos (by omega)
      refine ⟨n, d, by omega, h2, h3, fun n' h6 h7 => ?_, ?_⟩
      · rcases Nat.lt_or_ge (D.digits - fuel) n' with h8 | h8
        · exact h4 n' h8 h7
        · rw [show n' = D.digits - fuel by omega, ← e]
          exact hu
      · rw [← h5]
        conv_lhs => unfold searchDigits
        simp only [hu]
    | some d =>
      refine ⟨D.digits - fuel, d, by omega, by omega, by rw [← e]; exact hu, fun n' h6 h7 => by omega, ?_⟩
      unfold searchDigits
      simp only [hu]
      have hc : (d = 10 ∧ fuel + 1 = D.digits) ↔ (d = 10 ∧ D.digits - fuel = 1) := by
        constructor <;> rintro ⟨h1, h2⟩ <;> exact ⟨h1, by omega⟩
      by_cases hd : d = 10 ∧ fuel + 1 = D.digits
      · rw [if_pos hd, if_pos (hc.mp hd), e, (hc.mp hd).2]
        simp
      · rw [if_neg hd, if_neg (fun h => hd (hc.mpr h)), e]

/-- The nearer one is tried first. -/
theorem tryUnit_near {F : FloatFormat} {b d y : Nat} {k : Int} (hb : b < F.inf) (h : tryUnit F b k = some d) (hy : roundTo F y k = b) :
    |(d : ℚ) * 10 ^ k - val F b| ≤ |(y : ℚ) * 10 ^ k - val F b| ∧
    (|(d : ℚ) * 10 ^ k - val F b| = |(y : ℚ) * 10 ^ k - val F b| → y ≤ d) := by
  obtain ⟨hu1, hu2⟩ := units_spec (F := F) b k
  have hp := ten_pos k
  -- the rest of the division
  have hmid : ∀ q r D, units F b k = (q, r, D) → (D ≤ 2 * r ↔ (10 : ℚ) ^ k ≤ 2 * (val F b - q * 10 ^ k)) := by
    intro q r D hx
    have hU := Nat.two_pow_pos F.scale
    unfold units at hx
    unfold val
    split at hx
    · rename_i hk
      obtain ⟨m, rfl⟩ := Int.eq_ofNat_of_zero_le hk
      simp only [Int.natAbs_natCast, Prod.mk.injEq] at hx
      obtain ⟨h1, h2, h3⟩ := hx
      rw [zpow_natCast]
      generalize F.mag b = g at *
      generalize 2 ^ F.scale = U at *
      have hU' : (0 : ℚ) < U := by exact_mod_cast hU
      have hg := Nat.div_add_mod g (U * 10 ^ m)
      rw [h1, h2, h3] at hg
      have hv : (g : ℚ) / U - q * 10 ^ m = r / U := by
        rw [← hg, ← h3]
        push_cast
        field_simp
        ring
      rw [hv]
      have h4 : (10 : ℚ) ^ m ≤ 2 * (r / U) ↔ 10 ^ m * (U : ℚ) ≤ 2 * r := by
        rw [← mul_div_assoc, le_div_iff₀ hU']
      rw [h4, ← h3]
      constructor
      · intro h
        have := Nat.cast_le (α := ℚ).mpr h
        push_cast at this
        linarith only [this]
      · intro h
        have : ((U * 10 ^ m : Nat) : ℚ) ≤ ((2 * r : Nat) : ℚ) := by
          push_cast
          linarith only [h]
        exact Nat.cast_le.mp this
    · rename_i hk
      obtain ⟨m, rfl⟩ : ∃ m : Nat, k = -(m : Int) := ⟨k.natAbs, by omega⟩
      simp only [Int.natAbs_neg, Int.natAbs_natCast, Prod.mk.injEq] at hx
      obtain ⟨h1, h2, h3⟩ := hx
      rw [zpow_neg, zpow_natCast]
      generalize F.mag b = g at *
      generalize 2 ^ F.scale = U at *
      have hU' : (0 : ℚ) < U := by exact_mod_cast hU
      have hg := Nat.div_add_mod (g * 10 ^ m) U
      rw [h1, h2] at hg
      have hT : (0 : ℚ) < 10 ^ m := by positivity
      have hg' : (g : ℚ) * 10 ^ m = U * q + r := by exact_mod_cast hg.symm
      generalize (10 : ℚ) ^ m = T at *
      have hv : (g : ℚ) / U - q * T⁻¹ = r / (U * T) := by
        field_simp
        linarith only [hg']
      rw [hv, ← h3]
      have h4 : T⁻¹ ≤ 2 * ((r : ℚ) / (U * T)) ↔ (U : ℚ) ≤ 2 * r := by
        rw [← mul_div_assoc, le_div_iff₀ (mul_pos hU' hT), show T⁻¹ * (U * T) = U by field_simp]
      rw [h4]
      constructor
      · intro h
        exact_mod_cast h
      · intro h
        exact_mod_cast h
  unfold tryUnit at h
  rcases hx : units F b k with ⟨q, r, D⟩
  have hm := hmid q r D hx
  rw [hx] at h hu1 hu2
  simp only at h hu1 hu2
  -- a multiple that is read as the float is not beyond one that is not
  have below : y ≤ q → roundTo F q k = b := fun hyq =>
    Nat.le_antisymm (roundTo_le hb hu1) (by
      conv_lhs => rw [← hy]
      exact roundTo_mono (mul_le_mul_of_nonneg_right (Nat.cast_le.mpr hyq) hp.le))
  have above : q + 1 ≤ y → roundTo F (q + 1) k = b := fun hyq =>
    Nat.le_antisymm (by
      conv_rhs => rw [← hy]
      exact roundTo_mono (mul_le_mul_of_nonneg_right (Nat.cast_le.mpr hyq) hp.le))
      (le_roundTo hb (by push_cast; exact hu2.le))
  have dq : |(q : ℚ) * 10 ^ k - val F b| = val F b - q * 10 ^ k := by
    rw [abs_sub_comm, abs_of_nonneg (by linarith only [hu1])]
  have dq' : |((q + 1 : Nat) : ℚ) * 10 ^ k - val F b| = (q + 1) * 10 ^ k - val F b := by
    rw [Nat.cast_succ, abs_of_nonneg (by linarith only [hu2])]
  have ylo : y ≤ q → val F b - q * 10 ^ k ≤ |(y : ℚ) * 10 ^ k - val F b| := fun hyq => by
    have h1 : (y : ℚ) * 10 ^ k ≤ q * 10 ^ k := mul_le_mul_of_nonneg_right (Nat.cast_le.mpr hyq) hp.le
    rw [abs_sub_comm]
    exact le_trans (by linarith only [h1]) (le_abs_self _)
  have yhi : q + 1 ≤ y → (q + 1) * 10 ^ k - val F b ≤ |(y : ℚ) * 10 ^ k - val F b| ∧
      ((q + 1) * 10 ^ k - val F b = |(y : ℚ) * 10 ^ k - val F b| → y ≤ q + 1) := fun hyq => by
    have h1 : ((q + 1 : Nat) : ℚ) * 10 ^ k ≤ y * 10 ^ k := mul_le_mul_of_nonneg_right (Nat.cast_le.mpr hyq) hp.le
    rw [Nat.cast_succ] at h1
    rw [abs_of_nonneg (by linarith only [h1, hu2])]
    refine ⟨by linarith only [h1], fun e => ?_⟩
    have h2 : (y : ℚ) * 10 ^ k ≤ ((q + 1 : Nat) : ℚ) * 10 ^ k := by
      rw [Nat.cast_succ]
      linarith only [e]
    exact Nat.cast_le.mp (le_of_mul_le_mul_right h2 hp)
  clear hmid hu1 hu2 hx hy
  generalize |(y : ℚ) * 10 ^ k - val F b| = Y at *
  generalize val F b = v at *
  generalize (10 : ℚ) ^ k = p at *
  rcases Nat.lt_or_ge q y with hyq | hyq
  · obtain ⟨h1, h1'⟩ := yhi hyq
    have h2 := above hyq
    by_cases hD : D ≤ 2 * r
    · have h3 := hm.mp hD
      simp only [if_pos hD, if_pos h2, Option.some.injEq] at h
      subst h
      rw [dq']
      exact ⟨h1, h1'⟩
    · have h3 : ¬ p ≤ 2 * (v - q * p) := fun h => hD (hm.mpr h)
      simp only [if_neg hD] at h
      split_ifs at h with h4
      · simp only [Option.some.injEq] at h
        subst h
        rw [dq]
        exact ⟨by linarith only [h1, h3], fun e => absurd e (by linarith only [h1, h3])⟩
      · simp only [Option.some.injEq] at h
        subst h
        rw [dq']
        exact ⟨h1, h1'⟩
  · have h1 := ylo hyq
    have h2 := below hyq
    by_cases hD : D ≤ 2 * r
    · have h3 := hm.mp hD
      simp only [if_pos hD] at h
      split_ifs at h with h4
      · simp only [Option.some.injEq] at h
        subst h
        rw [dq']
        exact ⟨by linarith only [h1, h3], fun _ => by omega⟩
      · simp only [Option.some.injEq] at h
        subst h
        rw [dq]
        exact ⟨h1, fun _ => hyq⟩
    · simp only [if_neg hD, if_pos h2, Option.some.injEq] at h
      subst h
      rw [dq]
      exact ⟨h1, fun _ => hyq⟩

/-- A decimal of `m` digits that is read as the float can be written with the digits from the first one of the
float on. -/
theorem reach {F : FloatFormat} {b d' m : Nat} {k' t : Int} (hb : b < F.inf) (hm0 : 0 < m) (hd' : d' < 10 ^ m) (hr : roundTo F d' k' = b)
    (ht : (10 : ℚ) ^ t ≤ val F b) (ht' : val F b < 10 ^ (t + 1)) :
    ∃ y : Nat, roundTo F y (t + 1 - (m : Nat)) = b ∧
      |(y : ℚ) * 10 ^ (t + 1 - (m : Nat)) - val F b| ≤ |(d' : ℚ) * 10 ^ k' - val F b| ∧
      (|(y : ℚ) * 10 ^ (t + 1 - (m : Nat)) - val F b| = |(d' : ℚ) * 10 ^ k' - val F b| →
        (d' : ℚ) * 10 ^ k' ≤ y * 10 ^ (t + 1 - (m : Nat))) := by
  have pow : ∀ (j : Nat) (k : Int), ((10 ^ j : Nat) : ℚ) * 10 ^ k = 10 ^ (j + k) := by
    intro j k
    rw [Nat.cast_pow, Nat.cast_ofNat, zpow_add₀ (by norm_num), zpow_natCast]
  rcases le_or_gt ((10 : ℚ) ^ (t + 1)) (d' * 10 ^ k') with h1 | h1
  · have e : ((10 ^ m : Nat) : ℚ) * 10 ^ (t + 1 - (m : Nat)) = 10 ^ (t + 1) := by rw [pow]; congr 1; ring
    refine ⟨10 ^ m, Nat.le_antisymm ?_ (le_roundTo hb (by rw [e]; exact ht'.le)), ?_⟩
    · conv_rhs => rw [← hr]
      exact roundTo_mono (by rw [e]; exact h1)
    · rw [e, abs_of_nonneg (by linarith only [ht']), abs_of_nonneg (by linarith only [ht', h1])]
      exact ⟨by linarith only [h1], fun h => by linarith only [h]⟩
  · rcases le_or_gt ((d' : ℚ) * 10 ^ k') (10 ^ t) with h2 | h2
    · have e : ((10 ^ (m - 1) : Nat) : ℚ) * 10 ^ (t + 1 - (m : Nat)) = 10 ^ t := by
        rw [pow]
        congr 1
        omega
      refine ⟨10 ^ (m - 1), Nat.le_antisymm (roundTo_le hb (by rw [e]; exact ht)) ?_, ?_⟩
      · conv_lhs => rw [← hr]
        exact roundTo_mono (by rw [e]; exact h2)
      · rw [e, abs_of_nonpos (by linarith only [ht]), abs_of_nonpos (by linarith only [ht, h2])]
        exact ⟨by linarith only [h2], fun _ => h2⟩
    · have hk : t + 1 - (m : Nat) ≤ k' := by
        have h3 : (d' : ℚ) * 10 ^ k' < 10 ^ ((m : Int) + k') := by
          rw [← pow]
          exact mul_lt_mul_of_pos_right (Nat.cast_lt.mpr hd') (ten_pos k')
        have := (zpow_lt_zpow_iff_right₀ (by norm_num : (1 : ℚ) < 10)).mp (h2.trans h3)
        omega
      obtain ⟨j, hj⟩ := Int.eq_ofNat_of_zero_le (show 0 ≤ k' - (t + 1 - (m : Nat)) by omega)
      have e : ((d' * 10 ^ j : Nat) : ℚ) * 10 ^ (t + 1 - (m : Nat)) = d' * 10 ^ k' := by
        rw [Nat.cast_mul, mul_assoc, pow]
        congr 2
        omega
      exact ⟨d' * 10 ^ j, by rw [← hr]; exact roundTo_congr e, by rw [e], fun _ => by rw [e]⟩

/-- No decimal that is read as the float has fewer digits than the one that is printed, and none with as few
digits is nearer. -/
theorem shortest_best (hR : Right D) {b : Nat} (hb : b < D.fmt.inf) (h0 : 0 < b) :
    ∃ n, 0 < n ∧ (shortest D b).1 < 10 ^ n ∧ ∀ (d' m : Nat) (k' : Int), 0 < m → d' < 10 ^ m → roundTo D.fmt d' k' = b →
      n ≤ m ∧ (m = n → |((shortest D b).1 : ℚ) * 10 ^ (shortest D b).2 - val D.fmt b| ≤ |(d' : ℚ) * 10 ^ k' - val D.fmt b| ∧
        (|((shortest D b).1 : ℚ) * 10 ^ (shortest D b).2 - val D.fmt b| = |(d' : ℚ) * 10 ^ k' - val D.fmt b| →
          (d' : ℚ) * 10 ^ k' ≤ (shortest D b).1 * 10 ^ (shortest D b).2)) := by
  obtain ⟨ht, ht', y, hy⟩ := firstDigit_facts hR hb h0
  unfold shortest
  generalize firstDigit D b (D.hi + D.lo - 1) = t at *
  obtain ⟨n, d, h1, h2, h3, h4, h5⟩ := searchDigits_first hb hy hR.d1 D.digits hR.d1 (le_refl _)
  obtain ⟨g1, g2, g3⟩ := tryUnit_spec h3
  have hle : d ≤ 10 ^ n := by
    have hu := (units_spec (F := D.fmt) b (t + 1 - (n : Nat))).1
    have : ((units D.fmt b (t + 1 - (n : Nat))).1 : ℚ) * 10 ^ (t + 1 - (n : Nat)) < ((10 ^ n : Nat) : ℚ) * 10 ^ (t + 1 - (n : Nat)) := by
      refine lt_of_le_of_lt hu (lt_of_lt_of_eq ht' ?_)
      rw [Nat.cast_pow, Nat.cast_ofNat, ← zpow_natCast, ← zpow_add₀ (by norm_num)]
      congr 1
      ring
    have := lt_of_mul_lt_mul_right this (ten_pos _).le
    have : (units D.fmt b (t + 1 - (n : Nat))).1 < 10 ^ n := Nat.cast_lt.mp this
    omega
  have hn1 : d = 10 ^ n → n = 1 := by
    rintro rfl
    by_contra hne
    have hnone := h4 1 (by omega) (by omega)
    obtain ⟨x, hx⟩ := tryUnit_some (F := D.fmt) (b := b) (y := 10) (k := t + 1 - (1 : Nat)) hb (by
      rw [← g1]
      refine roundTo_congr ?_
      rw [Nat.cast_pow, Nat.cast_ofNat, ← zpow_natCast, ← zpow_add₀ (by norm_num)]
      rw [show (10 : ℚ) * 10 ^ (t + 1 - ((1 : Nat) : Int)) = 10 ^ (1 + (t + 1 - ((1 : Nat) : Int))) by
        rw [zpow_add₀ (by norm_num), zpow_one]]
      congr 1
      push_cast
      ring)
    rw [hx] at hnone
    cases hnone
  have hval : ((searchDigits D b t D.digits).1 : ℚ) * 10 ^ (searchDigits D b t D.digits).2 = d * 10 ^ (t + 1 - (n : Nat)) := by
    rw [h5]
    split_ifs with hc
    · obtain ⟨rfl, rfl⟩ := hc
      simp only
      rw [show t + 1 = 1 + (t + 1 - ((1 : Nat) : Int)) by push_cast; ring, zpow_add₀ (by norm_num), zpow_one]
      push_cast
      ring_nf
    · rfl
  rw [hval]
  refine ⟨n, by omega, ?_, fun d' m k' hm0 hd' hr => ?_⟩
  · rw [h5]
    split_ifs with hc
    · exact Nat.one_lt_pow (by omega) (by decide)
    · simp only
      rcases Nat.lt_or_ge d (10 ^ n) with h | h
      · exact h
      · have e := hn1 (by omega)
        exact absurd ⟨by rw [e] at hle h; omega, e⟩ hc
  · obtain ⟨z, hz, hnear, hnear'⟩ := reach hb hm0 hd' hr ht ht'
    refine ⟨?_, ?_⟩
    · by_contra hc
      have hnone := h4 m (by omega) (by omega)
      obtain ⟨x, hx⟩ := tryUnit_some hb hz
      rw [hx] at hnone
      cases hnone
    · rintro rfl
      obtain ⟨f1, f2⟩ := tryUnit_near hb h3 hz
      refine ⟨f1.trans hnear, fun e => ?_⟩
      have e1 := le_antisymm f1 (by rw [e]; exact hnear)
      refine (hnear' (by rw [← e1, e])).trans ?_
      exact mul_le_mul_of_nonneg_right (Nat.cast_le.mpr (f2 e1)) (ten_pos _).le

end

theorem right64 : Right dec64 where
  m1 := by decide
  d1 := by decide
  digits := by decide +kernel
  lo := by decide +kernel
  lo1 := by decide
  hi := by decide +kernel
  inf := by decide +kernel
  top := ⟨17976931348623157, by decide +kernel⟩
  top' := by decide +kernel
  hi1 := by decide

theorem right32 : Right dec32 where
  m1 := by decide
  d1 := by decide
  digits := by decide +kernel
  lo := by decide +kernel
  lo1 := by decide
  hi := by decide +kernel
  inf := by decide +kernel
  top := ⟨340282347, by decide +kernel⟩
  top' := by decide +kernel
  hi1 := by decide

end StdText

end Souris
