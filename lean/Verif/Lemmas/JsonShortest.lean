import Verif.Lemmas.JsonFloatText

/-! # Seventeen digits tell floats apart -/

namespace Souris

namespace SerdeJson

open FloatFormat

/-- The distance of neighbours. -/
theorem mag_gap {b : Nat} (hb : b + 1 < f64Format.inf) :
    f64Format.mag (b + 1) ≤ 2 ^ 53 * (f64Format.mag (b + 1) - f64Format.mag b) := by
  obtain ⟨s, q, h1, h2, h3, h4⟩ := decode (F := f64Format) (show b < f64Format.inf by omega)
  have e : b + 1 = s * 2 ^ f64Format.mant + (q + 1) := by omega
  have h5 := mag_code (F := f64Format) (s := s) (q := q + 1) (by omega) (by omega) (by omega)
  rw [e, h5, h4, ← Nat.sub_mul, Nat.add_sub_cancel_left, Nat.one_mul]
  exact Nat.mul_le_mul_right _ (by have : 2 ^ (f64Format.mant + 1) = 2 ^ 53 := rfl; omega)

theorem val_gap {b : Nat} (hb : b + 1 < f64Format.inf) : val (b + 1) ≤ 2 ^ 53 * (val (b + 1) - val b) := by
  have h := mag_gap hb
  have hlt := mag_lt (F := f64Format) (Nat.lt_succ_self b) hb
  have hU := unit_pos
  unfold val
  generalize f64Format.mag (b + 1) = x at *
  generalize f64Format.mag b = y at *
  generalize ((2 ^ f64Format.scale : Nat) : ℚ) = U at *
  have hq : (x : ℚ) ≤ 2 ^ 53 * (x - y) := by
    have : ((x : Nat) : ℚ) ≤ ((2 ^ 53 * (x - y) : Nat) : ℚ) := Nat.cast_le.mpr h
    rw [Nat.cast_mul, Nat.cast_sub (by omega), Nat.cast_pow, Nat.cast_ofNat] at this
    exact this
  rw [← sub_div, ← mul_div_assoc]
  exact (div_le_div_iff_of_pos_right hU).mpr hq

/-- A decimal that is nearer to the float than half the distance to its neighbours is read as the float. -/
theorem close_roundTo {b d : Nat} {k : Int} (hb : b + 2 < f64Format.inf)
    (h : |(d : ℚ) * 10 ^ k - val (b + 1)| * 2 ^ 54 < val (b + 1)) : roundTo d k = b + 1 := by
  have g1 := val_gap (b := b) (by omega)
  have g2 := val_gap (b := b + 1) (by omega)
  have hv := val_lt (a := b + 1) (b := b + 2) (by omega) hb
  have near : ∀ c, roundTo d k = c → c < f64Format.inf → |val c - d * 10 ^ k| ≤ |val (b + 1) - d * 10 ^ k| := by
    intro c e hc
    have := roundTo_nearest (d := d) (k := k) (by rw [e]; exact hc) (signed true (b + 1)) (signed_finite true (by omega))
    rw [e, f64Value_signed true hc, f64Value_signed true (by omega), if_pos rfl, if_pos rfl] at this
    exact this.1
  have up := fun h => roundTo_le (b := b + 2) (d := d) (k := k) hb h
  have up1 := fun h => roundTo_le (b := b + 1) (d := d) (k := k) (by omega) h
  have lo := fun h => le_roundTo (b := b) (d := d) (k := k) (by omega) h
  have lo1 := fun h => le_roundTo (b := b + 1) (d := d) (k := k) (by omega) h
  have near2 := near (b + 2)
  have near0 := near b
  clear near
  generalize roundTo d k = r at *
  generalize (d : ℚ) * 10 ^ k = q at *
  have hpos := lt_of_le_of_lt (val_nonneg b) (val_lt (a := b) (b := b + 1) (by omega) (by omega))
  generalize val (b + 1 + 1) = v2 at *
  generalize val (b + 1) = v1 at *
  generalize val b = v0 at *
  rcases le_total v1 q with hq | hq
  · rw [abs_of_nonneg (by linarith only [hq])] at h
    have h1 := lo1 hq
    have h2 := up (by linarith only [h, g2, hv])
    rcases Nat.lt_or_ge r (b + 2) with h3 | h3
    · omega
    · have := near2 (by omega) hb
      rw [abs_of_nonneg (by linarith only [h, g2, hv]), abs_sub_comm, abs_of_nonneg (by linarith only [hq])] at this
      linarith only [this, h, g2, hv]
  · rw [abs_of_nonpos (by linarith only [hq])] at h
    have h1 := up1 hq
    have h2 := lo (by linarith only [h, g1, hpos])
    rcases Nat.lt_or_ge b r with h3 | h3
    · omega
    · have := near0 (by omega) (by omega)
      rw [abs_of_nonpos (by linarith only [h, g1, hpos]), abs_of_nonneg (by linarith only [hq])] at this
      linarith only [this, h, g1, hpos]

/-- The nearest one of the multiples of `10^k`. -/
theorem nearest_unit (b : Nat) (k : Int) : ∃ y : Nat, |(y : ℚ) * 10 ^ k - val b| ≤ 10 ^ k / 2 := by
  obtain ⟨h1, h2⟩ := units_spec b k
  generalize (units b k).1 = u at *
  have hp := ten_pos k
  generalize (10 : ℚ) ^ k = p at *
  rcases le_total (val b - u * p) (p / 2) with h | h
  · exact ⟨u, by rw [abs_le]; constructor <;> linarith only [h, h1, hp]⟩
  · refine ⟨u + 1, ?_⟩
    rw [Nat.cast_succ, abs_le]
    constructor <;> linarith only [h, h2, hp]

/-- Seventeen digits suffice. -/
theorem digits_suffice {b : Nat} {t : Int} (hb : b + 2 < f64Format.inf) (ht : (10 : ℚ) ^ t ≤ val (b + 1)) :
    ∃ y : Nat, roundTo y (t - 16) = b + 1 := by
  obtain ⟨y, hy⟩ := nearest_unit (b + 1) (t - 16)
  refine ⟨y, close_roundTo hb ?_⟩
  have e : (10 : ℚ) ^ (t - 16) = 10 ^ t / 10 ^ 16 := by
    rw [zpow_sub₀ (by norm_num)]
    norm_num
  have hp := ten_pos t
  generalize |(y : ℚ) * 10 ^ (t - 16) - val (b + 1)| = x at *
  rw [e] at hy
  generalize val (b + 1) = v at *
  generalize (10 : ℚ) ^ t = p at *
  clear e
  have h1 : x * 2 ^ 54 ≤ p * (2 ^ 54 / (2 * 10 ^ 16)) := by
    have := mul_le_mul_of_nonneg_right hy (show (0 : ℚ) ≤ 2 ^ 54 by norm_num)
    refine this.trans (le_of_eq ?_)
    ring
  have h2 : p * (2 ^ 54 / (2 * 10 ^ 16)) < p := by
    have : (2 ^ 54 / (2 * 10 ^ 16) : ℚ) < 1 := by norm_num
    nlinarith only [this, hp]
  linarith only [h1, h2, ht]

theorem firstDigit_le {b : Nat} (h : (10 : ℚ) ^ (-324 : Int) ≤ val b) (fuel : Nat) : (10 : ℚ) ^ firstDigit b fuel ≤ val b := by
  induction fuel with
  | zero => exact h
  | succ fuel ih =>
    unfold firstDigit
    simp only
    obtain ⟨hu1, _⟩ := units_spec b ((fuel : Int) - 323)
    split_ifs with hz
    · exact ih
    · have h1 : (1 : ℚ) ≤ (units b ((fuel : Int) - 323)).1 := by exact_mod_cast Nat.one_le_iff_ne_zero.mpr hz
      have hp := ten_pos ((fuel : Int) - 323)
      nlinarith only [h1, hp, hu1]

theorem firstDigit_range (b fuel : Nat) : -324 ≤ firstDigit b fuel ∧ firstDigit b fuel ≤ (fuel : Int) - 324 := by
  induction fuel with
  | zero => simp [firstDigit]
  | succ fuel ih =>
    unfold firstDigit
    simp only
    split_ifs <;> push_cast <;> omega

/-- The float is less than ten times its first digit. -/
theorem lt_firstDigit {b : Nat} (fuel : Nat) (h : val b < 10 ^ ((fuel : Int) - 323)) : val b < 10 ^ (firstDigit b fuel + 1) := by
  induction fuel with
  | zero => exact h
  | succ fuel ih =>
    unfold firstDigit
    simp only
    obtain ⟨_, hu2⟩ := units_spec b ((fuel : Int) - 323)
    split_ifs with hz
    · refine ih ?_
      rw [hz] at hu2
      simpa using hu2
    · have e : (fuel : Int) - 323 + 1 = ((fuel + 1 : Nat) : Int) - 323 := by push_cast; ring
      rw [e]
      exact h

theorem val_one : (10 : ℚ) ^ (-324 : Int) ≤ val 1 := by
  have h1 : f64Format.mag 1 = 1 := by decide
  have h2 : 2 ^ f64Format.scale ≤ 10 ^ 324 := by decide +kernel
  have hU := unit_pos
  unfold val
  rw [h1, zpow_neg]
  have h3 : ((2 ^ f64Format.scale : Nat) : ℚ) ≤ ((10 ^ 324 : Nat) : ℚ) := Nat.cast_le.mpr h2
  generalize ((2 ^ f64Format.scale : Nat) : ℚ) = U at *
  rw [Nat.cast_pow, Nat.cast_ofNat] at h3
  rw [Nat.cast_one, one_div]
  exact inv_anti₀ hU h3

theorem val_top : val 0x7FEFFFFFFFFFFFFF < 10 ^ (309 : Int) := by
  have h : f64Format.mag 0x7FEFFFFFFFFFFFFF < 10 ^ 309 * 2 ^ f64Format.scale := by decide +kernel
  have hU := unit_pos
  unfold val
  rw [div_lt_iff₀ hU]
  have h3 := Nat.cast_lt (α := ℚ).mpr h
  rw [Nat.cast_mul] at h3
  generalize ((2 ^ f64Format.scale : Nat) : ℚ) = U at *
  rw [Nat.cast_pow, Nat.cast_ofNat] at h3
  exact h3

/-- What is printed for a float stands for it. -/
theorem shortest_total {b : Nat} (hb : b < f64Format.inf) (h0 : 0 < b) :
    roundTo (shortest b).1 (shortest b).2 = b ∧ 0 < (shortest b).1 ∧ (shortest b).1 ≤ 10 ^ 17 ∧
      -340 ≤ (shortest b).2 ∧ (shortest b).2 ≤ 309 := by
  have hinf := inf_val
  have hv1 : (10 : ℚ) ^ (-324 : Int) ≤ val b := by
    refine val_one.trans ?_
    rcases Nat.lt_or_ge 1 b with h | h
    · exact (val_lt h hb).le
    · rw [show b = 1 by omega]
  have hv2 : val b < 10 ^ ((632 : Nat) - 323 : Int) := by
    refine lt_of_le_of_lt ?_ val_top
    rcases Nat.lt_or_ge b 0x7FEFFFFFFFFFFFFF with h | h
    · exact (val_lt h (by decide)).le
    · rw [show b = 0x7FEFFFFFFFFFFFFF by omega]
  have ht := firstDigit_le hv1 632
  have ht' := lt_firstDigit 632 hv2
  have hr := firstDigit_range b 632
  have hy : ∃ y, roundTo y (firstDigit b 632 - 16) = b := by
    obtain ⟨c, rfl⟩ : ∃ c, b = c + 1 := ⟨b - 1, by omega⟩
    rcases Nat.lt_or_ge (c + 2) f64Format.inf with h | h
    · exact digits_suffice h ht
    · have hc : c + 1 = 0x7FEFFFFFFFFFFFFF := by omega
      rw [hc]
      exact ⟨17976931348623157, by decide +kernel⟩
  obtain ⟨y, hy⟩ := hy
  obtain ⟨k', h1, h2, h3, h4, h5, h6⟩ := searchDigits_spec hb hy (le_refl _) 17 (le_refl _) (by push_cast; omega)
  have e : shortest b = searchDigits b (firstDigit b 632) 17 := rfl
  rw [← e] at h3 h4 h5 h6
  refine ⟨h5, ?_, ?_, by omega, by omega⟩
  · rcases Nat.eq_zero_or_pos (shortest b).1 with h | h
    · rw [h, roundTo_zero] at h5
      omega
    · exact h
  · have hk : (10 : ℚ) ^ k' ≤ 10 ^ (shortest b).2 := zpow_le_zpow_right₀ (by norm_num) h3
    have hp := ten_pos k'
    have hs : (10 : ℚ) ^ (firstDigit b 632 + 1) ≤ 10 ^ k' * 10 ^ 17 := by
      have e17 : (10 : ℚ) ^ k' * 10 ^ 17 = 10 ^ (k' + 17) := by
        rw [zpow_add₀ (by norm_num)]
        norm_num
      rw [e17]
      exact zpow_le_zpow_right₀ (by norm_num) (by omega)
    clear h5 ht hv1 hv2 hinf e hy
    generalize (shortest b).1 = d at *
    generalize val b = v at *
    generalize (10 : ℚ) ^ (firstDigit b 632 + 1) = a at *
    generalize (10 : ℚ) ^ (shortest b).2 = c at *
    generalize (10 : ℚ) ^ k' = p at *
    have hd : (d : ℚ) * p ≤ d * c := mul_le_mul_of_nonneg_left hk (Nat.cast_nonneg d)
    by_contra hc
    have h7 : ((10 ^ 17 + 1 : Nat) : ℚ) ≤ d := Nat.cast_le.mpr (by omega)
    have h8 : ((10 ^ 17 + 1 : Nat) : ℚ) * p ≤ d * p := mul_le_mul_of_nonneg_right h7 hp.le
    rw [Nat.cast_succ, Nat.cast_pow, Nat.cast_ofNat] at h8
    linarith only [h8, hd, h6, ht', hs]

/-! ## The text -/

theorem layout_value {d : Nat} {k : Int} (hd : 0 < d) :
    ∃ int frac x, JsonReal (layout d k) int frac x ∧ layout d k ≠ int ∧ realValue int frac x = d * 10 ^ k := by
  obtain ⟨int, frac, x, h1, h2, _, h4⟩ := layout_real (k := k) hd
  refine ⟨int, frac, x, h1, h2, ?_⟩
  unfold realValue
  rcases h4 with ⟨h4, h5⟩ | ⟨h0, _, h4, h5⟩
  · rw [h4, h5]
  · rw [h4, h5]
    obtain ⟨n, rfl⟩ := Int.eq_ofNat_of_zero_le h0
    rw [Int.natAbs_natCast, zpow_natCast, Nat.cast_mul, Nat.cast_pow, Nat.cast_ofNat, pow_succ, zpow_neg_one]
    ring

/-- What is printed for a float without its sign. -/
theorem float_value {a : Nat} (ha : a < f64Format.inf) : ∃ int frac x,
    JsonReal (if a = 0 then ['0', '.', '0'] else layout (shortest a).1 (shortest a).2) int frac x ∧
    (if a = 0 then ['0', '.', '0'] else layout (shortest a).1 (shortest a).2) ≠ int ∧
    Nearest (signed true a) (realValue int frac x) := by
  rcases Nat.eq_zero_or_pos a with rfl | h0
  · rw [if_pos rfl]
    refine ⟨['0'], ['0'], 0, ⟨['.', '0'], [], rfl, ⟨⟨by simp, by decide⟩, fun _ => rfl⟩, .inr ⟨⟨by simp, by decide⟩, rfl⟩, .none⟩,
      by simp, ?_⟩
    have := roundTo_nearest (d := 0) (k := 0 - ((['0'] : List Char).length : Int)) (by rw [roundTo_zero]; decide)
    rw [roundTo_zero] at this
    exact this
  · rw [if_neg (by omega)]
    obtain ⟨h1, h2, _⟩ := shortest_total ha h0
    obtain ⟨int, frac, x, h3, h4, h5⟩ := layout_value (k := (shortest a).2) h2
    refine ⟨int, frac, x, h3, h4, ?_⟩
    rw [h5]
    have := roundTo_nearest (d := (shortest a).1) (k := (shortest a).2) (by rw [h1]; exact ha)
    rwa [h1] at this

theorem floatText_right {b : UInt64} (hf : F64Finite b) : JsonRight (floatText b) (.float b) := by
  obtain ⟨pos, a, ha, rfl⟩ := finite_signed hf
  have htoNat := signed_toNat pos ha
  have hinf := ha
  rw [inf_val] at hinf
  have hmod : (signed pos a).toNat % 2 ^ 63 = a := by rw [htoNat]; split <;> omega
  obtain ⟨int, frac, x, h1, h2, h3⟩ := float_value ha
  unfold floatText
  simp only
  rw [hmod]
  cases pos with
  | true =>
    rw [if_pos rfl] at htoNat
    rw [if_neg (by omega)]
    exact .posFloat h1 (fun e => absurd e h2) hf (by omega) h3
  | false =>
    rw [if_neg (by decide)] at htoNat
    rw [if_pos (by omega)]
    exact .negFloat h1 (fun e => absurd e h2) hf (by omega) (Nearest.neg ha h3)

theorem layout_length {d : Nat} {k : Int} (hd : d ≤ 10 ^ 17) (h1 : -340 ≤ k) (h2 : k ≤ 309) : (layout d k).length ≤ 26 := by
  have hlen : (natText d).length ≤ 18 := natText_length (by decide) (by omega)
  have hexp : (intText ((natText d).length + k - 1)).length ≤ 4 := by
    have := natText_length (d := ((natText d).length + k - 1).natAbs) (n := 3) (by decide) (by omega)
    unfold intText
    split
    · simpa using this
    · omega
  unfold layout
  simp only
  split_ifs <;> simp only [List.length_append, List.length_cons, List.length_nil, List.length_replicate, List.length_take,
    List.length_drop] <;> omega

theorem floatText_length {b : UInt64} (hf : F64Finite b) : (floatText b).length ≤ 27 := by
  obtain ⟨pos, a, ha, rfl⟩ := finite_signed hf
  have htoNat := signed_toNat pos ha
  have hinf := ha
  rw [inf_val] at hinf
  have hmod : (signed pos a).toNat % 2 ^ 63 = a := by rw [htoNat]; split <;> omega
  have : (if a = 0 then ['0', '.', '0'] else layout (shortest a).1 (shortest a).2).length ≤ 26 := by
    split
    · simp
    · obtain ⟨_, _, h3, h4, h5⟩ := shortest_total ha (by omega)
      exact layout_length h3 h4 h5
  unfold floatText
  simp only
  rw [hmod]
  split
  · rw [List.length_cons]
    omega
  · omega

end SerdeJson

end Souris
