import Verif.Model.IntegerFloat
import Mathlib.Tactic.Ring
import Mathlib.Tactic.Linarith
import Mathlib.Algebra.Order.Ring.Int
import Mathlib.Algebra.Order.Ring.Abs

/-! # Lemmas about `as` from integers to floats -/

namespace Souris

namespace FloatFormat

variable {F : FloatFormat}

/-- The magnitude of bits put together from an exponent and a significand that may just overflow. -/
theorem mag_parts {e t : Nat} (he : 1 ≤ e) (ht : t ≤ 2 ^ F.mant) (hfit : e + (if t = 2 ^ F.mant then 1 else 0) < 2 ^ F.expo) :
    F.mag (e * 2 ^ F.mant + t) = (2 ^ F.mant + t) * 2 ^ (e - 1) ∧
    F.exponent (e * 2 ^ F.mant + t) = e + (if t = 2 ^ F.mant then 1 else 0) := by
  have hp : 0 < 2 ^ F.mant := by positivity
  by_cases h : t = 2 ^ F.mant
  · rw [if_pos h] at hfit ⊢
    have e1 : e * 2 ^ F.mant + t = (e + 1) * 2 ^ F.mant := by rw [h]; ring
    have hx : F.exponent (e * 2 ^ F.mant + t) = e + 1 := by
      unfold exponent
      rw [e1, Nat.mul_div_cancel _ hp, Nat.mod_eq_of_lt hfit]
    refine ⟨?_, hx⟩
    unfold mag
    rw [hx, if_neg (by omega)]
    unfold mantissa
    rw [e1, Nat.mul_mod_left, h]
    obtain ⟨d, rfl⟩ : ∃ d, e = d + 1 := ⟨e - 1, by omega⟩
    simp only [Nat.add_sub_cancel]
    rw [pow_succ]
    ring
  · rw [if_neg h] at hfit ⊢
    have hlt : t < 2 ^ F.mant := by omega
    have hx : F.exponent (e * 2 ^ F.mant + t) = e := by
      unfold exponent
      rw [Nat.mul_comm, Nat.mul_add_div hp, Nat.div_eq_of_lt hlt, Nat.add_zero, Nat.mod_eq_of_lt (by omega)]
    refine ⟨?_, by rw [hx, Nat.add_zero]⟩
    unfold mag
    rw [hx, if_neg (by omega)]
    unfold mantissa
    rw [Nat.mul_comm e, Nat.mul_add_mod, Nat.mod_eq_of_lt hlt]

/-- Magnitudes from `2^(k + mant)` on are multiples of `2^k`. -/
theorem mag_dvd (b k : Nat) (h : 2 ^ (k + F.mant) ≤ F.mag b) : 2 ^ k ∣ F.mag b := by
  have hm : F.mantissa b < 2 ^ F.mant := Nat.mod_lt _ (by positivity)
  unfold mag at h ⊢
  split at h
  · rename_i he
    rw [if_pos he]
    have : 2 ^ F.mant ≤ 2 ^ (k + F.mant) := Nat.pow_le_pow_right (by decide) (by omega)
    omega
  · rename_i he
    rw [if_neg he]
    refine Dvd.dvd.mul_left (Nat.pow_dvd_pow 2 ?_) _
    by_contra hc
    have h1 : 2 ^ F.mant + F.mantissa b < 2 ^ (F.mant + 1) := by rw [pow_succ]; omega
    have h2 : (2 ^ F.mant + F.mantissa b) * 2 ^ (F.exponent b - 1) < 2 ^ (F.mant + 1) * 2 ^ (F.exponent b - 1) :=
      Nat.mul_lt_mul_of_pos_right h1 (by positivity)
    rw [← pow_add] at h2
    have h3 : 2 ^ (F.mant + 1 + (F.exponent b - 1)) ≤ 2 ^ (k + F.mant) := Nat.pow_le_pow_right (by decide) (by omega)
    omega

/-- The rounded quotient. -/
def roundQ (q r D : Nat) : Nat :=
  if (decide (D < 2 * r) || (decide (2 * r = D) && decide (q % 2 = 1))) = true then q + 1 else q

/-- Rounding a quotient: no multiple is nearer, and the result is even when another is as near. -/
theorem roundQ_spec (q r D : Nat) (hD : 0 < D) (hr : r < D) (j : Int) :
    |(roundQ q r D * D : Int) - (q * D + r)| ≤ |j * D - (q * D + r)| ∧
    (|(roundQ q r D * D : Int) - (q * D + r)| = |j * D - (q * D + r)| → j = roundQ q r D ∨ roundQ q r D % 2 = 0) := by
  have hD' : (0 : Int) < D := by exact_mod_cast hD
  have hr' : (r : Int) < D := by exact_mod_cast hr
  have hr0 : (0 : Int) ≤ r := by positivity
  -- distances to other multiples
  have far : j ≤ q ∨ j = q + 1 ∨ (q : Int) + 2 ≤ j := by omega
  have low : ∀ j : Int, j ≤ q → |j * D - (q * D + r)| = (q - j) * D + r := by
    intro j hj
    have : 0 ≤ (q - j) * D := mul_nonneg (by omega) hD'.le
    rw [abs_of_nonpos (by linarith)]
    ring
  have high : ∀ j : Int, q + 1 ≤ j → |j * D - (q * D + r)| = (j - q) * D - r := by
    intro j hj
    have : (1 : Int) * D ≤ (j - q) * D := mul_le_mul_of_nonneg_right (by omega) hD'.le
    rw [abs_of_nonneg (by linarith)]
    ring
  by_cases hup : (decide (D < 2 * r) || (decide (2 * r = D) && decide (q % 2 = 1))) = true
  · have hR : roundQ q r D = q + 1 := if_pos hup
    rw [hR]
    simp only [Bool.or_eq_true, Bool.and_eq_true, decide_eq_true_eq] at hup
    have h2 : (D : Int) ≤ 2 * r := by omega
    have e1 : |((q + 1 : Nat) * D : Int) - (q * D + r)| = D - r := by
      rw [high _ (by push_cast; omega)]
      push_cast
      ring
    rw [e1]
    rcases far with h | h | h
    · rw [low j h]
      have : 0 ≤ ((q : Int) - j) * D := mul_nonneg (by omega) hD'.le
      refine ⟨by linarith, fun e => ?_⟩
      right
      have h3 : 2 * r = D := by
        have : (2 * r : Int) ≤ D := by linarith
        omega
      rcases hup with hup | hup <;> omega
    · rw [high j (by omega), h]
      exact ⟨by linarith, fun _ => .inl (by push_cast; ring)⟩
    · rw [high j (by omega)]
      have : (2 : Int) * D ≤ (j - q) * D := mul_le_mul_of_nonneg_right (by omega) hD'.le
      exact ⟨by linarith, fun e => by exfalso; linarith⟩
  · have hR : roundQ q r D = q := if_neg hup
    rw [hR]
    simp only [Bool.or_eq_true, Bool.and_eq_true, decide_eq_true_eq, not_or, not_and] at hup
    have h2 : (2 * r : Int) ≤ D := by omega
    rw [low q le_rfl]
    rcases far with h | h | h
    · rw [low j h]
      have : 0 ≤ ((q : Int) - j) * D := mul_nonneg (by omega) hD'.le
      refine ⟨by linarith, fun e => .inl ?_⟩
      have h0 : ((q : Int) - j) * D = 0 := by linarith
      rcases mul_eq_zero.mp h0 with h0 | h0 <;> omega
    · rw [high j (by omega), h]
      refine ⟨by linarith, fun e => .inr ?_⟩
      have h3 : 2 * r = D := by
        have : (2 * r : Int) = D := by linarith
        exact_mod_cast this
      have := hup.2 h3
      omega
    · rw [high j (by omega)]
      have : (2 : Int) * D ≤ (j - q) * D := mul_le_mul_of_nonneg_right (by omega) hD'.le
      exact ⟨by linarith, fun e => by exfalso; linarith⟩

/-- What the numerators of floats have in common: large ones are multiples of large powers of two. -/
def Grid (F : FloatFormat) (x : Int) : Prop := ∀ k : Nat, 2 ^ (k + F.mant) ≤ x.natAbs → (2 : Int) ^ k ∣ x

theorem num_grid (b : Nat) : Grid F (F.num b) := by
  intro k h
  have hm : (F.num b).natAbs = F.mag b := by
    unfold num
    split <;> simp
  rw [hm] at h
  have hd : (2 : Int) ^ k ∣ (F.mag b : Int) := by exact_mod_cast mag_dvd b k h
  unfold num
  split
  · exact Int.dvd_neg.mpr hd
  · exact hd

theorem Grid.neg {x : Int} (h : Grid F x) : Grid F (-x) := by
  intro k hk
  rw [Int.natAbs_neg] at hk
  exact Int.dvd_neg.mpr (h k hk)

/-- What `castNat` does to a number that is not zero. -/
structure Cast (F : FloatFormat) (n b : Nat) : Prop where
  lt : b < 2 ^ (F.mant + F.expo)
  near : ∀ x, Grid F x → |(F.mag b : Int) - n * 2 ^ F.scale| ≤ |x - n * 2 ^ F.scale| ∧
    (|(F.mag b : Int) - n * 2 ^ F.scale| = |x - n * 2 ^ F.scale| → x = F.mag b ∨ b % 2 = 0)
  exact : n ≤ 2 ^ (F.mant + 1) → F.mag b = n * 2 ^ F.scale

theorem castNat_spec (hms : F.mant ≤ F.scale) (hm1 : 1 ≤ F.mant) (n : Nat)
    (hfit : n ≠ 0 → Nat.log2 n + (F.scale - F.mant + 1) + 1 < 2 ^ F.expo) : Cast F n (F.castNat n) := by
  have hp : 0 < 2 ^ F.mant := by positivity
  have exact_cast : ∀ b, b < 2 ^ (F.mant + F.expo) → F.mag b = n * 2 ^ F.scale → Cast F n b := by
    intro b hb hmag
    refine ⟨hb, fun x _ => ?_, fun _ => hmag⟩
    have e0 : (F.mag b : Int) - n * 2 ^ F.scale = 0 := by rw [hmag]; push_cast; ring
    rw [e0, abs_zero]
    refine ⟨abs_nonneg _, fun h => .inl ?_⟩
    have := abs_eq_zero.mp h.symm
    linarith
  by_cases hn : n = 0
  · subst hn
    have h0 : F.castNat 0 = 0 := by simp [castNat]
    rw [h0]
    refine exact_cast 0 (by positivity) ?_
    simp [mag, exponent, mantissa]
  have hfit := hfit hn
  have htop1 : 2 ^ Nat.log2 n ≤ n := Nat.log2_self_le hn
  have htop2 : n < 2 ^ (Nat.log2 n + 1) := Nat.lt_log2_self
  unfold castNat
  rw [if_neg hn]
  simp only
  generalize Nat.log2 n = top at hfit htop1 htop2 ⊢
  -- bits from parts are small enough
  have small : ∀ e t, t ≤ 2 ^ F.mant → e + 1 < 2 ^ F.expo → e * 2 ^ F.mant + t < 2 ^ (F.mant + F.expo) := by
    intro e t ht he
    calc e * 2 ^ F.mant + t ≤ e * 2 ^ F.mant + 2 ^ F.mant := by omega
      _ = (e + 1) * 2 ^ F.mant := by ring
      _ < 2 ^ F.expo * 2 ^ F.mant := Nat.mul_lt_mul_of_pos_right he hp
      _ = 2 ^ (F.mant + F.expo) := by rw [pow_add]; ring
  have parts : ∀ e t, 1 ≤ e → t ≤ 2 ^ F.mant → e + 1 < 2 ^ F.expo →
      F.mag (e * 2 ^ F.mant + t) = (2 ^ F.mant + t) * 2 ^ (e - 1) := by
    intro e t h1 h2 h3
    exact (mag_parts h1 h2 (by split <;> omega)).1
  by_cases htm : top ≤ F.mant
  · rw [if_pos htm]
    have h1 : 2 ^ F.mant ≤ n * 2 ^ (F.mant - top) := by
      calc 2 ^ F.mant = 2 ^ top * 2 ^ (F.mant - top) := by rw [← pow_add]; congr 1; omega
        _ ≤ _ := Nat.mul_le_mul_right _ htop1
    have h2 : n * 2 ^ (F.mant - top) < 2 ^ F.mant + 2 ^ F.mant := by
      calc n * 2 ^ (F.mant - top) < 2 ^ (top + 1) * 2 ^ (F.mant - top) := Nat.mul_lt_mul_of_pos_right htop2 (by positivity)
        _ = 2 ^ (F.mant + 1) := by rw [← pow_add]; congr 1; omega
        _ = _ := by rw [pow_succ]; ring
    refine exact_cast _ (small _ _ (by omega) (by omega)) ?_
    rw [parts _ _ (by omega) (by omega) (by omega), Nat.add_sub_cancel' h1, Nat.mul_assoc, ← pow_add]
    congr 2
    omega
  rw [if_neg htm]
  have htm' : F.mant < top := by omega
  -- quotient and remainder
  obtain ⟨s, rfl⟩ : ∃ s, top = F.mant + s := ⟨top - F.mant, by omega⟩
  have hs : 0 < s := by omega
  rw [Nat.add_sub_cancel_left]
  have hDpos : 0 < 2 ^ s := by positivity
  have hr : n % 2 ^ s < 2 ^ s := Nat.mod_lt _ hDpos
  have hq1 : 2 ^ F.mant ≤ n / 2 ^ s := by
    rw [Nat.le_div_iff_mul_le hDpos, ← pow_add]
    exact htop1
  have hq2 : n / 2 ^ s < 2 ^ (F.mant + 1) := by
    rw [Nat.div_lt_iff_lt_mul hDpos, ← pow_add]
    rw [show F.mant + 1 + s = F.mant + s + 1 by omega]
    exact htop2
  have hqr : n / 2 ^ s * 2 ^ s + n % 2 ^ s = n := by rw [Nat.mul_comm]; exact Nat.div_add_mod n (2 ^ s)
  have hspec := roundQ_spec (n / 2 ^ s) (n % 2 ^ s) (2 ^ s) hDpos hr
  have hfold : (if (decide (2 ^ s < 2 * (n % 2 ^ s)) || (decide (2 * (n % 2 ^ s) = 2 ^ s) &&
      decide (n / 2 ^ s % 2 = 1))) = true then n / 2 ^ s + 1 else n / 2 ^ s) = roundQ (n / 2 ^ s) (n % 2 ^ s) (2 ^ s) := rfl
  rw [hfold]
  have hR1 : 2 ^ F.mant ≤ roundQ (n / 2 ^ s) (n % 2 ^ s) (2 ^ s) := by unfold roundQ; split <;> omega
  have hR2 : roundQ (n / 2 ^ s) (n % 2 ^ s) (2 ^ s) ≤ 2 ^ F.mant + 2 ^ F.mant := by
    rw [pow_succ] at hq2
    unfold roundQ
    split <;> omega
  have hexact : n ≤ 2 ^ (F.mant + 1) → roundQ (n / 2 ^ s) (n % 2 ^ s) (2 ^ s) * 2 ^ s = n := by
    intro h
    have hn2 : n = 2 ^ (F.mant + 1) := by
      refine Nat.le_antisymm h (le_trans ?_ htop1)
      exact Nat.pow_le_pow_right (by decide) (by omega)
    have hs1 : s = 1 := by
      by_contra hc
      have : 2 ^ (F.mant + 2) ≤ 2 ^ (F.mant + s) := Nat.pow_le_pow_right (by decide) (by omega)
      have h3 : 2 ^ (F.mant + 1) < 2 ^ (F.mant + 2) := Nat.pow_lt_pow_right (by decide) (by omega)
      omega
    subst hs1
    have hmod : n % 2 ^ 1 = 0 := by
      rw [hn2, pow_succ]
      simp
    have : roundQ (n / 2 ^ 1) (n % 2 ^ 1) (2 ^ 1) = n / 2 ^ 1 := by
      unfold roundQ
      rw [hmod]
      simp
    rw [this]
    rw [hmod] at hqr
    exact hqr
  have hqrI : ((n / 2 ^ s : Nat) : Int) * ((2 ^ s : Nat) : Int) + ((n % 2 ^ s : Nat) : Int) = (n : Int) := by
    exact_mod_cast hqr
  rw [hqrI] at hspec
  generalize roundQ (n / 2 ^ s) (n % 2 ^ s) (2 ^ s) = R at hspec hR1 hR2 hexact
  have hmag : F.mag ((F.mant + s + (F.scale - F.mant + 1)) * 2 ^ F.mant + (R - 2 ^ F.mant)) =
      R * 2 ^ s * 2 ^ F.scale := by
    rw [parts _ _ (by omega) (by omega) (by omega), Nat.add_sub_cancel' hR1, Nat.mul_assoc, ← pow_add]
    congr 2
    omega
  have hparity : R % 2 = 0 → ((F.mant + s + (F.scale - F.mant + 1)) * 2 ^ F.mant + (R - 2 ^ F.mant)) % 2 = 0 := by
    intro h
    obtain ⟨d, hd⟩ : ∃ d, F.mant = d + 1 := ⟨F.mant - 1, by omega⟩
    have h2 : 2 ^ F.mant = 2 * 2 ^ d := by rw [hd, pow_succ]; ring
    rw [h2]
    rw [h2] at hR1
    have : (F.mant + s + (F.scale - F.mant + 1)) * (2 * 2 ^ d) = 2 * ((F.mant + s + (F.scale - F.mant + 1)) * 2 ^ d) := by ring
    omega
  refine ⟨small _ _ (by omega) (by omega), fun x hx => ?_, fun h => by rw [hmag, hexact h]⟩
  rw [hmag]
  -- scaling
  have hU : (0 : Int) < 2 ^ F.scale := by positivity
  have scale : ∀ a : Int, |a * 2 ^ F.scale - n * 2 ^ F.scale| = |a - n| * 2 ^ F.scale := by
    intro a
    rw [← sub_mul, abs_mul, abs_of_pos hU]
  have eR : |((R * 2 ^ s * 2 ^ F.scale : Nat) : Int) - n * 2 ^ F.scale| = |(R * 2 ^ s : Int) - n| * 2 ^ F.scale := by
    push_cast
    exact scale _
  rw [eR]
  by_cases hbig : (2 : Int) ^ (F.mant + s + F.scale) ≤ x
  · -- a multiple
    have hdvd := hx (s + F.scale) (by
      have : ((2 ^ (s + F.scale + F.mant) : Nat) : Int) ≤ x := by
        push_cast
        rw [show s + F.scale + F.mant = F.mant + s + F.scale by omega]
        exact hbig
      omega)
    obtain ⟨j, hj⟩ := hdvd
    have hxj : x = j * 2 ^ s * 2 ^ F.scale := by rw [hj, pow_add]; ring
    rw [hxj, scale]
    obtain ⟨h1, h2⟩ := hspec j
    push_cast at h1 h2
    refine ⟨mul_le_mul_of_nonneg_right h1 hU.le, fun e => ?_⟩
    rcases h2 (mul_right_cancel₀ hU.ne' e) with h | h
    · left
      rw [h]
      push_cast
      ring
    · exact .inr (hparity h)
  · -- below the power of two under `n`
    have hlt : x < 2 ^ (F.mant + s + F.scale) := by omega
    obtain ⟨h1, _⟩ := hspec (2 ^ F.mant)
    push_cast at h1
    have hn1 : (2 : Int) ^ F.mant * 2 ^ s ≤ n := by
      rw [← pow_add]
      exact_mod_cast htop1
    rw [abs_of_nonpos (by linarith : (2 : Int) ^ F.mant * 2 ^ s - n ≤ 0)] at h1
    have hx2 : x < 2 ^ F.mant * 2 ^ s * 2 ^ F.scale := by
      rw [← pow_add, ← pow_add]
      exact hlt
    have hx3 : |x - n * 2 ^ F.scale| = n * 2 ^ F.scale - x := by
      have : (2 : Int) ^ F.mant * 2 ^ s * 2 ^ F.scale ≤ n * 2 ^ F.scale := mul_le_mul_of_nonneg_right hn1 hU.le
      rw [abs_of_nonpos (by linarith)]
      ring
    have h4 : |(R * 2 ^ s : Int) - n| * 2 ^ F.scale ≤ -(2 ^ F.mant * 2 ^ s - (n : Int)) * 2 ^ F.scale :=
      mul_le_mul_of_nonneg_right h1 hU.le
    have h5 : -(2 ^ F.mant * 2 ^ s - (n : Int)) * 2 ^ F.scale = n * 2 ^ F.scale - 2 ^ F.mant * 2 ^ s * 2 ^ F.scale := by ring
    rw [hx3]
    exact ⟨by linarith, fun e => by exfalso; linarith⟩

/-- What `castInt` does. -/
structure CastI (F : FloatFormat) (z : Int) (b : Nat) : Prop where
  lt : b < 2 ^ (F.mant + F.expo + 1)
  near : ∀ x, Grid F x → |F.num b - z * 2 ^ F.scale| ≤ |x - z * 2 ^ F.scale| ∧
    (|F.num b - z * 2 ^ F.scale| = |x - z * 2 ^ F.scale| → x = F.num b ∨ b % 2 = 0)
  exact : z.natAbs ≤ 2 ^ (F.mant + 1) → F.num b = z * 2 ^ F.scale

theorem num_pos {b : Nat} (h : b < 2 ^ (F.mant + F.expo)) : F.num b = F.mag b := by
  unfold num neg
  rw [Nat.div_eq_of_lt h]
  simp

theorem num_neg {b : Nat} (h : b < 2 ^ (F.mant + F.expo)) :
    F.num (2 ^ (F.mant + F.expo) + b) = -(F.mag b : Int) := by
  have hp : 0 < 2 ^ (F.mant + F.expo) := by positivity
  have hn : F.neg (2 ^ (F.mant + F.expo) + b) = true := by
    unfold neg
    rw [Nat.add_div_left _ hp, Nat.div_eq_of_lt h]
    rfl
  have hx : F.exponent (2 ^ (F.mant + F.expo) + b) = F.exponent b := by
    unfold exponent
    rw [pow_add, Nat.mul_add_div (by positivity), Nat.add_mod_left]
  have hm : F.mantissa (2 ^ (F.mant + F.expo) + b) = F.mantissa b := by
    unfold mantissa
    rw [pow_add, Nat.mul_add_mod]
  unfold num
  rw [if_pos hn]
  unfold mag
  rw [hx, hm]

theorem castInt_spec (hms : F.mant ≤ F.scale) (hm1 : 1 ≤ F.mant) (z : Int)
    (hfit : z ≠ 0 → Nat.log2 z.natAbs + (F.scale - F.mant + 1) + 1 < 2 ^ F.expo) : CastI F z (F.castInt z) := by
  have h := castNat_spec (F := F) hms hm1 z.natAbs (fun h => hfit (by omega))
  unfold castInt
  generalize F.castNat z.natAbs = b at h
  have hpow : 2 ^ (F.mant + F.expo + 1) = 2 ^ (F.mant + F.expo) + 2 ^ (F.mant + F.expo) := by rw [pow_succ]; ring
  have hlt := h.lt
  by_cases hz : z < 0
  · rw [if_pos hz]
    have hN : (z.natAbs : Int) = -z := by omega
    refine ⟨by omega, fun x hx => ?_, fun he => ?_⟩
    · obtain ⟨h1, h2⟩ := h.near (-x) hx.neg
      rw [hN] at h1 h2
      have e1 : ∀ y : Int, |y - -z * 2 ^ F.scale| = |-y - z * 2 ^ F.scale| := by
        intro y
        rw [← abs_neg]
        congr 1
        ring
      rw [e1, e1, neg_neg] at h1 h2
      rw [num_neg h.lt]
      refine ⟨h1, fun e => ?_⟩
      rcases h2 e with h3 | h3
      · exact .inl (by omega)
      · right
        obtain ⟨d, hd⟩ : ∃ d, F.mant + F.expo = d + 1 := ⟨F.mant + F.expo - 1, by omega⟩
        rw [hd, pow_succ]
        omega
    · rw [num_neg h.lt, h.exact he]
      push_cast
      rw [show |z| = -z from abs_of_neg hz]
      ring
  · rw [if_neg hz]
    have hN : (z.natAbs : Int) = z := by omega
    refine ⟨by omega, fun x hx => ?_, fun he => ?_⟩
    · obtain ⟨h1, h2⟩ := h.near x hx
      rw [hN] at h1 h2
      rw [num_pos h.lt]
      exact ⟨h1, h2⟩
    · rw [num_pos h.lt, h.exact he]
      push_cast
      rw [show |z| = z from abs_of_nonneg (by omega)]

end FloatFormat

end Souris
