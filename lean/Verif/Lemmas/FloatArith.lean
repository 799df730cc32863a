import Verif.Lemmas.FloatCast
import Verif.Model.FloatArith

/-! # Lemmas about rounding to floats -/

namespace Souris

namespace FloatFormat

/-- `a / D`, rounded to the nearest integer, ties to even. -/
def rne (a D : Nat) : Nat := roundQ (a / D) (a % D) D

theorem rne_lo (a D : Nat) : a / D ≤ rne a D := by
  unfold rne roundQ; split <;> omega

theorem rne_hi (a D : Nat) : rne a D ≤ a / D + 1 := by
  unfold rne roundQ; split <;> omega

theorem rne_exact {a D q : Nat} (hD : 0 < D) (h : a = q * D) : rne a D = q := by
  subst h
  unfold rne roundQ
  rw [Nat.mul_mod_left, Nat.mul_div_cancel _ hD]
  rw [if_neg]
  simp
  omega

/-- Rounding keeps the order of ratios. -/
theorem rne_mono {a D a' D' : Nat} (hD : 0 < D) (hD' : 0 < D') (h : a * D' ≤ a' * D) : rne a D ≤ rne a' D' := by
  have hq : a / D ≤ a' / D' := by
    rw [Nat.le_div_iff_mul_le hD']
    refine Nat.le_of_mul_le_mul_right ?_ hD
    calc a / D * D' * D = a / D * D * D' := by ring
      _ ≤ a * D' := Nat.mul_le_mul_right _ (Nat.div_mul_le_self a D)
      _ ≤ _ := h
  rcases Nat.lt_or_ge (a / D) (a' / D') with hlt | hge
  · exact (rne_hi a D).trans (Nat.le_trans hlt (rne_lo a' D'))
  · have he : a / D = a' / D' := Nat.le_antisymm hq hge
    unfold rne
    rw [← he]
    have e1 := Nat.div_add_mod a D
    have e2 := Nat.div_add_mod a' D'
    rw [← he] at e2
    generalize a / D = q at *
    generalize a % D = r at *
    generalize a' % D' = r' at *
    have hr : r * D' ≤ r' * D := by
      rw [← e1, ← e2] at h
      have : (D * q + r) * D' = D * q * D' + r * D' := by ring
      have : (D' * q + r') * D = D * q * D' + r' * D := by ring
      omega
    unfold roundQ
    split
    · rename_i hup
      have : (decide (D' < 2 * r') || (decide (2 * r' = D') && decide (q % 2 = 1))) = true := by
        simp only [Bool.or_eq_true, Bool.and_eq_true, decide_eq_true_eq] at hup ⊢
        rcases hup with hup | ⟨hup, ho⟩
        · left
          by_contra hc
          have h1 : D * D' < 2 * r * D' := Nat.mul_lt_mul_of_pos_right hup hD'
          have h2 : 2 * r' * D ≤ D' * D := Nat.mul_le_mul_right _ (by omega)
          nlinarith
        · by_cases hc : D' < 2 * r'
          · exact .inl hc
          · refine .inr ⟨?_, ho⟩
            by_contra hne
            have h2 : 2 * r' * D < D' * D := Nat.mul_lt_mul_of_pos_right (by omega) hD
            have h1 : D * D' = 2 * r * D' := by rw [hup]
            nlinarith
      rw [if_pos this]
    · split <;> omega

/-- What is assumed of a format. -/
structure Good (F : FloatFormat) : Prop where
  m1 : 1 ≤ F.mant
  ms : F.mant < F.scale
  e2 : 2 ≤ F.expo

theorem f64_good : Good f64Format := ⟨by decide, by decide, by decide⟩

variable {F : FloatFormat}

theorem ofRatio_eq (F : FloatFormat) (n d : Nat) : F.ofRatio n d =
    min (F.spacing n d * 2 ^ F.mant + rne (n * 2 ^ F.scale) (d * 2 ^ F.spacing n d)) F.inf := rfl

/-- The spacing of a number that has a spacing. -/
def space (F : FloatFormat) (A : Nat) : Nat := if A < 2 ^ (F.mant + 1) then 0 else Nat.log2 A - F.mant

theorem spacing_eq (F : FloatFormat) (n d : Nat) : F.spacing n d = space F (n * 2 ^ F.scale / d) := rfl

theorem space_mono {A B : Nat} (h : A ≤ B) : space F A ≤ space F B := by
  unfold space
  split
  · omega
  · rename_i h1
    rw [if_neg (by omega)]
    have hA : A ≠ 0 := by have := Nat.two_pow_pos (F.mant + 1); omega
    have : A.log2 ≤ B.log2 := by
      rw [Nat.le_log2 (by omega)]
      exact (Nat.log2_self_le hA).trans h
    omega

/-- The quotient by the spacing has at most `mant + 1` bits. -/
theorem space_hi (A : Nat) : A / 2 ^ space F A < 2 ^ (F.mant + 1) := by
  unfold space
  split
  · rename_i h; simpa using h
  · rename_i h
    have hA : A ≠ 0 := by have := Nat.two_pow_pos (F.mant + 1); omega
    rw [Nat.div_lt_iff_lt_mul (by positivity), ← pow_add]
    have h1 : F.mant + 1 ≤ A.log2 := (Nat.le_log2 hA).mpr (by omega)
    rw [show F.mant + 1 + (A.log2 - F.mant) = A.log2 + 1 by omega]
    exact Nat.lt_log2_self

/-- And it has that many unless the spacing is the least one. -/
theorem space_lo {A : Nat} (h : 0 < space F A) : 2 ^ F.mant ≤ A / 2 ^ space F A := by
  unfold space at h ⊢
  split at h
  · omega
  · rename_i h1
    rw [if_neg h1]
    have hA : A ≠ 0 := by have := Nat.two_pow_pos (F.mant + 1); omega
    rw [Nat.le_div_iff_mul_le (by positivity), ← pow_add]
    rw [show F.mant + (A.log2 - F.mant) = A.log2 by omega]
    exact Nat.log2_self_le hA

/-- The spacing, from the quotient. -/
theorem space_of {A s : Nat} (h1 : A / 2 ^ s < 2 ^ (F.mant + 1)) (h2 : s = 0 ∨ 2 ^ F.mant ≤ A / 2 ^ s) :
    space F A = s := by
  unfold space
  rcases h2 with rfl | h2
  · rw [if_pos (by simpa using h1)]
  · have hp : 0 < 2 ^ s := by positivity
    rw [Nat.le_div_iff_mul_le hp, ← pow_add] at h2
    rw [Nat.div_lt_iff_lt_mul hp, ← pow_add] at h1
    have hA : A ≠ 0 := by have := Nat.two_pow_pos (F.mant + s); omega
    have : A.log2 = F.mant + s := by
      rw [Nat.log2_eq_iff hA]
      exact ⟨h2, by rw [show F.mant + s + 1 = F.mant + 1 + s by omega]; exact h1⟩
    split
    · rename_i h
      by_contra hc
      have : 2 ^ (F.mant + 1) ≤ 2 ^ (F.mant + s) := Nat.pow_le_pow_right (by decide) (by omega)
      omega
    · omega

/-- The rounded quotient lies between the bounds for codes. -/
theorem quot_bounds (n d : Nat) :
    rne (n * 2 ^ F.scale) (d * 2 ^ F.spacing n d) ≤ 2 ^ (F.mant + 1) ∧
    (0 < F.spacing n d → 2 ^ F.mant ≤ rne (n * 2 ^ F.scale) (d * 2 ^ F.spacing n d)) := by
  have h1 := rne_hi (n * 2 ^ F.scale) (d * 2 ^ F.spacing n d)
  have h2 := rne_lo (n * 2 ^ F.scale) (d * 2 ^ F.spacing n d)
  rw [← Nat.div_div_eq_div_mul] at h1 h2
  constructor
  · have := space_hi (F := F) (n * 2 ^ F.scale / d)
    rw [← spacing_eq] at this
    omega
  · intro h
    have := space_lo (F := F) (A := n * 2 ^ F.scale / d) (by rwa [← spacing_eq])
    rw [← spacing_eq] at this
    omega

/-- Rounding to floats keeps the order. -/
theorem ofRatio_mono {n d n' d' : Nat} (hd : 0 < d) (hd' : 0 < d') (h : n * d' ≤ n' * d) :
    F.ofRatio n d ≤ F.ofRatio n' d' := by
  rw [ofRatio_eq, ofRatio_eq]
  refine min_le_min_right _ ?_
  have hA : n * 2 ^ F.scale / d ≤ n' * 2 ^ F.scale / d' := by
    rw [Nat.le_div_iff_mul_le hd']
    refine Nat.le_of_mul_le_mul_right ?_ hd
    calc n * 2 ^ F.scale / d * d' * d = n * 2 ^ F.scale / d * d * d' := by ring
      _ ≤ n * 2 ^ F.scale * d' := Nat.mul_le_mul_right _ (Nat.div_mul_le_self _ _)
      _ = n * d' * 2 ^ F.scale := by ring
      _ ≤ n' * d * 2 ^ F.scale := Nat.mul_le_mul_right _ h
      _ = _ := by ring
  have hs : F.spacing n d ≤ F.spacing n' d' := by
    rw [spacing_eq, spacing_eq]; exact space_mono hA
  have b1 := (quot_bounds (F := F) n d).1
  have b2 := (quot_bounds (F := F) n' d').2
  rcases Nat.lt_or_ge (F.spacing n d) (F.spacing n' d') with hlt | hge
  · have b2 := b2 (by omega)
    rw [pow_succ] at b1
    have : (F.spacing n d + 1) * 2 ^ F.mant ≤ F.spacing n' d' * 2 ^ F.mant := Nat.mul_le_mul_right _ hlt
    rw [Nat.add_mul] at this
    omega
  · have he : F.spacing n d = F.spacing n' d' := by omega
    rw [he]
    refine Nat.add_le_add_left (rne_mono (by positivity) (by positivity) ?_) _
    calc n * 2 ^ F.scale * (d' * 2 ^ F.spacing n' d') = n * d' * (2 ^ F.scale * 2 ^ F.spacing n' d') := by ring
      _ ≤ n' * d * (2 ^ F.scale * 2 ^ F.spacing n' d') := Nat.mul_le_mul_right _ h
      _ = _ := by ring

/-- Only the ratio matters. -/
theorem ofRatio_congr {n d n' d' : Nat} (hd : 0 < d) (hd' : 0 < d') (h : n * d' = n' * d) :
    F.ofRatio n d = F.ofRatio n' d' :=
  Nat.le_antisymm (ofRatio_mono hd hd' h.le) (ofRatio_mono hd' hd h.ge)

theorem ofRatio_le_inf (n d : Nat) : F.ofRatio n d ≤ F.inf := by
  rw [ofRatio_eq]; exact min_le_right _ _

theorem inf_eq (F : FloatFormat) : F.inf + 2 ^ F.mant = 2 ^ F.expo * 2 ^ F.mant := by
  unfold inf
  have := Nat.two_pow_pos F.expo
  rw [← Nat.succ_mul, Nat.succ_eq_add_one, Nat.sub_add_cancel this]

/-- The float with a spacing and a quotient. -/
theorem mag_code {s q : Nat} (hq : q ≤ 2 ^ (F.mant + 1)) (hs : s = 0 ∨ 2 ^ F.mant ≤ q) (hfin : s * 2 ^ F.mant + q < F.inf) :
    F.mag (s * 2 ^ F.mant + q) = q * 2 ^ s := by
  have hp := Nat.two_pow_pos F.mant
  have hi := inf_eq F
  rcases Nat.lt_or_ge q (2 ^ F.mant) with hlt | hge
  · rcases hs with rfl | hs
    · have h0 : F.exponent q = 0 := by
        unfold exponent
        rw [Nat.div_eq_of_lt hlt, Nat.zero_mod]
      simp only [Nat.zero_mul, Nat.zero_add, pow_zero, Nat.mul_one]
      unfold mag
      rw [if_pos h0]
      exact Nat.mod_eq_of_lt hlt
    · omega
  · rw [pow_succ] at hq
    have e1 : s * 2 ^ F.mant + q = (s + 1) * 2 ^ F.mant + (q - 2 ^ F.mant) := by rw [Nat.add_mul]; omega
    rw [e1, (mag_parts (by omega) (by omega) ?_).1, Nat.add_sub_cancel' hge, Nat.add_sub_cancel]
    have : (s + 1 + (if q - 2 ^ F.mant = 2 ^ F.mant then 1 else 0)) * 2 ^ F.mant < 2 ^ F.expo * 2 ^ F.mant := by
      rw [Nat.add_mul]
      split <;> omega
    exact Nat.lt_of_mul_lt_mul_right this

/-- Every finite float has a spacing and a quotient. -/
theorem decode {b : Nat} (hb : b < F.inf) : ∃ s q, b = s * 2 ^ F.mant + q ∧ q < 2 ^ (F.mant + 1) ∧
    (s = 0 ∨ 2 ^ F.mant ≤ q) ∧ F.mag b = q * 2 ^ s := by
  have hp := Nat.two_pow_pos F.mant
  have hm : b % 2 ^ F.mant < 2 ^ F.mant := Nat.mod_lt _ hp
  have e := Nat.div_add_mod b (2 ^ F.mant)
  have : ∃ s q, b = s * 2 ^ F.mant + q ∧ q < 2 ^ (F.mant + 1) ∧ (s = 0 ∨ 2 ^ F.mant ≤ q) := by
    rw [pow_succ]
    cases h : b / 2 ^ F.mant with
    | zero =>
      rw [h] at e
      exact ⟨0, b, by omega, by omega, .inl rfl⟩
    | succ k =>
      rw [h] at e
      refine ⟨k, 2 ^ F.mant + b % 2 ^ F.mant, ?_, by omega, .inr (by omega)⟩
      rw [Nat.mul_succ, Nat.mul_comm] at e
      omega
  obtain ⟨s, q, h1, h2, h3⟩ := this
  exact ⟨s, q, h1, h2, h3, by rw [h1]; exact mag_code h2.le h3 (h1 ▸ hb)⟩

/-- A number that is a float is itself. -/
theorem ofRatio_self {b : Nat} (hb : b < F.inf) : F.ofRatio (F.mag b) (2 ^ F.scale) = b := by
  obtain ⟨s, q, h1, h2, h3, h4⟩ := decode hb
  have hs : F.spacing (F.mag b) (2 ^ F.scale) = s := by
    rw [spacing_eq, Nat.mul_div_cancel _ (by positivity), h4]
    refine space_of ?_ ?_ <;> rw [Nat.mul_div_cancel _ (by positivity)] <;> assumption
  rw [ofRatio_eq, hs, rne_exact (q := q) (by positivity) (by rw [h4]; ring), ← h1]
  exact min_eq_left hb.le

theorem ofRatio_of_mag {b n d : Nat} (hb : b < F.inf) (hd : 0 < d) (h : n * 2 ^ F.scale = F.mag b * d) :
    F.ofRatio n d = b := by
  rw [← ofRatio_self hb]
  exact ofRatio_congr hd (by positivity) h

/-- Numbers with few significant bits are floats. -/
theorem exists_mag {c j : Nat} (hc : c < 2 ^ (F.mant + 1)) (hj : j + 3 ≤ 2 ^ F.expo) :
    ∃ b, b < F.inf ∧ F.mag b = c * 2 ^ j := by
  have hi := inf_eq F
  have hp := Nat.two_pow_pos F.mant
  have h1 := space_hi (F := F) (c * 2 ^ j)
  have h2 := space_lo (F := F) (A := c * 2 ^ j)
  have h3 : space F (c * 2 ^ j) ≤ j := by
    by_contra hcon
    have h2 := h2 (by omega)
    rw [Nat.le_div_iff_mul_le (by positivity), ← pow_add] at h2
    have h4 : c * 2 ^ j < 2 ^ (F.mant + 1) * 2 ^ j := Nat.mul_lt_mul_of_pos_right hc (by positivity)
    rw [← pow_add] at h4
    have h5 : 2 ^ (F.mant + 1 + j) ≤ 2 ^ (F.mant + space F (c * 2 ^ j)) := Nat.pow_le_pow_right (by decide) (by omega)
    omega
  generalize hs : space F (c * 2 ^ j) = s at *
  have hd : c * 2 ^ j / 2 ^ s * 2 ^ s = c * 2 ^ j :=
    Nat.div_mul_cancel (Dvd.dvd.mul_left (Nat.pow_dvd_pow 2 h3) _)
  generalize c * 2 ^ j / 2 ^ s = q at *
  have hfin : s * 2 ^ F.mant + q < F.inf := by
    have : (j + 3) * 2 ^ F.mant ≤ 2 ^ F.expo * 2 ^ F.mant := Nat.mul_le_mul_right _ hj
    have h6 : s * 2 ^ F.mant ≤ j * 2 ^ F.mant := Nat.mul_le_mul_right _ h3
    rw [Nat.add_mul] at this
    rw [pow_succ] at h1
    omega
  refine ⟨_, hfin, ?_⟩
  rw [mag_code h1.le (by rcases Nat.eq_zero_or_pos s with h | h; exact .inl h; exact .inr (h2 h)) hfin, hd]

/-- Such numbers are kept. -/
theorem mag_ofRatio {n d c j : Nat} (hd : 0 < d) (hc : c < 2 ^ (F.mant + 1)) (hj : j + 3 ≤ 2 ^ F.expo)
    (h : n * 2 ^ F.scale = c * 2 ^ j * d) : F.mag (F.ofRatio n d) = c * 2 ^ j ∧ F.ofRatio n d < F.inf := by
  obtain ⟨b, hb, hm⟩ := exists_mag (F := F) hc hj
  have := ofRatio_of_mag hb hd (by rw [h, hm])
  rw [this]
  exact ⟨hm, hb⟩

/-- A ratio that is at most a finite float is rounded to a finite float that is at most as large. -/
theorem ofRatio_le {b n d : Nat} (hb : b < F.inf) (hd : 0 < d) (h : n * 2 ^ F.scale ≤ F.mag b * d) :
    F.ofRatio n d ≤ b := by
  conv_rhs => rw [← ofRatio_self hb]
  exact ofRatio_mono hd (by positivity) h

theorem le_ofRatio {b n d : Nat} (hb : b < F.inf) (hd : 0 < d) (h : F.mag b * d ≤ n * 2 ^ F.scale) :
    b ≤ F.ofRatio n d := by
  conv_lhs => rw [← ofRatio_self hb]
  exact ofRatio_mono (by positivity) hd h

/-- The order of finite floats is that of their bits. -/
theorem mag_lt {a b : Nat} (h : a < b) (hb : b < F.inf) : F.mag a < F.mag b := by
  by_contra hc
  have := ofRatio_le (F := F) (n := F.mag b) (d := 2 ^ F.scale) (h.trans hb) (by positivity)
    (Nat.mul_le_mul_right _ (by omega))
  rw [ofRatio_self hb] at this
  omega

theorem mag_mono {a b : Nat} (h : a ≤ b) (hb : b < F.inf) : F.mag a ≤ F.mag b := by
  rcases Nat.lt_or_ge a b with h1 | h1
  · exact (mag_lt h1 hb).le
  · rw [Nat.le_antisymm h h1]

/-- What a finite result is. -/
theorem ofRatio_fin {n d : Nat} (h : F.ofRatio n d < F.inf) :
    F.ofRatio n d = F.spacing n d * 2 ^ F.mant + rne (n * 2 ^ F.scale) (d * 2 ^ F.spacing n d) ∧
    F.mag (F.ofRatio n d) = rne (n * 2 ^ F.scale) (d * 2 ^ F.spacing n d) * 2 ^ F.spacing n d := by
  have hb := quot_bounds (F := F) n d
  have e : F.ofRatio n d = F.spacing n d * 2 ^ F.mant + rne (n * 2 ^ F.scale) (d * 2 ^ F.spacing n d) := by
    rw [ofRatio_eq] at h ⊢
    rcases min_lt_iff.mp h with h | h
    · exact min_eq_left h.le
    · omega
  refine ⟨e, ?_⟩
  rw [e] at h ⊢
  exact mag_code hb.1 (by rcases Nat.eq_zero_or_pos (F.spacing n d) with h | h; exact .inl h; exact .inr (hb.2 h)) h

/-- No float is nearer, and the bits are even when another one is as near. -/
theorem ofRatio_near {n d : Nat} (hm1 : 1 ≤ F.mant) (hd : 0 < d) (h : F.ofRatio n d < F.inf) (x : Int) (hx : Grid F x) :
    |(F.mag (F.ofRatio n d) * d : Int) - n * 2 ^ F.scale| ≤ |x * d - n * 2 ^ F.scale| ∧
    (|(F.mag (F.ofRatio n d) * d : Int) - n * 2 ^ F.scale| = |x * d - n * 2 ^ F.scale| →
      x = F.mag (F.ofRatio n d) ∨ F.ofRatio n d % 2 = 0) := by
  obtain ⟨h1, h2⟩ := ofRatio_fin h
  have hlo := fun hs => space_lo (F := F) (A := n * 2 ^ F.scale / d) hs
  rw [← spacing_eq, Nat.div_div_eq_div_mul] at hlo
  rw [h2, h1]
  generalize F.spacing n d = s at *
  unfold rne at *
  have hDpos : 0 < d * 2 ^ s := by positivity
  have hr := Nat.mod_lt (n * 2 ^ F.scale) hDpos
  have hqr : n * 2 ^ F.scale / (d * 2 ^ s) * (d * 2 ^ s) + n * 2 ^ F.scale % (d * 2 ^ s) = n * 2 ^ F.scale := by
    rw [Nat.mul_comm]; exact Nat.div_add_mod _ _
  have hspec := roundQ_spec (n * 2 ^ F.scale / (d * 2 ^ s)) (n * 2 ^ F.scale % (d * 2 ^ s)) (d * 2 ^ s) hDpos hr
  generalize hN : n * 2 ^ F.scale = N at *
  have hNI : (n * 2 ^ F.scale : Int) = N := by rw [← hN]; push_cast; ring
  rw [hNI]
  generalize N / (d * 2 ^ s) = q at *
  generalize N % (d * 2 ^ s) = r at *
  have hqrI : (q : Int) * ((d * 2 ^ s : Nat) : Int) + (r : Int) = (N : Int) := by exact_mod_cast hqr
  rw [hqrI] at hspec
  generalize roundQ q r (d * 2 ^ s) = R at *
  have hparity : R % 2 = 0 → (s * 2 ^ F.mant + R) % 2 = 0 := by
    intro h
    obtain ⟨k, hk⟩ : ∃ k, F.mant = k + 1 := ⟨F.mant - 1, by omega⟩
    have h2 : s * 2 ^ F.mant = 2 * (s * 2 ^ k) := by rw [hk, pow_succ]; ring
    omega
  have eR : ((R * 2 ^ s : Nat) : Int) * d = R * ((d * 2 ^ s : Nat) : Int) := by push_cast; ring
  rw [eR]
  by_cases hdv : (2 : Int) ^ s ∣ x
  · obtain ⟨j, hj⟩ := hdv
    have hxj : x * d = j * ((d * 2 ^ s : Nat) : Int) := by rw [hj]; push_cast; ring
    rw [hxj]
    obtain ⟨a1, a2⟩ := hspec j
    refine ⟨a1, fun e => ?_⟩
    rcases a2 e with h | h
    · left; rw [hj, h]; push_cast; ring
    · exact .inr (hparity h)
  · have hs : 0 < s := by
      rcases Nat.eq_zero_or_pos s with h | h
      · subst h; exact absurd (one_dvd x) (by simp at hdv)
      · exact h
    have hxs : x.natAbs < 2 ^ (s + F.mant) := by
      by_contra hc
      exact hdv (hx s (by omega))
    have hq := hlo hs
    obtain ⟨a1, _⟩ := hspec q
    have hx' : x < 2 ^ F.mant * 2 ^ s := by
      have h3 : x ≤ (x.natAbs : Int) := Int.le_natAbs
      have h4 : (2 : Int) ^ (s + F.mant) = 2 ^ F.mant * 2 ^ s := by rw [pow_add]; ring
      have h5 : ((x.natAbs : Nat) : Int) < 2 ^ (s + F.mant) := by
        have : ((x.natAbs : Nat) : Int) < ((2 ^ (s + F.mant) : Nat) : Int) := by exact_mod_cast hxs
        simpa using this
      linarith
    have hd' : (0 : Int) < d := by exact_mod_cast hd
    have h3 : x * d < q * ((d * 2 ^ s : Nat) : Int) := by
      have hq' : (2 : Int) ^ F.mant ≤ q := by exact_mod_cast hq
      push_cast
      calc x * d < 2 ^ F.mant * 2 ^ s * d := mul_lt_mul_of_pos_right hx' hd'
        _ = 2 ^ F.mant * (d * 2 ^ s) := by ring
        _ ≤ _ := mul_le_mul_of_nonneg_right hq' (by positivity)
    have h4 : |(q : Int) * ((d * 2 ^ s : Nat) : Int) - N| = r := by
      rw [abs_of_nonpos (by omega)]; omega
    have h5 : |x * (d : Int) - N| = N - x * d := by rw [abs_of_nonpos (by omega)]; omega
    rw [h4] at a1
    rw [h5]
    constructor
    · omega
    · intro e; exfalso; omega

/-- A ratio of at least one unit is rounded to at least half of it. -/
theorem half_le_mag {n d : Nat} (hd : 0 < d) (h : F.ofRatio n d < F.inf) (h1 : d ≤ n * 2 ^ F.scale) :
    n * 2 ^ F.scale ≤ 2 * F.mag (F.ofRatio n d) * d := by
  rw [(ofRatio_fin h).2]
  have hlo := fun hs => space_lo (F := F) (A := n * 2 ^ F.scale / d) hs
  rw [← spacing_eq, Nat.div_div_eq_div_mul] at hlo
  have hq := rne_lo (n * 2 ^ F.scale) (d * 2 ^ F.spacing n d)
  have hq1 : 1 ≤ n * 2 ^ F.scale / (d * 2 ^ F.spacing n d) := by
    rcases Nat.eq_zero_or_pos (F.spacing n d) with hs | hs
    · rw [hs, pow_zero, Nat.mul_one, Nat.le_div_iff_mul_le hd]
      omega
    · have := hlo hs
      have := Nat.two_pow_pos F.mant
      omega
  generalize F.spacing n d = s at *
  generalize rne (n * 2 ^ F.scale) (d * 2 ^ s) = R at *
  have hD : 0 < d * 2 ^ s := by positivity
  have hlt := Nat.lt_div_mul_add hD (a := n * 2 ^ F.scale)
  have h2 : n * 2 ^ F.scale / (d * 2 ^ s) * (d * 2 ^ s) ≤ R * (d * 2 ^ s) := Nat.mul_le_mul_right _ hq
  have h3 : 1 * (d * 2 ^ s) ≤ R * (d * 2 ^ s) := Nat.mul_le_mul_right _ (by omega)
  have h4 : 2 * (R * 2 ^ s) * d = R * (d * 2 ^ s) + R * (d * 2 ^ s) := by ring
  omega

/-- `as` is this rounding. -/
theorem castNat_eq (hF : Good F) {n : Nat} (hn : Nat.log2 n + F.scale + 3 ≤ 2 ^ F.expo + F.mant) :
    F.castNat n = F.ofRatio n 1 := by
  by_cases h0 : n = 0
  · subst h0
    rw [ofRatio_eq, spacing_eq]
    have : space F (0 * 2 ^ F.scale / 1) = 0 := space_of (by simp) (.inl rfl)
    rw [this, rne_exact (q := 0) (by simp) (by simp)]
    simp [castNat]
  have htop1 : 2 ^ Nat.log2 n ≤ n := Nat.log2_self_le h0
  have htop2 : n < 2 ^ (Nat.log2 n + 1) := Nat.lt_log2_self
  have hms := hF.ms
  have hs : F.spacing n 1 = Nat.log2 n + F.scale - F.mant := by
    rw [spacing_eq, Nat.div_one]
    refine space_of ?_ (.inr ?_)
    · rw [Nat.div_lt_iff_lt_mul (by positivity), ← pow_add,
        show F.mant + 1 + (n.log2 + F.scale - F.mant) = n.log2 + 1 + F.scale by omega, pow_add]
      exact Nat.mul_lt_mul_of_pos_right htop2 (by positivity)
    · rw [Nat.le_div_iff_mul_le (by positivity), ← pow_add,
        show F.mant + (n.log2 + F.scale - F.mant) = n.log2 + F.scale by omega, pow_add]
      exact Nat.mul_le_mul_right _ htop1
  have hfin : F.spacing n 1 * 2 ^ F.mant + rne (n * 2 ^ F.scale) (1 * 2 ^ F.spacing n 1) ≤ F.inf := by
    have hb := (quot_bounds (F := F) n 1).1
    rw [hs] at hb ⊢
    have hi := inf_eq F
    have : (n.log2 + F.scale - F.mant + 3) * 2 ^ F.mant ≤ 2 ^ F.expo * 2 ^ F.mant := Nat.mul_le_mul_right _ (by omega)
    rw [Nat.add_mul] at this
    rw [pow_succ] at hb
    omega
  rw [ofRatio_eq, min_eq_left hfin, hs]
  have hp := Nat.two_pow_pos F.mant
  unfold castNat
  rw [if_neg h0]
  simp only
  generalize Nat.log2 n = top at *
  by_cases htm : top ≤ F.mant
  · rw [if_pos htm, rne_exact (q := n * 2 ^ (F.mant - top)) (by positivity)]
    · have h1 : 2 ^ F.mant ≤ n * 2 ^ (F.mant - top) := by
        calc 2 ^ F.mant = 2 ^ top * 2 ^ (F.mant - top) := by rw [← pow_add]; congr 1; omega
          _ ≤ _ := Nat.mul_le_mul_right _ htop1
      rw [show top + (F.scale - F.mant + 1) = top + F.scale - F.mant + 1 by omega, Nat.add_mul]
      omega
    · rw [Nat.one_mul, Nat.mul_assoc, ← pow_add]
      congr 2
      omega
  · rw [if_neg htm]
    obtain ⟨s, rfl⟩ : ∃ s, top = F.mant + s := ⟨top - F.mant, by omega⟩
    rw [Nat.add_sub_cancel_left]
    have hrne : rne (n * 2 ^ F.scale) (1 * 2 ^ (F.mant + s + F.scale - F.mant)) = rne n (2 ^ s) := by
      rw [Nat.one_mul, show F.mant + s + F.scale - F.mant = s + F.scale by omega, pow_add]
      refine Nat.le_antisymm (rne_mono (by positivity) (by positivity) ?_) (rne_mono (by positivity) (by positivity) ?_)
      · apply le_of_eq; ring
      · apply le_of_eq; ring
    rw [hrne]
    have hfold : (if (decide (2 ^ s < 2 * (n % 2 ^ s)) || (decide (2 * (n % 2 ^ s) = 2 ^ s) &&
      decide (n / 2 ^ s % 2 = 1))) = true then n / 2 ^ s + 1 else n / 2 ^ s) = rne n (2 ^ s) := rfl
    rw [hfold]
    have hq1 : 2 ^ F.mant ≤ rne n (2 ^ s) := by
      refine le_trans ?_ (rne_lo _ _)
      rw [Nat.le_div_iff_mul_le (by positivity), ← pow_add]
      exact htop1
    rw [show F.mant + s + (F.scale - F.mant + 1) = F.mant + s + F.scale - F.mant + 1 by omega, Nat.add_mul]
    omega

end FloatFormat

end Souris
