import Verif.Lemmas.StdFloat
import Verif.Spec.StdText

/-! # Rounding decimals, in any format -/

namespace Souris

namespace StdText

open FloatFormat

variable {F : FloatFormat}

/-- The nearest float without sign. -/
def NearMag (F : FloatFormat) (a : Nat) (q : ℚ) : Prop :=
  ∀ c, c < F.inf → |val F a - q| ≤ |val F c - q| ∧ (|val F a - q| = |val F c - q| → c = a ∨ a % 2 = 0)

theorem val_inj {a b : Nat} (ha : a < F.inf) (hb : b < F.inf) (h : val F a = val F b) : a = b := by
  rcases Nat.lt_trichotomy a b with h1 | h1 | h1
  · exact absurd h (val_lt h1 hb).ne
  · exact h1
  · exact absurd h (val_lt h1 ha).ne'

theorem roundTo_nearMag (hm1 : 1 ≤ F.mant) {d : Nat} {k : Int} (h : roundTo F d k < F.inf) :
    NearMag F (roundTo F d k) (d * 10 ^ k) := by
  intro c hc
  obtain ⟨n, m, hm, e, hv⟩ := roundTo_ratio (F := F) d k
  have hg : Grid F (F.mag c) := by
    have := num_grid (F := F) c
    rwa [num_pos (lt_of_lt_of_le hc (by
      have := inf_eq F
      have hp := Nat.two_pow_pos F.mant
      rw [pow_add, Nat.mul_comm]
      omega))] at this
  rw [e] at h ⊢
  obtain ⟨n1, n2⟩ := ofRatio_near hm1 hm h (F.mag c) hg
  rw [← hv]
  have hcast : ((2 : Int) ^ F.scale) = ((2 ^ F.scale : Nat) : Int) := by rw [Nat.cast_pow]; rfl
  rw [hcast] at n1 n2
  unfold val
  have a1 := SerdeJson.abs_ratio (F.mag (F.ofRatio n m) : Int) (n := n) (d := m) (U := 2 ^ F.scale) hm (Nat.two_pow_pos _)
  have a2 := SerdeJson.abs_ratio (F.mag c : Int) (n := n) (d := m) (U := 2 ^ F.scale) hm (Nat.two_pow_pos _)
  rw [Int.cast_natCast] at a1 a2
  rw [a1, a2]
  have hU := unit_pos (F := F)
  have hm' : (0 : ℚ) < m := by exact_mod_cast hm
  refine ⟨div_le_div_of_nonneg_right (by exact_mod_cast n1) (mul_pos hm' hU).le, fun he => ?_⟩
  have e' := (div_left_inj' (mul_pos hm' hU).ne').mp he
  rcases n2 (by exact_mod_cast e') with h3 | h3
  · left
    have : F.mag c = F.mag (F.ofRatio n m) := by exact_mod_cast h3
    exact val_inj hc h (by unfold val; rw [this])
  · exact .inr h3

theorem nearMag_unique {a c : Nat} {q : ℚ} (ha : a < F.inf) (hc : c < F.inf) (h : NearMag F a q) (hn : NearMag F c q) : a = c := by
  obtain ⟨h1, h2⟩ := h c hc
  obtain ⟨h3, h4⟩ := hn a ha
  have heq : |val F a - q| = |val F c - q| := le_antisymm h1 h3
  by_contra hne
  have ea : a % 2 = 0 := (h2 heq).resolve_left fun e => hne e.symm
  have ec : c % 2 = 0 := (h4 heq.symm).resolve_left fun e => hne e
  rcases Nat.lt_or_ge a c with hlt | hge
  · have hm : a + 1 < c := by omega
    have := SerdeJson.abs_mid (val_lt (F := F) (Nat.lt_succ_self a) (by omega)) (val_lt hm hc) heq
    have h5 := (h (a + 1) (by omega)).1
    linarith only [this, h5]
  · have hm : c + 1 < a := by omega
    have := SerdeJson.abs_mid (val_lt (F := F) (Nat.lt_succ_self c) (by omega)) (val_lt hm ha) heq.symm
    have h5 := (hn (c + 1) (by omega)).1
    linarith only [this, h5]

/-! ## Too large numbers -/

/-- Twice the limit, in units of the smallest float. -/
def limitMag (F : FloatFormat) : Nat := (2 ^ (F.mant + 2) - 1) * 2 ^ (2 ^ F.expo - 3)

theorem ofRatio_fin_of {n d : Nat} (hd : 0 < d) (he : 2 ≤ F.expo) (h : 2 * (n * 2 ^ F.scale) < limitMag F * d) : F.ofRatio n d < F.inf := by
  by_contra hc
  have hE : 4 ≤ 2 ^ F.expo := le_trans (by decide) (Nat.pow_le_pow_right (by decide : 0 < 2) he)
  have hge : F.inf ≤ F.spacing n d * 2 ^ F.mant + rne (n * 2 ^ F.scale) (d * 2 ^ F.spacing n d) := by
    rw [ofRatio_eq] at hc
    by_contra h'
    exact hc (lt_of_le_of_lt (min_le_left _ _) (by omega))
  have hq := (quot_bounds (F := F) n d).1
  have hlo := fun hs => space_lo (F := F) (A := n * 2 ^ F.scale / d) hs
  have hhi := space_hi (F := F) (n * 2 ^ F.scale / d)
  rw [← spacing_eq, Nat.div_div_eq_div_mul] at hlo hhi
  generalize F.spacing n d = s at *
  unfold inf at hge
  unfold limitMag at h
  generalize n * 2 ^ F.scale = N at *
  generalize hS : 2 ^ F.expo - 3 = S at *
  have e1 : 2 ^ F.expo - 1 = S + 2 := by omega
  rw [e1] at hge
  have e2 : 2 ^ (F.mant + 1) = 2 * 2 ^ F.mant := by rw [pow_succ]; ring
  have e3 : 2 ^ (F.mant + 2) = 4 * 2 ^ F.mant := by rw [pow_add]; ring
  rw [e2] at hq hhi
  rw [e3] at h
  have hM := Nat.two_pow_pos F.mant
  generalize 2 ^ F.mant = M at *
  have hs : S ≤ s := by
    by_contra hlt
    have : (s + 1) * M ≤ S * M := Nat.mul_le_mul_right _ (by omega)
    have e4 : (S + 2) * M = S * M + 2 * M := by ring
    have e5 : (s + 1) * M = s * M + M := by ring
    omega
  rcases Nat.lt_or_ge S s with hs' | hs'
  · have h1 := hlo (by omega)
    have h2 : M * (d * 2 ^ s) ≤ N := by
      rw [Nat.le_div_iff_mul_le (by positivity)] at h1
      exact h1
    have h3 : 2 ^ (S + 1) ≤ 2 ^ s := Nat.pow_le_pow_right (by decide) hs'
    have h4 : M * (d * 2 ^ (S + 1)) ≤ N := le_trans (Nat.mul_le_mul_left _ (Nat.mul_le_mul_left _ h3)) h2
    have e6 : M * (d * 2 ^ (S + 1)) * 2 = 4 * M * (2 ^ S * d) := by rw [pow_succ]; ring
    have e7 : (4 * M - 1) * 2 ^ S * d ≤ 4 * M * (2 ^ S * d) := by
      rw [Nat.mul_assoc]
      exact Nat.mul_le_mul_right _ (by omega)
    omega
  · have : s = S := by omega
    subst this
    have e4 : (s + 2) * M = s * M + 2 * M := by ring
    have hr : rne N (d * 2 ^ s) = 2 * M := by omega
    have hq1 : N / (d * 2 ^ s) + 1 = 2 * M := by
      have := rne_hi N (d * 2 ^ s)
      omega
    have hup : d * 2 ^ s ≤ 2 * (N % (d * 2 ^ s)) := by
      unfold rne roundQ at hr
      simp only [Bool.or_eq_true, Bool.and_eq_true, decide_eq_true_eq] at hr
      split at hr
      · omega
      · omega
    have hN := Nat.div_add_mod N (d * 2 ^ s)
    have hq2 : N / (d * 2 ^ s) = 2 * M - 1 := by omega
    rw [hq2] at hN
    have e8 : (4 * M - 1) * 2 ^ s * d = 2 * (d * 2 ^ s * (2 * M - 1)) + d * 2 ^ s := by
      obtain ⟨m, rfl⟩ : ∃ m, M = m + 1 := ⟨M - 1, by omega⟩
      have a1 : 4 * (m + 1) - 1 = 4 * m + 3 := by omega
      have a2 : 2 * (m + 1) - 1 = 2 * m + 1 := by omega
      rw [a1, a2]
      ring
    omega

/-- What ties a kind of floats to its format. -/
structure Link (K : FloatKind) (F : FloatFormat) : Prop where
  m1 : 1 ≤ F.mant
  e2 : 2 ≤ F.expo
  sign : K.sign = 2 ^ (F.mant + F.expo)
  inf : K.inf = F.inf
  value : ∀ b, b < F.inf → K.value b = val F b
  limit : K.limit = (limitMag F : ℚ) / ((2 * 2 ^ F.scale : Nat) : ℚ)
  over : F.ofRatio (limitMag F) (2 * 2 ^ F.scale) = F.inf

theorem roundTo_le_inf (d : Nat) (k : Int) : roundTo F d k ≤ F.inf := by
  unfold roundTo
  split <;> exact ofRatio_le_inf _ _

theorem roundTo_fin {K : FloatKind} (L : Link K F) (d : Nat) (k : Int) : roundTo F d k < F.inf ↔ (d : ℚ) * 10 ^ k < K.limit := by
  obtain ⟨n, m, hm, e, hv⟩ := roundTo_ratio (F := F) d k
  have hU : 0 < 2 * 2 ^ F.scale := by positivity
  rw [e, ← hv, L.limit]
  constructor
  · intro h
    by_contra hc
    have := ofRatio_mono (F := F) hU hm (SerdeJson.ratio_le hU hm (not_lt.mp hc))
    rw [L.over] at this
    omega
  · intro h
    refine ofRatio_fin_of hm L.e2 ?_
    rw [div_lt_div_iff₀ (by exact_mod_cast hm) (by exact_mod_cast hU)] at h
    have h' : n * (2 * 2 ^ F.scale) < limitMag F * m := by exact_mod_cast h
    rw [← Nat.mul_assoc, Nat.mul_comm n 2, Nat.mul_assoc] at h'
    exact h'

/-- Rounding as it is specified is what the code does. -/
theorem rounds_iff {K : FloatKind} (L : Link K F) (b d : Nat) (k : Int) : K.Rounds b (d * 10 ^ k) ↔ roundTo F d k = b := by
  have hfin := roundTo_fin L d k
  have near : ∀ b, b < F.inf → ((∀ c, c < K.inf → |K.value b - d * 10 ^ k| ≤ |K.value c - d * 10 ^ k| ∧
      (|K.value b - d * 10 ^ k| = |K.value c - d * 10 ^ k| → c = b ∨ b % 2 = 0)) ↔ NearMag F b (d * 10 ^ k)) := by
    intro b hb
    rw [L.inf]
    constructor
    · intro h c hc
      have := h c hc
      rwa [L.value b hb, L.value c hc] at this
    · intro h c hc
      rw [L.value b hb, L.value c hc]
      exact h c hc
  constructor
  · rintro (⟨h1, h2, h3⟩ | ⟨h1, h2⟩)
    · rw [L.inf] at h2
      have h4 := hfin.mpr h1
      exact nearMag_unique h4 h2 (roundTo_nearMag L.m1 h4) ((near b h2).mp h3)
    · have h4 : ¬ roundTo F d k < F.inf := fun h => absurd (hfin.mp h) (not_lt.mpr h1)
      have := roundTo_le_inf (F := F) d k
      rw [h2, L.inf]
      omega
  · rintro rfl
    rcases Nat.lt_or_ge (roundTo F d k) F.inf with h | h
    · exact .inl ⟨hfin.mp h, by rw [L.inf]; exact h, (near _ h).mpr (roundTo_nearMag L.m1 h)⟩
    · refine .inr ⟨not_lt.mp fun h' => absurd (hfin.mpr h') (by omega), ?_⟩
      have := roundTo_le_inf (F := F) d k
      rw [L.inf]
      omega

theorem link64 : Link kind64 f64Format where
  m1 := by decide
  e2 := by decide
  sign := rfl
  inf := rfl
  value := by
    intro b hb
    have h := SerdeJson.f64Value_signed true hb
    rw [if_pos rfl] at h
    exact h
  limit := by
    have e : limitMag f64Format = (2 ^ (52 + 2) - 1) * 2 ^ 2045 := by
      unfold limitMag
      rw [show f64Format.mant = 52 from rfl, show 2 ^ f64Format.expo - 3 = 2045 by decide]
    have e2 : f64Format.scale = 1074 := rfl
    rw [e, e2]
    show (2 : ℚ) ^ 1024 - 2 ^ 970 = _
    have h1 : (2 : ℚ) ^ 2045 = 2 ^ 970 * 2 ^ 1075 := by rw [show 2045 = 970 + 1075 from rfl, pow_add]
    have h2 : (2 : ℚ) ^ 1024 = 2 ^ 54 * 2 ^ 970 := by rw [show 1024 = 54 + 970 from rfl, pow_add]
    have h3 : ((2 * 2 ^ 1074 : Nat) : ℚ) = 2 ^ 1075 := by
      rw [Nat.cast_mul, Nat.cast_pow, Nat.cast_ofNat, ← pow_succ']
    rw [h3, Nat.cast_mul, Nat.cast_pow, Nat.cast_ofNat, h1, h2, eq_div_iff (by positivity)]
    generalize (2 : ℚ) ^ 970 = A
    generalize (2 : ℚ) ^ 1075 = B
    norm_num
    ring
  over := by decide +kernel

theorem link32 : Link kind32 f32Format where
  m1 := by decide
  e2 := by decide
  sign := rfl
  inf := rfl
  value := by
    intro b hb
    have hinf : f32Format.inf = 255 * 2 ^ 23 := rfl
    have hlt : b < 2 ^ 32 := by omega
    show f32Value (UInt32.ofNat b) = _
    rw [f32Value_eq]
    have e : (UInt32.ofNat b).toNat = b := by
      rw [UInt32.toNat_ofNat']
      omega
    rw [e, num_pos (by
      have : f32Format.mant + f32Format.expo = 31 := rfl
      rw [this]
      omega)]
    unfold val
    have e2 : f32Format.scale = 149 := rfl
    rw [e2, Nat.cast_pow, Nat.cast_ofNat, Int.cast_natCast]
  limit := by
    have e : limitMag f32Format = (2 ^ 25 - 1) * 2 ^ 253 := rfl
    have e2 : f32Format.scale = 149 := rfl
    rw [e, e2]
    show (2 : ℚ) ^ 128 - 2 ^ 103 = _
    have h1 : (2 : ℚ) ^ 253 = 2 ^ 103 * 2 ^ 150 := by rw [show 253 = 103 + 150 from rfl, pow_add]
    have h2 : (2 : ℚ) ^ 128 = 2 ^ 25 * 2 ^ 103 := by rw [show 128 = 25 + 103 from rfl, pow_add]
    have h3 : ((2 * 2 ^ 149 : Nat) : ℚ) = 2 ^ 150 := by
      rw [Nat.cast_mul, Nat.cast_pow, Nat.cast_ofNat, ← pow_succ']
    rw [h3, Nat.cast_mul, Nat.cast_pow, Nat.cast_ofNat, h1, h2, eq_div_iff (by positivity)]
    generalize (2 : ℚ) ^ 103 = A
    generalize (2 : ℚ) ^ 150 = B
    norm_num
    ring
  over := by decide +kernel

end StdText

end Souris
