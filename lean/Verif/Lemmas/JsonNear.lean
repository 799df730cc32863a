import Verif.Spec.JsonNear
import Verif.Lemmas.JsonClose
import Verif.Lemmas.JsonPrint
import Verif.Lemmas.JsonShortest

/-! # Printed floats are read back almost -/

namespace Souris

namespace SerdeJson

open FloatFormat

theorem roundTo_close {d : Nat} {k : Int} (h : roundTo d k < f64Format.inf) :
    |val (roundTo d k) - d * 10 ^ k| ≤ 1 / 2 ^ 53 * (d * 10 ^ k) + tiny := by
  unfold roundTo at h ⊢
  split at h
  · rename_i hk
    rw [if_pos hk]
    have := ofRatio_close (by decide) h
    have e : ((d * 10 ^ k.natAbs : Nat) : ℚ) / (1 : Nat) = d * 10 ^ k := by
      obtain ⟨m, rfl⟩ := Int.eq_ofNat_of_zero_le hk
      simp
    rwa [e] at this
  · rename_i hk
    rw [if_neg hk]
    have := ofRatio_close (by positivity) h
    have e : ((d : Nat) : ℚ) / ((10 ^ k.natAbs : Nat) : ℚ) = d * 10 ^ k := by
      obtain ⟨m, rfl⟩ : ∃ m : Nat, k = -(m : Int) := ⟨k.natAbs, by omega⟩
      simp [div_eq_mul_inv]
    rwa [e] at this

/-- The decimal that is printed for a float without its sign. -/
theorem float_about {a : Nat} (ha : a < f64Format.inf) : ∃ int frac x,
    JsonReal (if a = 0 then ['0', '.', '0'] else layout (shortest a).1 (shortest a).2) int frac x ∧
    (if a = 0 then ['0', '.', '0'] else layout (shortest a).1 (shortest a).2) ≠ int ∧
    |val a - realValue int frac x| ≤ 1 / 2 ^ 53 * realValue int frac x + tiny := by
  rcases Nat.eq_zero_or_pos a with rfl | h0
  · rw [if_pos rfl]
    refine ⟨['0'], ['0'], 0, ⟨['.', '0'], [], rfl, ⟨⟨by simp, by decide⟩, fun _ => rfl⟩, .inr ⟨⟨by simp, by decide⟩, rfl⟩, .none⟩,
      by simp, ?_⟩
    have e : realValue ['0'] ['0'] 0 = 0 := by
      unfold realValue
      rw [show digitsValue (['0'] ++ ['0']) = 0 by decide]
      simp
    rw [e, val_zero]
    have := tiny_pos
    simp only [sub_zero, abs_zero, mul_zero, zero_add]
    exact this.le
  · rw [if_neg (by omega)]
    obtain ⟨h1, h2, _⟩ := shortest_total ha h0
    obtain ⟨int, frac, x, h3, h4, h5⟩ := layout_value (k := (shortest a).2) h2
    refine ⟨int, frac, x, h3, h4, ?_⟩
    rw [h5]
    have := roundTo_close (d := (shortest a).1) (k := (shortest a).2) (by rw [h1]; exact ha)
    rwa [h1] at this

/-- Two errors add up. -/
theorem near_sum {v w q : ℚ} (hq : 0 ≤ q) (h1 : |v - q| ≤ 1 / 2 ^ 53 * q + tiny) (h2 : |w - q| ≤ q / 10 ^ 15 + 1 / 10 ^ 323) :
    |w - v| ≤ v * 2 / 10 ^ 15 + 2 / 10 ^ 323 ∧ q ≤ v * (17976 / 17975) + 1 := by
  have ht := two_tiny
  have ht' : (1 : ℚ) / 10 ^ 323 ≤ 1 / 4 := by
    rw [one_div, one_div]
    refine inv_anti₀ (by norm_num) ?_
    calc (4 : ℚ) ≤ 10 ^ 1 := by norm_num
      _ ≤ 10 ^ 323 := pow_le_pow_right₀ (by norm_num) (by norm_num)
  have ht0 := tiny_pos
  have hδ : (0 : ℚ) < 1 / 10 ^ 323 := by positivity
  have e2 : (2 : ℚ) / 10 ^ 323 = 2 * (1 / 10 ^ 323) := by ring
  rw [e2]
  generalize (1 : ℚ) / 10 ^ 323 = δ at *
  generalize tiny = τ at *
  obtain ⟨a1, a2⟩ := abs_le.mp h1
  obtain ⟨b1, b2⟩ := abs_le.mp h2
  have c1 : (1 : ℚ) / 2 ^ 53 * q ≤ 12 / 10 ^ 17 * q := mul_le_mul_of_nonneg_right (by norm_num) hq
  have hv : q * (1 - 12 / 10 ^ 17) ≤ v + τ := by linarith
  refine ⟨abs_le.mpr ⟨?_, ?_⟩, ?_⟩
  all_goals
    norm_num at *
    linarith

/-- A printed float is read, as a float that is near to it. -/
theorem floatText_near {b : UInt64} (hf : F64Finite b) (hs : |f64Value b| ≤ 17975 * 10 ^ 304) :
    ∃ b', FloatNear b b' ∧ ∃ pos c cs, floatText b = (if pos then c :: cs else '-' :: c :: cs) ∧ c ∈ decimalDigits ∧
      ∀ rest, Stops rest → number pos (c :: cs ++ rest) = some (.float b', rest) := by
  have hlen := floatText_length hf
  obtain ⟨pos, a, ha, rfl⟩ := finite_signed hf
  have htoNat := signed_toNat pos ha
  have hinf := ha
  rw [inf_val] at hinf
  have hmod : (signed pos a).toNat % 2 ^ 63 = a := by rw [htoNat]; split <;> omega
  have hva : |f64Value (signed pos a)| = val a := by
    rw [f64Value_signed pos ha]
    cases pos
    · simp only [Bool.false_eq_true, if_false, abs_neg]
      exact abs_of_nonneg (val_nonneg a)
    · simp only [if_true]
      exact abs_of_nonneg (val_nonneg a)
  rw [hva] at hs
  obtain ⟨int, frac, x, h1, h2, h3⟩ := float_about ha
  have htext : floatText (signed pos a) = if pos then (if a = 0 then ['0', '.', '0'] else layout (shortest a).1 (shortest a).2)
      else '-' :: (if a = 0 then ['0', '.', '0'] else layout (shortest a).1 (shortest a).2) := by
    unfold floatText
    simp only
    rw [hmod]
    cases pos with
    | true =>
      rw [if_pos rfl] at htoNat
      rw [if_neg (by omega), if_pos rfl]
    | false =>
      rw [if_neg (by decide)] at htoNat
      rw [if_pos (by omega)]
      rfl
  rw [htext] at hlen ⊢
  generalize (if a = 0 then ['0', '.', '0'] else layout (shortest a).1 (shortest a).2) = t at *
  have hlt : t.length ≤ 2 ^ 30 := by
    have : t.length ≤ 27 := by cases pos <;> simp at hlen <;> omega
    omega
  have hq := realValue_nonneg int frac x
  have hfit : realValue int frac x ≤ 17976 * 10 ^ 304 := by
    have hone : (10 : ℚ) ≤ 10 ^ 304 := by
      calc (10 : ℚ) = 10 ^ 1 := by norm_num
        _ ≤ 10 ^ 304 := pow_le_pow_right₀ (by norm_num) (by norm_num)
    have h4 := (abs_le.mp h3).1
    have ht : tiny ≤ 1 := tiny_le.trans (by norm_num)
    generalize (10 : ℚ) ^ 304 = T at *
    generalize realValue int frac x = q at *
    generalize val a = v at *
    generalize tiny = τ at *
    have hv : q * (1 - 1 / 2 ^ 53) ≤ v + τ := by linarith
    norm_num at hv ⊢
    linarith
  obtain ⟨n, hn⟩ := number_fits pos h1 hlt hfit
  have hn0 := hn [] (fun c hc => by simp at hc)
  rw [List.append_nil] at hn0
  obtain ⟨t', ht', hc⟩ := number_close hn0
  rw [List.append_nil] at ht'
  subst ht'
  have hno : ¬ JsonWhole t := by
    intro hw
    have hr : JsonReal t t [] 0 := ⟨[], [], by simp, hw, .inl ⟨rfl, rfl⟩, .none⟩
    exact h2 (real_unique h1 hr).1.symm
  have hminus : ∀ {int frac : List Char} {e : Int}, ¬ JsonReal ('-' :: t) int frac e := by
    rintro int frac e ⟨fr, ex, he, hw, _⟩
    obtain ⟨c, cs, rfl, hc, _⟩ := digits_cons hw.1
    simp only [List.cons_append, List.cons.injEq] at he
    rw [← he.1] at hc
    exact absurd hc (by decide)
  obtain ⟨b', rfl, hnear⟩ : ∃ b', n = .float b' ∧ FloatNear (signed pos a) b' := by
    cases pos with
    | true =>
      simp only [if_true] at hc
      cases hc with
      | posInt h => exact absurd h hno
      | negInt h =>
        obtain ⟨fr, ex, he, hw, _⟩ := h1
        obtain ⟨c, cs, rfl, hc, _⟩ := digits_cons hw.1
        simp only [List.cons_append, List.cons.injEq] at he
        rw [← he.1] at hc
        exact absurd hc (by decide)
      | posFloat h hint hb hsg hv =>
        obtain ⟨rfl, rfl, rfl⟩ := real_unique h1 h
        have hv := hv hlt
        unfold Close at hv
        rw [abs_of_nonneg hq] at hv
        have := (near_sum hq h3 hv).1
        refine ⟨_, rfl, hb, ?_, ?_⟩
        · rw [htoNat, if_pos rfl]
          constructor
          · intro _; exact hsg
          · intro _; omega
        · rw [hva, f64Value_signed true ha, if_pos rfl]
          exact this
      | negFloat h =>
        obtain ⟨fr, ex, he, hw, _⟩ := h1
        obtain ⟨c, cs, rfl, hc, _⟩ := digits_cons hw.1
        simp only [List.cons_append, List.cons.injEq] at he
        rw [← he.1] at hc
        exact absurd hc (by decide)
    | false =>
      simp only [Bool.false_eq_true, if_false] at hc
      generalize ht2 : '-' :: t = t2 at hc
      cases hc with
      | posInt h =>
        subst ht2
        exact absurd (h.1.2 '-' (by simp)) (by decide)
      | negInt h =>
        simp only [List.cons.injEq, true_and] at ht2
        exact absurd (ht2 ▸ h) hno
      | posFloat h =>
        exact absurd (ht2 ▸ h) hminus
      | @negFloat _ _ _ _ b2 h hint hb hsg hv =>
        simp only [List.cons.injEq, true_and] at ht2
        subst ht2
        obtain ⟨rfl, rfl, rfl⟩ := real_unique h1 h
        have hv := hv hlt
        unfold Close at hv
        rw [abs_neg, abs_of_nonneg hq] at hv
        refine ⟨_, rfl, hb, ?_, ?_⟩
        · rw [htoNat, if_neg (by decide)]
          constructor
          · intro h; omega
          · intro h; omega
        · rw [hva, f64Value_signed false ha, if_neg (by decide)]
          have hv' : |(-f64Value b2) - realValue int frac x| ≤ realValue int frac x / 10 ^ 15 + 1 / 10 ^ 323 := by
            rw [← abs_neg, neg_sub, sub_neg_eq_add, add_comm]
            rwa [sub_neg_eq_add] at hv
          have := (near_sum hq h3 hv').1
          rw [← abs_neg]
          convert this using 2
          ring
  refine ⟨b', hnear, pos, ?_⟩
  obtain ⟨fr, ex, rfl, hw, _⟩ := h1
  obtain ⟨c, cs, rfl, hc, _⟩ := digits_cons hw.1
  exact ⟨c, cs ++ fr ++ ex, by simp, hc, fun rest hr => by have := hn rest hr; simpa using this⟩

end SerdeJson

end Souris
