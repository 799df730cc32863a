import Verif.Spec.IntegerConv
import Verif.Lemmas.Integer2
import Mathlib.Tactic.NormNum
import Mathlib.Tactic.FieldSimp
import Mathlib.Tactic.Ring
import Mathlib.Data.Rat.Floor

/-! # Lemmas about conversions of `Integer` -/

namespace Souris

/-! ## Text -/

theorem digitOf_eq_some {c : Char} {d : Nat} :
    digitOf c = some d ↔ c ∈ decimalDigits ∧ d = decimalDigits.idxOf c := by
  unfold digitOf
  constructor
  · intro h
    split at h
    · rename_i hc
      simp only [Option.some.injEq] at h
      have hcn : c = Char.ofNat c.toNat := (Char.ofNat_toNat c).symm
      have : c.toNat = 48 ∨ c.toNat = 49 ∨ c.toNat = 50 ∨ c.toNat = 51 ∨ c.toNat = 52 ∨ c.toNat = 53 ∨
        c.toNat = 54 ∨ c.toNat = 55 ∨ c.toNat = 56 ∨ c.toNat = 57 := by omega
      subst h
      rcases this with h | h | h | h | h | h | h | h | h | h <;> rw [h] at hcn <;> subst hcn <;> decide
    · cases h
  · rintro ⟨hc, rfl⟩
    unfold decimalDigits at hc
    simp only [List.mem_cons, List.not_mem_nil, or_false] at hc
    rcases hc with h | h | h | h | h | h | h | h | h | h <;> subst h <;> decide

theorem digitsValue_from (acc : Nat) (cs : List Char) :
    acc ≤ cs.foldl (fun acc c => acc * 10 + decimalDigits.idxOf c) acc := by
  induction cs generalizing acc with
  | nil => exact Nat.le_refl _
  | cons c cs ih =>
    simp only [List.foldl_cons]
    exact Nat.le_trans (by omega) (ih _)

theorem parseDigits_eq_some {max : Nat} {cs : List Char} {acc r : Nat} (hacc : acc ≤ max) :
    parseDigits max acc cs = some r ↔ (∀ c ∈ cs, c ∈ decimalDigits) ∧
      r = cs.foldl (fun acc c => acc * 10 + decimalDigits.idxOf c) acc ∧ r ≤ max := by
  induction cs generalizing acc with
  | nil =>
    simp only [parseDigits, Option.some.injEq, List.foldl_nil, List.not_mem_nil, false_implies,
      implies_true, true_and]
    constructor
    · rintro rfl; exact ⟨rfl, hacc⟩
    · exact fun h => h.1.symm
  | cons c cs ih =>
    unfold parseDigits
    cases hd : digitOf c with
    | none =>
      simp only [reduceCtorEq, false_iff]
      rintro ⟨h, _⟩
      have := digitOf_eq_some.mpr ⟨h c (by simp), rfl⟩
      rw [hd] at this; cases this
    | some d =>
      obtain ⟨hc, rfl⟩ := digitOf_eq_some.mp hd
      simp only [List.foldl_cons, List.mem_cons, forall_eq_or_imp, hc, true_and]
      split
      · rename_i hle
        exact ih hle
      · rename_i hle
        simp only [reduceCtorEq, false_iff]
        rintro ⟨_, rfl, h⟩
        exact hle ((digitsValue_from _ cs).trans h)

theorem parseMagnitude_eq_some {max : Nat} {cs : List Char} {r : Nat} :
    parseMagnitude max cs = some r ↔ cs ≠ [] ∧ (∀ c ∈ cs, c ∈ decimalDigits) ∧
      r = digitsValue cs ∧ r ≤ max := by
  unfold parseMagnitude
  split
  · rename_i h; simp [h]
  · rename_i h
    rw [parseDigits_eq_some (Nat.zero_le _)]
    simp [h, digitsValue]

theorem minus_not_digit : '-' ∉ decimalDigits := by decide
theorem plus_not_digit : '+' ∉ decimalDigits := by decide

theorem digitChar_mem {d : Nat} (h : d < 10) :
    digitChar d ∈ decimalDigits ∧ decimalDigits.idxOf (digitChar d) = d := by
  have : d = 0 ∨ d = 1 ∨ d = 2 ∨ d = 3 ∨ d = 4 ∨ d = 5 ∨ d = 6 ∨ d = 7 ∨ d = 8 ∨ d = 9 := by omega
  rcases this with h | h | h | h | h | h | h | h | h | h <;> subst h <;> decide

theorem natText_spec (n : Nat) :
    natText n ≠ [] ∧ (∀ c ∈ natText n, c ∈ decimalDigits) ∧ digitsValue (natText n) = n := by
  induction n using Nat.strongRecOn with
  | ind n ih =>
    unfold natText
    split
    · rename_i h
      have := digitChar_mem h
      simp [digitsValue, this]
    · rename_i h
      obtain ⟨h1, h2, h3⟩ := ih (n / 10) (by omega)
      have hd := digitChar_mem (d := n % 10) (by omega)
      refine ⟨by simp, ?_, ?_⟩
      · intro c hc
        rcases List.mem_append.mp hc with h | h
        · exact h2 c h
        · rw [List.mem_singleton.mp h]; exact hd.1
      · unfold digitsValue at h3 ⊢
        rw [List.foldl_append, h3]
        simp only [List.foldl_cons, List.foldl_nil, hd.2]
        omega

theorem intText_numeral (n : Int) : Numeral (intText n) n := by
  obtain ⟨h1, h2, h3⟩ := natText_spec n.natAbs
  unfold intText
  split
  · have h := Numeral.minus h1 h2
    rw [h3] at h
    rwa [show -(n.natAbs : Int) = n by omega] at h
  · have h := Numeral.plain h1 h2
    rw [h3] at h
    rwa [show (n.natAbs : Int) = n by omega] at h

theorem natText_numeral (n : Nat) : Numeral (natText n) n := by
  obtain ⟨h1, h2, h3⟩ := natText_spec n
  have h := Numeral.plain h1 h2
  rwa [h3] at h

/-! ## Floats -/

theorem f64Value_eq (bits : UInt64) :
    f64Value bits = (f64Format.num bits.toNat : ℚ) / 2 ^ 1074 := by
  have hlt := bits.toNat_lt
  have hE : f64Format.exponent bits.toNat = bits.toNat / 2 ^ 52 % 2 ^ 11 := rfl
  have hM : f64Format.mantissa bits.toNat = bits.toNat % 2 ^ 52 := rfl
  have hN : f64Format.neg bits.toNat = decide (bits.toNat / 2 ^ 63 % 2 = 1) := rfl
  have hs : bits.toNat / 2 ^ 63 % 2 = bits.toNat / 2 ^ 63 := by omega
  have hmag : (f64Format.mag bits.toNat : ℚ) / 2 ^ 1074 =
      if bits.toNat / 2 ^ 52 % 2 ^ 11 = 0 then
        ((bits.toNat % 2 ^ 52 : Nat) : ℚ) * 2 ^ (-1074 : ℤ)
      else (2 ^ 52 + ((bits.toNat % 2 ^ 52 : Nat) : ℚ)) *
        2 ^ (((bits.toNat / 2 ^ 52 % 2 ^ 11 : Nat) : ℤ) - 1075) := by
    unfold FloatFormat.mag
    rw [hE, hM]
    have h2 : f64Format.mant = 52 := rfl
    rw [h2]
    generalize bits.toNat % 2 ^ 52 = m
    generalize bits.toNat / 2 ^ 52 % 2 ^ 11 = e
    by_cases he : e = 0
    · rw [if_pos he, if_pos he, zpow_neg, div_eq_mul_inv]
      norm_cast
    · rw [if_neg he, if_neg he,
        show (e : ℤ) - 1075 = ((e - 1 : ℕ) : ℤ) - ((1074 : ℕ) : ℤ) by omega,
        zpow_sub₀ (by norm_num), zpow_natCast, zpow_natCast]
      push_cast
      ring
  unfold FloatFormat.num
  rw [hN, hs]
  simp only [f64Value, decide_eq_true_eq]
  by_cases hneg : bits.toNat / 2 ^ 63 = 1
  · rw [if_pos hneg, if_pos hneg]
    rw [Int.cast_neg, Int.cast_natCast, neg_div, hmag]
    by_cases he : bits.toNat / 2 ^ 52 % 2 ^ 11 = 0
    · simp only [if_pos he]; ring
    · simp only [if_neg he]; ring
  · rw [if_neg hneg, if_neg hneg]
    rw [Int.cast_natCast, hmag]
    by_cases he : bits.toNat / 2 ^ 52 % 2 ^ 11 = 0
    · simp only [if_pos he]; ring
    · simp only [if_neg he]; ring

theorem f32Value_eq (bits : UInt32) :
    f32Value bits = (f32Format.num bits.toNat : ℚ) / 2 ^ 149 := by
  have hlt := bits.toNat_lt
  have hE : f32Format.exponent bits.toNat = bits.toNat / 2 ^ 23 % 2 ^ 8 := rfl
  have hM : f32Format.mantissa bits.toNat = bits.toNat % 2 ^ 23 := rfl
  have hN : f32Format.neg bits.toNat = decide (bits.toNat / 2 ^ 31 % 2 = 1) := rfl
  have hs : bits.toNat / 2 ^ 31 % 2 = bits.toNat / 2 ^ 31 := by omega
  have hmag : (f32Format.mag bits.toNat : ℚ) / 2 ^ 149 =
      if bits.toNat / 2 ^ 23 % 2 ^ 8 = 0 then
        ((bits.toNat % 2 ^ 23 : Nat) : ℚ) * 2 ^ (-149 : ℤ)
      else (2 ^ 23 + ((bits.toNat % 2 ^ 23 : Nat) : ℚ)) *
        2 ^ (((bits.toNat / 2 ^ 23 % 2 ^ 8 : Nat) : ℤ) - 150) := by
    unfold FloatFormat.mag
    rw [hE, hM]
    have h2 : f32Format.mant = 23 := rfl
    rw [h2]
    generalize bits.toNat % 2 ^ 23 = m
    generalize bits.toNat / 2 ^ 23 % 2 ^ 8 = e
    by_cases he : e = 0
    · rw [if_pos he, if_pos he, zpow_neg, div_eq_mul_inv]
      norm_cast
    · rw [if_neg he, if_neg he,
        show (e : ℤ) - 150 = ((e - 1 : ℕ) : ℤ) - ((149 : ℕ) : ℤ) by omega,
        zpow_sub₀ (by norm_num), zpow_natCast, zpow_natCast]
      push_cast
      ring
  unfold FloatFormat.num
  rw [hN, hs]
  simp only [f32Value, decide_eq_true_eq]
  by_cases hneg : bits.toNat / 2 ^ 31 = 1
  · rw [if_pos hneg, if_pos hneg]
    rw [Int.cast_neg, Int.cast_natCast, neg_div, hmag]
    by_cases he : bits.toNat / 2 ^ 23 % 2 ^ 8 = 0
    · simp only [if_pos he]; ring
    · simp only [if_neg he]; ring
  · rw [if_neg hneg, if_neg hneg]
    rw [Int.cast_natCast, hmag]
    by_cases he : bits.toNat / 2 ^ 23 % 2 ^ 8 = 0
    · simp only [if_pos he]; ring
    · simp only [if_neg he]; ring

/-- `floor` in the scaled representation. -/
theorem scaled_floor (N : Int) (s : Nat) : ⌊(N : ℚ) / 2 ^ s⌋ = N / 2 ^ s := by
  have := Rat.floor_intCast_div_natCast N (2 ^ s)
  push_cast at this
  exact this

/-- `fract` in the scaled representation: it is positive only for positive numbers, and then it is the
fractional part. -/
theorem scaled_fract (N : Int) (s t : Nat) (h : t ≤ s) :
    N.tmod (2 ^ s) > 2 ^ (s - t) ↔
      (0 ≤ (N : ℚ) / 2 ^ s ∧ (1 : ℚ) / 2 ^ t < (N : ℚ) / 2 ^ s - ⌊(N : ℚ) / 2 ^ s⌋) := by
  have hD : (0 : ℚ) < 2 ^ s := by positivity
  have hDi : (0 : Int) < 2 ^ s := by positivity
  have hE : (0 : Int) < 2 ^ (s - t) := by positivity
  have hsplit : (2 : ℚ) ^ s = 2 ^ (s - t) * 2 ^ t := by rw [← pow_add]; congr 1; omega
  by_cases h0 : 0 ≤ N
  · rw [Int.tmod_eq_emod_of_nonneg h0, scaled_floor]
    have h1 : (0 : ℚ) ≤ (N : ℚ) / 2 ^ s := div_nonneg (by exact_mod_cast h0) hD.le
    have hmod : (N : ℚ) / 2 ^ s - ((N / 2 ^ s : Int) : ℚ) = ((N % 2 ^ s : Int) : ℚ) / 2 ^ s := by
      have := Int.mul_ediv_add_emod N (2 ^ s)
      have hq : (N : ℚ) = 2 ^ s * ((N / 2 ^ s : Int) : ℚ) + ((N % 2 ^ s : Int) : ℚ) := by
        exact_mod_cast this.symm
      rw [eq_div_iff hD.ne', sub_mul, div_mul_cancel₀ _ hD.ne']
      rw [hq]; ring_nf
    rw [hmod]
    simp only [h1, true_and]
    rw [lt_div_iff₀ hD, hsplit]
    have : (1 : ℚ) / 2 ^ t * (2 ^ (s - t) * 2 ^ t) = 2 ^ (s - t) := by
      field_simp
    rw [this]
    constructor
    · intro h; exact_mod_cast h
    · intro h; exact_mod_cast h
  · have h1 : N.tmod (2 ^ s) ≤ 0 := by
      have := Int.tmod_nonneg (2 ^ s) (show (0 : Int) ≤ -N by omega)
      rw [Int.neg_tmod] at this
      omega
    constructor
    · intro h; omega
    · rintro ⟨h2, _⟩
      exfalso
      have : (N : ℚ) < 0 := by exact_mod_cast (by omega : N < 0)
      have := div_neg_of_neg_of_pos this hD
      linarith

end Souris
