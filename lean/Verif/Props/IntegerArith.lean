import Verif.Props.Integer

/-! # C09: what arithmetic does for all operands and in both kinds of build -/

namespace Souris

open Integer

/-- The number in `-2^127 .. 2^127-1` that differs from `n` by a multiple of `2^128`. -/
def wrapI128 (n : Int) : Int := Int.bmod n (2 ^ 128)

/-- The number in `0 .. 2^128-1` that differs from `n` by a multiple of `2^128`. -/
def wrapU128 (n : Int) : Int := n % 2 ^ 128

theorem ofPattern_wrap (n : Int) : ofPattern 16 (toPattern 16 n) = wrapI128 n := by
  unfold ofPattern toPattern wrapI128 Int.bmod
  have h1 : (256 ^ 16 : Nat) = 2 ^ 128 := by norm_num
  rw [h1]
  have h2 : 0 ≤ n % ((2 ^ 128 : Nat) : Int) := Int.emod_nonneg _ (by norm_num)
  simp only
  split <;> split <;> omega

theorem Integer.Native.toSigned16 {a : Integer} (ha : a.Native) : a.toSigned 16 = .ok (wrapI128 a.value) := by
  rw [C02_signed_law ha (by unfold Width; decide), ← ofPattern_wrap, if_pos]
  have := ha.serialisable.toWF.value_lt
  constructor
  · have h := ha.serialisable.toWF.value_lt.1
    norm_num at h ⊢
    omega
  · have h := ha.serialisable.toWF.value_lt.2
    norm_num at h ⊢
    omega

/-- C09, the law for all operands: two unsigned operands are calculated with as `u128`, others are first taken modulo
`2^128` into `i128`. A result out of range panics with overflow checks and is wrapped without them; division by zero
and an overflowing division always panic. -/
theorem C09_law {a b : Integer} (ha : a.Native) (hb : b.Native) (checks : Bool) (op : Op) :
    if a.signedState = .unsigned ∧ b.signedState = .unsigned then
      if (op = .div ∧ b.value = 0) ∨ (checks = true ∧ ¬ (0 ≤ op.exact a.value b.value ∧ op.exact a.value b.value < 2 ^ 128)) then
        arith checks op a b = .panic .arith
      else
        ∃ r, arith checks op a b = .ok r ∧ r.Native ∧ r.signedState = .unsigned ∧
          r.value = wrapU128 (op.exact a.value b.value)
    else
      if (op = .div ∧ wrapI128 b.value = 0) ∨ ((checks = true ∨ op = .div) ∧
          ¬ (-(2 ^ 127) ≤ op.exact (wrapI128 a.value) (wrapI128 b.value) ∧
            op.exact (wrapI128 a.value) (wrapI128 b.value) < 2 ^ 127)) then
        arith checks op a b = .panic .arith
      else
        ∃ r, arith checks op a b = .ok r ∧ r.Native ∧ r.signedState ≠ .unsigned ∧
          r.value = wrapI128 (op.exact (wrapI128 a.value) (wrapI128 b.value)) := by
  have hw16 : Width 16 := by unfold Width; decide
  by_cases huu : a.signedState = .unsigned ∧ b.signedState = .unsigned
  · rw [if_pos huu]
    unfold arith
    rw [if_pos huu, ha.toUnsigned16 huu.1, hb.toUnsigned16 huu.2]
    have va := ha.unsigned_value huu.1
    have vb := hb.unsigned_value huu.2
    have ea : ((a.value.toNat : Nat) : Int) = a.value := Int.toNat_of_nonneg va.1
    have eb : ((b.value.toNat : Nat) : Int) = b.value := Int.toNat_of_nonneg vb.1
    have hb0 : (b.value.toNat = 0) ↔ b.value = 0 := by omega
    simp only [opU128, ea, eb, hb0]
    by_cases hd : op = .div ∧ b.value = 0
    · rw [if_pos hd, if_pos (.inl hd)]
    · rw [if_neg hd]
      generalize op.exact a.value b.value = r
      by_cases hr : 0 ≤ r ∧ r < 2 ^ 128
      · rw [if_pos hr, if_neg (by rintro (h | h); exacts [hd h, h.2 hr])]
        have hu : IsUnsigned 16 r.toNat := by unfold IsUnsigned; omega
        refine ⟨_, rfl, .unsigned hw16 hu, rfl, ?_⟩
        rw [(C01_value hw16).1 _ hu, Int.toNat_of_nonneg hr.1]
        exact (Int.emod_eq_of_lt hr.1 hr.2).symm
      · rw [if_neg hr]
        cases checks with
        | true => rw [if_pos rfl, if_pos (.inr ⟨rfl, hr⟩)]
        | false =>
          rw [if_neg (show ¬ (false = true) by simp), if_neg (by rintro (h | h); exacts [hd h, absurd h.1 (by simp)])]
          have e16 : ((256 ^ 16 : Nat) : Int) = 2 ^ 128 := by norm_num
          have h1 : (0 : Int) ≤ r % 2 ^ 128 := Int.emod_nonneg _ (by norm_num)
          have h2 : r % 2 ^ 128 < (2 : Int) ^ 128 := Int.emod_lt_of_pos _ (by norm_num)
          have hu : IsUnsigned 16 (toPattern 16 r) := by
            unfold IsUnsigned toPattern
            rw [e16]
            omega
          refine ⟨_, rfl, .unsigned hw16 hu, rfl, ?_⟩
          rw [(C01_value hw16).1 _ hu]
          unfold toPattern wrapU128
          rw [e16, Int.toNat_of_nonneg h1]
  · rw [if_neg huu]
    unfold arith
    rw [if_neg huu, ha.toSigned16, hb.toSigned16]
    have hb1 : ∀ n, -(2 ^ 127) ≤ wrapI128 n ∧ wrapI128 n < 2 ^ 127 := by
      intro n
      have h1 := Int.le_bmod (x := n) (m := 2 ^ 128) (by norm_num)
      have h2 := Int.bmod_lt (x := n) (m := 2 ^ 128) (by norm_num)
      unfold wrapI128
      omega
    have hx := hb1 a.value
    have hy := hb1 b.value
    generalize wrapI128 a.value = x at hx
    generalize wrapI128 b.value = y at hy
    have hns : ∀ r, (ofSigned 16 r).signedState ≠ .unsigned := by
      intro r; unfold ofSigned
      split
      · simp
      · split
        · simp
        · split <;> simp
    simp only [opI128]
    by_cases hd : op = .div ∧ (y = 0 ∨ (x = -(2 ^ 127) ∧ y = -1))
    · rw [if_pos hd, if_pos]
      rcases hd.2 with h | ⟨h1, h2⟩
      · exact .inl ⟨hd.1, h⟩
      · right
        refine ⟨.inr hd.1, ?_⟩
        rw [hd.1, h1, h2]
        decide
    · rw [if_neg hd]
      have hdiv : op = .div → -(2 ^ 127) ≤ op.exact x y ∧ op.exact x y < 2 ^ 127 := by
        rintro rfl
        have hd' : y ≠ 0 ∧ ¬ (x = -(2 ^ 127) ∧ y = -1) :=
          ⟨fun h => hd ⟨rfl, .inl h⟩, fun h => hd ⟨rfl, .inr h⟩⟩
        show -(2 ^ 127) ≤ x.tdiv y ∧ x.tdiv y < 2 ^ 127
        have h1 : (x.tdiv y).natAbs = x.natAbs / y.natAbs := Int.natAbs_tdiv x y
        by_cases hy1 : y = -1
        · subst hy1
          rw [Int.tdiv_neg, Int.tdiv_one]
          have : x ≠ -(2 ^ 127) := fun h => hd'.2 ⟨h, rfl⟩
          omega
        · by_cases hy2 : y = 1
          · subst hy2; rw [Int.tdiv_one]; exact hx
          · have h2 : 2 ≤ y.natAbs := by omega
            have h3 : x.natAbs / y.natAbs ≤ x.natAbs / 2 := Nat.div_le_div_left h2 (by norm_num)
            omega
      generalize op.exact x y = r at hdiv
      by_cases hr : -(2 ^ 127) ≤ r ∧ r < 2 ^ 127
      · rw [if_pos hr, if_neg (by rintro (h | h); exacts [hd ⟨h.1, .inl h.2⟩, h.2 hr])]
        have hu : IsSigned 16 r := hr
        refine ⟨_, rfl, .signed hw16 hu, hns _, ?_⟩
        rw [(C01_value hw16).2 _ hu]
        unfold wrapI128
        rw [Int.bmod_eq_of_le (by norm_num; omega) (by norm_num; omega)]
      · rw [if_neg hr]
        cases checks with
        | true => rw [if_pos rfl, if_pos (.inr ⟨.inl rfl, hr⟩)]
        | false =>
          rw [if_neg (show ¬ (false = true) by simp), if_neg (by
            rintro (h | ⟨h | h, -⟩)
            · exact hd ⟨h.1, .inl h.2⟩
            · cases h
            · exact hr (hdiv h)), ofPattern_wrap]
          have hu : IsSigned 16 (wrapI128 r) := hb1 r
          exact ⟨_, rfl, .signed hw16 hu, hns _, (C01_value hw16).2 _ hu⟩

/-- C09, when it is violated with overflow checks: a result is wrong exactly if one operand is an unsigned number from
`2^127` on, the other is not unsigned, and the calculation with the number less `2^128` in its place stays in range and
does not happen to give the same. -/
theorem C09_wrong_iff {a b : Integer} (ha : a.Native) (hb : b.Native) (op : Op) :
    (∃ r, arith true op a b = .ok r ∧ r.value ≠ op.exact a.value b.value) ↔
    ¬ (a.signedState = .unsigned ∧ b.signedState = .unsigned) ∧ ¬ (op = .div ∧ wrapI128 b.value = 0) ∧
      (-(2 ^ 127) ≤ op.exact (wrapI128 a.value) (wrapI128 b.value) ∧
        op.exact (wrapI128 a.value) (wrapI128 b.value) < 2 ^ 127) ∧
      op.exact (wrapI128 a.value) (wrapI128 b.value) ≠ op.exact a.value b.value := by
  have h := C09_law ha hb true op
  by_cases huu : a.signedState = .unsigned ∧ b.signedState = .unsigned
  · rw [if_pos huu] at h
    refine iff_of_false ?_ (fun h' => h'.1 huu)
    rintro ⟨r, h1, h2⟩
    split at h
    · rw [h] at h1; cases h1
    · next hc =>
      obtain ⟨r', h3, -, -, h4⟩ := h
      rw [h3] at h1
      cases h1
      have hr : 0 ≤ op.exact a.value b.value ∧ op.exact a.value b.value < 2 ^ 128 := by
        by_contra hn; exact hc (.inr ⟨rfl, hn⟩)
      rw [h4] at h2
      exact h2 (Int.emod_eq_of_lt hr.1 hr.2)
  · rw [if_neg huu] at h
    generalize hx : op.exact (wrapI128 a.value) (wrapI128 b.value) = x at h ⊢
    have hwrap : -(2 ^ 127) ≤ x ∧ x < 2 ^ 127 → wrapI128 x = x := by
      intro hr
      unfold wrapI128
      rw [Int.bmod_eq_of_le (by norm_num; omega) (by norm_num; omega)]
    constructor
    · rintro ⟨r, h1, h2⟩
      split at h
      · rw [h] at h1; cases h1
      · next hc =>
        obtain ⟨r', h3, -, -, h4⟩ := h
        rw [h3] at h1
        cases h1
        rw [not_or] at hc
        have hr : -(2 ^ 127) ≤ x ∧ x < 2 ^ 127 := by
          by_contra hn; exact hc.2 ⟨.inl rfl, hn⟩
        rw [h4, hwrap hr] at h2
        exact ⟨huu, hc.1, hr, h2⟩
    · rintro ⟨-, h1, h2, h3⟩
      rw [if_neg (by rintro (h' | h'); exacts [h1 h', h'.2 h2])] at h
      obtain ⟨r, h4, -, -, h5⟩ := h
      exact ⟨r, h4, by rw [h5, hwrap h2]; exact h3⟩

/-- `2^127 + 0` is wrong when the zero is signed, and `(2^128 - 1) / 1` likewise; a product may be right by chance. -/
example : (∃ r, arith true .add (ofUnsigned 16 (2 ^ 127)) (ofSigned 1 0) = .ok r ∧ r.value = -(2 ^ 127)) ∧
    (∃ r, arith true .div (ofUnsigned 16 (2 ^ 128 - 1)) (ofSigned 1 1) = .ok r ∧ r.value = -1) ∧
    (∃ r, arith true .mul (ofUnsigned 16 (2 ^ 128 - 1)) (ofSigned 1 0) = .ok r ∧ r.value = 0) ∧
    (∃ r, arith false .sub (ofUnsigned 1 0) (ofUnsigned 1 1) = .ok r ∧ r.value = 2 ^ 128 - 1) :=
  ⟨⟨_, rfl, by decide⟩, ⟨_, rfl, by decide⟩, ⟨_, rfl, by decide⟩, ⟨_, rfl, by decide⟩⟩

end Souris
