import Verif.Lemmas.Integer

/-! # More lemmas about `Integer`: native integers, equality, sizes -/

namespace Souris

theorem two_pow_eight_mul (k : Nat) : 2 ^ (8 * k) = 256 ^ k := by
  rw [Nat.pow_mul]

theorem Width.pos {k : Nat} (h : Width k) : 1 ≤ k := by unfold Width at h; omega
theorem Width.le {k : Nat} (h : Width k) : k ≤ 16 := by unfold Width at h; omega

theorem IsUnsigned.lt {k n : Nat} (h : IsUnsigned k n) : n < 256 ^ k := by
  rw [← two_pow_eight_mul]; exact h

theorem isSigned_iff {k : Nat} (hk : 1 ≤ k) (n : Int) :
    IsSigned k n ↔ -(256 ^ k : Nat) ≤ 2 * n ∧ 2 * n < (256 ^ k : Nat) := by
  have h : (256 : Nat) ^ k = 2 * 2 ^ (8 * k - 1) := by
    rw [← two_pow_eight_mul, ← Nat.pow_succ']
    congr 1; omega
  unfold IsSigned
  rw [h]
  push_cast
  generalize (2 : Int) ^ (8 * k - 1) = z
  omega

namespace Integer

theorem Native.serialisable {i : Integer} (h : i.Native) : i.Serialisable := by
  cases h with
  | unsigned hk hn =>
    exact { ofUnsigned_wf hk.pos hk.le with neg_used := by intro h; cases h }
  | signed hk hn =>
    have hn' := (isSigned_iff hk.pos _).mp hn
    refine { ofSigned_wf hk.le with neg_used := ?_ }
    intro h
    rw [ofSigned_state] at h
    split at h
    · exact ofSigned_used_pos_of_neg (by assumption) hn'.1
    · cases h

theorem deser_serialisable {ss : SignedState} {c c' : Cursor UInt8} {i : Integer}
    (h : deser ss c = .ok (i, c')) : i.Serialisable ∧ i.signedState = ss := by
  unfold deser at h
  rw [Parser.bind_apply, Out.bind_eq_ok] at h
  obtain ⟨⟨b, c1⟩, hb, h⟩ := h
  simp only at h
  have hb239 := b.toNat_lt
  split at h
  · simp only [Parser.pure_apply, Out.ok.injEq, Prod.mk.injEq] at h
    obtain ⟨rfl, _⟩ := h
    refine ⟨?_, rfl⟩
    have hc : copyPrefix (fillArray ss) [b] = b :: List.replicate 15 (fillOf ss) := by
      rw [fillArray_eq, copyPrefix_eq (by simp)]; simp
    constructor
    · constructor
      · simp only [hc]; simp
      · simp only; split <;> omega
      · simp only [hc]
        split
        · simp
        · rename_i h0
          simp only [not_or, Decidable.not_not] at h0
          rw [h0.2]
          simp [fillOf, h0.1]
    · intro hs
      simp only at hs
      simp [hs]
  · rename_i hlt
    rw [Parser.bind_apply, Out.bind_eq_ok] at h
    obtain ⟨⟨bs, c2⟩, hbs, h⟩ := h
    simp only [Parser.pure_apply, Out.ok.injEq, Prod.mk.injEq] at h
    obtain ⟨rfl, _⟩ := h
    refine ⟨?_, rfl⟩
    have hlen : bs.length = b.toNat - oneByteMaxSize := by
      unfold Parser.read Cursor.read at hbs
      simp only [checkedAdd] at hbs
      split at hbs
      · rename_i heq
        split at heq
        · cases heq
        · rename_i heq1
          split at heq
          · cases heq
          · simp only [Prod.mk.injEq, Option.some.injEq] at heq
            split at heq1
            · simp only [Option.some.injEq] at heq1
              simp only [Out.ok.injEq, Prod.mk.injEq] at hbs
              rw [← hbs.1, ← heq.1]
              simp only [Cursor.slice, List.length_take, List.length_drop]
              omega
            · cases heq1
      · cases hbs
    have hc : copyPrefix (fillArray ss) bs = bs ++ List.replicate (16 - bs.length) (fillOf ss) := by
      rw [fillArray_eq, copyPrefix_eq, List.drop_replicate]
      simp only [List.length_replicate, hlen, oneByteMaxSize]; omega
    have h239 : oneByteMaxSize = 239 := rfl
    constructor
    · constructor
      · simp only [hc]; simp; omega
      · simp only; omega
      · simp only [hc, ← hlen]
        simp
    · intro hs; simp only; omega

theorem Reachable.serialisable {i : Integer} (h : i.Reachable) : i.Serialisable := by
  cases h with
  | native h => exact h.serialisable
  | zeroText =>
    exact { len := rfl, used_le := by decide, fill := by decide, neg_used := by intro h; cases h }
  | deser h => exact (deser_serialisable h).1

/-! ### Equality -/

theorem WF.eq_iff {a b : Integer} (ha : a.WF) (hb : b.WF) :
    a.eq b = true ↔ a.used = b.used ∧ a.content = b.content ∧
      (a.signedState = .signedNegative ↔ b.signedState = .signedNegative) := by
  unfold Integer.eq
  constructor
  · intro h
    split at h
    · cases h
    · rename_i hne
      simp only [ne_eq, Decidable.not_not] at hne
      have hs : (a.signedState = .signedNegative ↔ b.signedState = .signedNegative) := by
        cases hsa : a.signedState <;> cases hsb : b.signedState <;> simp_all
      have hu : a.used = b.used := by
        have := congrArg List.length hne
        simp only [List.length_take, ha.len, hb.len] at this
        have := ha.used_le; have := hb.used_le; omega
      refine ⟨hu, ?_, hs⟩
      rw [← List.take_append_drop a.used a.content, ← List.take_append_drop b.used b.content,
        hne, ha.fill, hb.fill, hu]
      congr 2
      unfold fillOf
      simp only [hs]
  · rintro ⟨h1, h2, h3⟩
    rw [if_neg (by simp [h1, h2])]
    cases hsa : a.signedState <;> cases hsb : b.signedState <;> simp_all

theorem WF.value_eq_of {a b : Integer} (h2 : a.content = b.content)
    (h3 : a.signedState = .signedNegative ↔ b.signedState = .signedNegative) :
    a.value = b.value := by
  unfold value
  rw [h2]
  cases hsa : a.signedState <;> cases hsb : b.signedState <;> simp_all

/-- Used bytes of native integers, numerically. -/
theorem Native.used_le_iff {i : Integer} (h : i.Native) {u : Nat} (hu : 1 ≤ u) :
    i.used ≤ u ↔ -(256 ^ u : Nat) ≤ i.value ∧ i.value < (256 ^ u : Nat) := by
  have hp : 0 < 256 ^ u := Nat.pow_pos (by decide)
  cases h with
  | unsigned hk hn =>
    rw [ofUnsigned_value hk.le hn.lt, ofUnsigned_used hn.lt hu]; omega
  | @signed k n hk hn =>
    have hn' := (isSigned_iff hk.pos _).mp hn
    rw [ofSigned_value hk.le hn'.1 hn'.2]
    by_cases h0 : 0 ≤ n
    · rw [ofSigned_used_nonneg h0 hn'.2]; omega
    · rw [ofSigned_used_neg (by omega) hn'.1 hu]; omega

theorem Native.neg_iff {i : Integer} (h : i.Native) :
    i.signedState = .signedNegative ↔ i.value < 0 := by
  cases h with
  | unsigned hk hn =>
    rw [ofUnsigned_value hk.le hn.lt]
    simp only [ofUnsigned]
    constructor
    · intro h; cases h
    · intro h; omega
  | @signed k n hk hn =>
    have hn' := (isSigned_iff hk.pos _).mp hn
    rw [ofSigned_value hk.le hn'.1 hn'.2, ofSigned_state]
    split
    · simp [*]
    · constructor
      · intro h; cases h
      · intro h; omega

/-- Native integers use no byte exactly for a signed zero. -/
theorem Native.used_zero_iff {i : Integer} (h : i.Native) :
    i.used = 0 ↔ i.value = 0 ∧ i.signedState = .signedPositive := by
  cases h with
  | @unsigned k n hk hn =>
    have := ofUnsigned_used_pos k n
    simp only [ofUnsigned] at this ⊢
    constructor
    · intro h; omega
    · rintro ⟨_, h⟩; cases h
  | @signed k n hk hn =>
    have hn' := (isSigned_iff hk.pos _).mp hn
    rw [ofSigned_value hk.le hn'.1 hn'.2, ofSigned_state]
    by_cases h0 : 0 ≤ n
    · rw [if_neg (by omega)]
      have := ofSigned_used_nonneg h0 hn'.2 0
      simp only [Nat.pow_zero] at this
      constructor
      · intro h; exact ⟨by omega, rfl⟩
      · rintro ⟨h, _⟩; omega
    · have := ofSigned_used_pos_of_neg (n := n) (by omega) hn'.1
      constructor
      · intro h; omega
      · rintro ⟨h, _⟩; omega

theorem Native.used_eq {a b : Integer} (ha : a.Native) (hb : b.Native) (hv : a.value = b.value)
    (hz : a.value = 0 → (a.signedState = .signedPositive ↔ b.signedState = .signedPositive)) :
    a.used = b.used := by
  have h1 := ha.used_zero_iff
  have h2 := hb.used_zero_iff
  rw [← hv] at h2
  by_cases h0 : a.used = 0
  · have := h1.mp h0
    have : b.used = 0 := h2.mpr ⟨this.1, (hz this.1).mp this.2⟩
    omega
  · have hb0 : b.used ≠ 0 := by
      intro hb0
      have := h2.mp hb0
      exact h0 (h1.mpr ⟨this.1, (hz this.1).mpr this.2⟩)
    have h3 : ∀ u, 1 ≤ u → (a.used ≤ u ↔ b.used ≤ u) := by
      intro u hu
      rw [ha.used_le_iff hu, hb.used_le_iff hu, hv]
    have := (h3 a.used (by omega)).mp (le_refl _)
    have := (h3 b.used (by omega)).mpr (le_refl _)
    omega

theorem Native.content_eq {a b : Integer} (ha : a.Native) (hb : b.Native)
    (hv : a.value = b.value) : a.content = b.content := by
  rw [ha.serialisable.toWF.content_eq, hb.serialisable.toWF.content_eq, hv]

theorem Native.eq_iff {a b : Integer} (ha : a.Native) (hb : b.Native) :
    a.eq b = true ↔ a.value = b.value ∧
      (a.value = 0 → (a.signedState = .signedPositive ↔ b.signedState = .signedPositive)) := by
  rw [WF.eq_iff ha.serialisable.toWF hb.serialisable.toWF]
  constructor
  · rintro ⟨h1, h2, h3⟩
    have hv := WF.value_eq_of h2 h3
    refine ⟨hv, fun hz => ?_⟩
    have e1 := ha.used_zero_iff
    have e2 := hb.used_zero_iff
    rw [← hv] at e2
    constructor
    · intro h; exact (e2.mp (h1 ▸ e1.mpr ⟨hz, h⟩)).2
    · intro h; exact (e1.mp (h1 ▸ e2.mpr ⟨hz, h⟩)).2
  · rintro ⟨hv, hz⟩
    refine ⟨ha.used_eq hb hv hz, ha.content_eq hb hv, ?_⟩
    rw [ha.neg_iff, hb.neg_iff, hv]

/-- The number in a one-byte representation. -/
theorem WF.value_of_used_le_one {i : Integer} (h : i.WF) (hu : i.used ≤ 1) :
    i.value = (i.content.headD 0).toNat - (if i.signedState = .signedNegative then 256 else 0) := by
  obtain ⟨b, rest, hc⟩ : ∃ b rest, i.content = b :: rest := by
    cases hc : i.content with
    | nil => have := h.len; simp [hc] at this
    | cons b rest => exact ⟨b, rest, rfl⟩
  have hf : i.content.drop 1 = List.replicate 15 (fillOf i.signedState) := by
    rcases Nat.lt_or_ge i.used 1 with h0 | h1
    · have h0 : i.used = 0 := by omega
      have := h.fill
      rw [h0] at this
      simp only [List.drop_zero] at this
      rw [this, List.drop_replicate]
    · have h1 : i.used = 1 := by omega
      have := h.fill
      rw [h1] at this
      exact this
  rw [hc] at hf
  simp only [List.drop_succ_cons, List.drop_zero] at hf
  unfold value
  rw [hc, hf]
  simp only [List.headD_cons, ofLe]
  cases hs : i.signedState
  · simp [fillOf, ofLe]
  · simp [fillOf, ofLe]
  · have := ofLe_replicate_255 15
    have h15 : (256 : Nat) ^ 15 = 2 ^ 120 := by decide
    rw [h15] at this
    simp only [fillOf, ↓reduceIte]
    omega

theorem Native.normUsed_eq {i : Integer} (h : i.Native)
    (hz : ¬ (i.signedState = .unsigned ∧ i.value = 0)) : i.normUsed = i := by
  have hw := h.serialisable.toWF
  have hu0 := h.used_zero_iff
  have hun : ¬ i.used = 0 → 1 ≤ i.used := by omega
  unfold normUsed
  split
  · rename_i hc
    have hv := hw.value_of_used_le_one hc.1
    have hused : (if i.signedState = .signedNegative ∨ i.content.headD 0 ≠ 0 then 1 else 0)
        = i.used := by
      by_cases hs : i.signedState = .signedNegative
      · have := h.serialisable.neg_used hs
        simp only [hs, true_or, ↓reduceIte]; omega
      · simp only [hs, false_or, if_false, Int.sub_zero] at hv ⊢
        by_cases hb : i.content.headD 0 = 0
        · simp only [hb, ne_eq, not_true_eq_false, ↓reduceIte]
          rw [hb] at hv
          have hv : i.value = 0 := by simpa using hv
          have : i.signedState = .signedPositive := by
            cases hs' : i.signedState
            · exact absurd ⟨hs', hv⟩ hz
            · rfl
            · exact absurd hs' hs
          exact (hu0.mpr ⟨hv, this⟩).symm
        · simp only [hb, ne_eq, not_false_eq_true, ↓reduceIte]
          have hne : (i.content.headD 0).toNat ≠ 0 := fun h => hb (UInt8.toNat_inj.mp h)
          have : i.used ≠ 0 := fun h => by have := (hu0.mp h).1; omega
          omega
    rw [hused]
  · rfl

end Integer

end Souris
