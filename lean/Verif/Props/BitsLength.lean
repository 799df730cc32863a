import Verif.Props.Bits
import Verif.Spec.BitsLength
import Mathlib.Tactic.Ring
import Mathlib.Tactic.Linarith

/-! # For which lengths `Bits` round-trips (C15) -/

namespace Souris

open Bits

namespace Bits

/-- Between neighbours there are no others. -/
theorem f32_gap {q e m' : Nat} (hq : 2 ^ 23 ≤ q) (h : IsSingle m') (hlo : q * 2 ^ e < m') : (q + 1) * 2 ^ e ≤ m' := by
  obtain ⟨s, e', hs, rfl⟩ := h
  by_cases he : e ≤ e'
  · obtain ⟨d, rfl⟩ := Nat.exists_eq_add_of_le he
    rw [pow_add, mul_comm (2 ^ e) (2 ^ d), ← mul_assoc] at hlo ⊢
    have := Nat.lt_of_mul_lt_mul_right hlo
    exact Nat.mul_le_mul_right _ this
  · exfalso
    obtain ⟨d, rfl⟩ := Nat.exists_eq_add_of_le (show e' + 1 ≤ e by omega)
    have h1 : q * 2 ^ (e' + 1 + d) = q * 2 * 2 ^ d * 2 ^ e' := by
      rw [pow_add, pow_succ]; ring
    rw [h1] at hlo
    have h2 := Nat.lt_of_mul_lt_mul_right hlo
    have h3 : q * 2 * 1 ≤ q * 2 * 2 ^ d := Nat.mul_le_mul_left _ (Nat.one_le_two_pow)
    omega

theorem roundF32_nearest (n : Nat) : NearestSingle n (roundF32 n) := by
  unfold roundF32
  split
  · rename_i h
    refine ⟨⟨n, 0, h, by simp⟩, fun m' _ => ?_⟩
    unfold apart
    refine ⟨by omega, fun _ => .inl (by omega)⟩
  · rename_i h
    have hn : n ≠ 0 := by omega
    have hlog : 24 ≤ Nat.log2 n := (Nat.le_log2 hn).mpr (by omega)
    have hlo : 2 ^ Nat.log2 n ≤ n := Nat.log2_self_le hn
    have hhi : n < 2 ^ (Nat.log2 n + 1) := Nat.lt_log2_self
    obtain ⟨k, hk⟩ : ∃ k, Nat.log2 n = 24 + k := ⟨Nat.log2 n - 24, by omega⟩
    rw [hk] at hlo hhi ⊢
    have he : 24 + k - 23 = k + 1 := by omega
    simp only [he, Nat.add_sub_cancel]
    set P := 2 ^ (k + 1) with hP
    have hP0 : 0 < P := by positivity
    have hhalf : P = 2 * 2 ^ k := by rw [hP, pow_succ]; ring
    set half := 2 ^ k with hh
    have hhalf0 : 0 < half := by positivity
    have e1 : 2 ^ (24 + k) = 2 ^ 23 * P := by rw [hP, ← pow_add]; congr 1; omega
    have e2 : 2 ^ (24 + k + 1) = 2 ^ 24 * P := by rw [hP, ← pow_add]; congr 1
    rw [e1] at hlo
    rw [e2] at hhi
    have hdm := Nat.div_add_mod n P
    have hr := Nat.mod_lt n hP0
    set q := n / P with hqd
    set r := n % P with hrd
    have hq1 : 2 ^ 23 ≤ q := (Nat.le_div_iff_mul_le hP0).mpr hlo
    have hq2 : q < 2 ^ 24 := (Nat.div_lt_iff_lt_mul hP0).mpr hhi
    have hn' : n = q * P + r := by rw [mul_comm]; exact hdm.symm
    have hsucc : (q + 1) * P = q * P + P := by ring
    -- the two neighbours
    have low : IsSingle (q * P) := ⟨q, k + 1, hq2, rfl⟩
    have high : IsSingle ((q + 1) * P) := by
      by_cases h : q + 1 < 2 ^ 24
      · exact ⟨q + 1, k + 1, h, rfl⟩
      · refine ⟨2 ^ 23, k + 2, by norm_num, ?_⟩
        rw [show q + 1 = 2 ^ 23 * 2 by omega, hP, pow_succ 2 (k + 1)]
        ring
    have other : ∀ m', IsSingle m' → m' ≤ q * P ∨ (q + 1) * P ≤ m' := by
      intro m' hm'
      by_cases h : m' ≤ q * P
      · exact .inl h
      · have hlt : q * P < m' := by omega
        exact .inr (f32_gap hq1 hm' hlt)
    split
    · rename_i hc
      refine ⟨high, fun m' hm' => ?_⟩
      rcases other m' hm' with h | h
      · unfold apart
        refine ⟨by omega, fun heq => .inr ?_⟩
        have hodd : q % 2 = 1 := by
          rcases hc with hc | hc
          · omega
          · exact hc.2
        by_cases h24 : q + 1 < 2 ^ 24
        · exact ⟨q + 1, k + 1, h24, by omega, by omega, rfl⟩
        · refine ⟨2 ^ 23, k + 2, by norm_num, le_refl _, by norm_num, ?_⟩
          rw [show q + 1 = 2 ^ 23 * 2 by omega, hP, pow_succ 2 (k + 1)]
          ring
      · unfold apart
        refine ⟨by omega, fun heq => .inl (by omega)⟩
    · rename_i hc
      refine ⟨low, fun m' hm' => ?_⟩
      have hle : r ≤ half := by
        by_contra hx
        exact hc (.inl (by omega))
      rcases other m' hm' with h | h
      · unfold apart
        refine ⟨by omega, fun heq => .inl (by omega)⟩
      · unfold apart
        refine ⟨by omega, fun heq => .inr ⟨q, k + 1, hq2, hq1, ?_, rfl⟩⟩
        by_contra hx
        exact hc (.inr ⟨by omega, by omega⟩)

/-- Two different numbers cannot both be nearest. -/
theorem nearest_not_lt {n m m' : Nat} (h : NearestSingle n m) (h' : NearestSingle n m') : ¬ m < m' := by
  intro hlt
  have e1 := (h.2 m' h'.1).1
  have e2 := (h'.2 m h.1).1
  have heq : apart n m = apart n m' := by omega
  obtain ⟨s, e, hs, hs', hev, rfl⟩ := ((h.2 m' h'.1).2 heq).resolve_left (by omega)
  obtain ⟨t, f, ht, ht', hev', rfl⟩ := ((h'.2 _ h.1).2 heq.symm).resolve_left (by omega)
  -- two even neighbours leave an odd one nearer to `n`
  have hP : ∀ a : Nat, 0 < 2 ^ a := fun a => by positivity
  have h1 : IsSingle ((s + 1) * 2 ^ e) := ⟨s + 1, e, by omega, rfl⟩
  have h2 := (h.2 _ h1).1
  have h3 := f32_gap hs' h'.1 hlt
  have h4 : (s + 1) * 2 ^ e = s * 2 ^ e + 2 ^ e := by ring
  have h5 := hP e
  rcases Nat.lt_or_ge ((s + 1) * 2 ^ e) (t * 2 ^ f) with h6 | h6
  · unfold apart at heq h2
    omega
  · have h7 : t * 2 ^ f = (s + 1) * 2 ^ e := by omega
    rcases Nat.lt_or_ge e f with hef | hef
    · obtain ⟨d, rfl⟩ := Nat.exists_eq_add_of_le (show e + 1 ≤ f by omega)
      rw [show t * 2 ^ (e + 1 + d) = t * 2 * 2 ^ d * 2 ^ e by rw [pow_add, pow_succ]; ring] at h7
      have h8 := Nat.eq_of_mul_eq_mul_right h5 h7
      have : t * 2 * 1 ≤ t * 2 * 2 ^ d := Nat.mul_le_mul_left _ (Nat.one_le_two_pow)
      omega
    · obtain ⟨d, rfl⟩ := Nat.exists_eq_add_of_le hef
      rw [show (s + 1) * 2 ^ (f + d) = (s + 1) * 2 ^ d * 2 ^ f by rw [pow_add]; ring] at h7
      have h8 := Nat.eq_of_mul_eq_mul_right (hP f) h7
      rcases Nat.eq_zero_or_pos d with rfl | hd
      · omega
      · obtain ⟨c, rfl⟩ := Nat.exists_eq_add_of_le (show 1 ≤ d by omega)
        have : (s + 1) * 2 * 1 ≤ (s + 1) * 2 * 2 ^ c := Nat.mul_le_mul_left _ (Nat.one_le_two_pow)
        rw [show (s + 1) * 2 ^ (1 + c) = (s + 1) * 2 * 2 ^ c by rw [pow_add]; ring] at h8
        omega

/-- There is one nearest number only. -/
theorem nearest_unique {n m m' : Nat} (h : NearestSingle n m) (h' : NearestSingle n m') : m = m' := by
  have := nearest_not_lt h h'
  have := nearest_not_lt h' h
  omega

/-- A number that is an `f32` is its own nearest. -/
theorem nearest_self {n : Nat} (h : IsSingle n) : NearestSingle n n := by
  refine ⟨h, fun m' _ => ?_⟩
  unfold apart
  exact ⟨by omega, fun _ => .inl (by omega)⟩

end Bits

/-- C15 for each length: where `m` is the `f32` nearest to the number of bits, the bits round-trip
if and only if `m` bits fill as many bytes as the bits do (or the bytes would be more than a
program can hold). -/
theorem C15_lengths (l : List Bool) (hl : l.length < 2 ^ 64) (m : Nat)
    (hm : NearestSingle l.length m) :
    ∃ bytes, (ofBools l).ser = .ok bytes ∧
      ((∀ pre tail : List UInt8, (pre ++ bytes ++ tail).length < 2 ^ 64 →
        Bits.deser ⟨pre ++ bytes ++ tail, pre.length⟩
          = .ok (ofBools l, ⟨pre ++ bytes ++ tail, (pre ++ bytes).length⟩)) ↔
        ((m + 7) / 8 = (l.length + 7) / 8 ∨ 2 ^ 64 ≤ bytes.length)) := by
  have := C15_roundtrip_iff l hl
  unfold bytesToRead at this
  rwa [nearest_unique (roundF32_nearest l.length) hm] at this

/-- C15, partial: whole bytes of bits round-trip up to `2^27` bits (16 MiB). Missing: other
lengths above `2^24`, which `C15_lengths` decides. -/
theorem C15_whole_bytes_partial (l : List Bool) (k : Nat) (hl : l.length = 8 * k) (hk : k < 2 ^ 24) :
    ∃ bytes, (ofBools l).ser = .ok bytes ∧
      ∀ pre tail : List UInt8, (pre ++ bytes ++ tail).length < 2 ^ 64 →
        Bits.deser ⟨pre ++ bytes ++ tail, pre.length⟩
          = .ok (ofBools l, ⟨pre ++ bytes ++ tail, (pre ++ bytes).length⟩) := by
  obtain ⟨bytes, h1, h2⟩ := C15_lengths l (by omega) l.length
    (nearest_self ⟨k, 3, hk, by omega⟩)
  exact ⟨bytes, h1, h2.mpr (.inl rfl)⟩

/-- `2^24 + 1` is half way between two `f32`s: the even one is taken, which fills a byte less. -/
example : NearestSingle (2 ^ 24 + 1) (2 ^ 24) ∧ (2 ^ 24 + 7) / 8 ≠ (2 ^ 24 + 1 + 7) / 8 := by
  refine ⟨?_, by decide⟩
  have h : roundF32 (2 ^ 24 + 1) = 2 ^ 24 := by decide +kernel
  exact h ▸ roundF32_nearest (2 ^ 24 + 1)

/-- `2^24 + 3` goes up to `2^24 + 4`, in the same byte. -/
example : NearestSingle (2 ^ 24 + 3) (2 ^ 24 + 4) ∧ (2 ^ 24 + 4 + 7) / 8 = (2 ^ 24 + 3 + 7) / 8 := by
  refine ⟨?_, by decide⟩
  have h : roundF32 (2 ^ 24 + 3) = 2 ^ 24 + 4 := by decide +kernel
  exact h ▸ roundF32_nearest (2 ^ 24 + 3)

example : (List.replicate (8 * (2 ^ 24 - 1)) true).length = 8 * (2 ^ 24 - 1) :=
  List.length_replicate

end Souris
