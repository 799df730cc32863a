import Verif.Model.Bytes
import Mathlib.Tactic.Ring
import Mathlib.Tactic.Linarith

/-! # Lemmas about little-endian bytes -/

namespace Souris

@[simp] theorem leBytes_length (k n : Nat) : (leBytes k n).length = k := by
  induction k generalizing n with
  | zero => rfl
  | succ k ih => simp [leBytes, ih]

@[simp] theorem leBytesS_length (k : Nat) (n : Int) : (leBytesS k n).length = k := by
  simp [leBytesS]

theorem ofLe_leBytes (k n : Nat) : ofLe (leBytes k n) = n % 256 ^ k := by
  induction k generalizing n with
  | zero => simp [leBytes, ofLe, Nat.mod_one]
  | succ k ih =>
    simp only [leBytes, ofLe, ih, UInt8.toNat_ofNat', Nat.reducePow]
    rw [Nat.pow_succ', Nat.mod_mul]

theorem ofLe_leBytes_of_lt {k n : Nat} (h : n < 256 ^ k) : ofLe (leBytes k n) = n := by
  rw [ofLe_leBytes, Nat.mod_eq_of_lt h]

theorem ofLe_lt (bs : List UInt8) : ofLe bs < 256 ^ bs.length := by
  induction bs with
  | nil => simp [ofLe]
  | cons b bs ih =>
    have := b.toNat_lt
    simp only [ofLe, List.length_cons, Nat.pow_succ']
    omega

theorem leBytes_ofLe (bs : List UInt8) : leBytes bs.length (ofLe bs) = bs := by
  induction bs with
  | nil => rfl
  | cons b bs ih =>
    have := b.toNat_lt
    simp only [ofLe, List.length_cons, leBytes]
    have h1 : (b.toNat + 256 * ofLe bs) / 256 = ofLe bs := by omega
    rw [h1, ih]
    congr 1
    apply UInt8.toNat_inj.mp
    simp only [UInt8.toNat_ofNat', Nat.reducePow]
    omega

theorem ofLe_append (a b : List UInt8) : ofLe (a ++ b) = ofLe a + 256 ^ a.length * ofLe b := by
  induction a with
  | nil => simp [ofLe]
  | cons x a ih =>
    simp only [List.cons_append, ofLe, ih, List.length_cons, Nat.pow_succ']
    ring

theorem ofLe_replicate_zero (n : Nat) : ofLe (List.replicate n 0) = 0 := by
  induction n with
  | zero => rfl
  | succ n ih => simp [List.replicate_succ, ofLe, ih]

theorem ofLe_replicate_255 (n : Nat) : ofLe (List.replicate n 255) + 1 = 256 ^ n := by
  induction n with
  | zero => rfl
  | succ n ih =>
    simp only [List.replicate_succ, ofLe, Nat.pow_succ', ← ih]
    have : (255 : UInt8).toNat = 255 := rfl
    omega

theorem ofLe_take (bs : List UInt8) (k : Nat) (h : k ≤ bs.length) :
    ofLe (bs.take k) = ofLe bs % 256 ^ k := by
  conv_rhs => rw [← List.take_append_drop k bs, ofLe_append]
  have hl : (bs.take k).length = k := by simp [h]
  rw [hl, Nat.add_mul_mod_self_left]
  rw [Nat.mod_eq_of_lt]
  simpa [hl] using ofLe_lt (bs.take k)

theorem copyPrefix_eq {base bs : List UInt8} (h : bs.length ≤ base.length) :
    copyPrefix base bs = bs ++ base.drop bs.length := by
  induction bs generalizing base with
  | nil => cases base <;> simp [copyPrefix]
  | cons b bs ih =>
    cases base with
    | nil => simp at h
    | cons a base =>
      simp only [copyPrefix, List.cons_append, List.length_cons, List.drop_succ_cons]
      rw [ih]
      simpa using h

theorem toPattern_lt (k : Nat) (n : Int) : toPattern k n < 256 ^ k := by
  have hp : 0 < 256 ^ k := Nat.pow_pos (by decide)
  unfold toPattern
  have h1 := Int.emod_lt_of_pos n (Int.natCast_pos.mpr hp)
  have h2 := Int.emod_nonneg n (b := ((256 ^ k : Nat) : Int)) (by omega)
  omega

theorem ofPattern_toPattern {k : Nat} {n : Int}
    (h1 : -(256 ^ k : Nat) ≤ 2 * n) (h2 : 2 * n < (256 ^ k : Nat)) :
    ofPattern k (toPattern k n) = n := by
  have hp : 0 < 256 ^ k := Nat.pow_pos (by decide)
  unfold ofPattern toPattern
  generalize 256 ^ k = m at *
  by_cases hn : 0 ≤ n
  · rw [Int.emod_eq_of_lt hn (by omega)]
    rw [if_pos (by omega)]
    omega
  · have : n % (m : Int) = n + m := by
      rw [← Int.add_emod_right]
      exact Int.emod_eq_of_lt (by omega) (by omega)
    rw [this, if_neg (by omega)]
    omega

theorem toPattern_of_nonneg {k n : Nat} (h : n < 256 ^ k) : toPattern k (n : Int) = n := by
  unfold toPattern
  rw [Int.emod_eq_of_lt (by omega) (by omega)]
  simp

theorem toPattern_of_neg {k : Nat} {n : Int} (h1 : n < 0) (h2 : -(256 ^ k : Nat) ≤ n) :
    (toPattern k n : Int) = n + (256 ^ k : Nat) := by
  unfold toPattern
  have : n % ((256 ^ k : Nat) : Int) = n + (256 ^ k : Nat) := by
    rw [← Int.add_emod_right]
    exact Int.emod_eq_of_lt (by omega) (by omega)
  rw [this]
  omega

end Souris
