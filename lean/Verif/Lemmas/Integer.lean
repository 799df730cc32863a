import Verif.Spec.Integer
import Verif.Lemmas.Bytes
import Verif.Lemmas.Cursor

/-! # Lemmas about `Integer` -/

namespace Souris

namespace Integer

/-- Recursive form of `lastNe`: 1 + index of the last byte different from `fill`. -/
def sigLen (fill : UInt8) : List UInt8 → Nat
  | [] => 0
  | b :: bs => if sigLen fill bs = 0 then (if b = fill then 0 else 1) else sigLen fill bs + 1

theorem lastNe_eq (fill : UInt8) (bs : List UInt8) (i acc : Nat) :
    lastNe fill i acc bs = if sigLen fill bs = 0 then acc else i + sigLen fill bs := by
  induction bs generalizing i acc with
  | nil => simp [lastNe, sigLen]
  | cons b bs ih =>
    simp only [lastNe, ih, sigLen]
    split <;> rename_i h
    · by_cases hb : b = fill <;> simp [hb]
    · simp; omega

theorem lastNonZeroIdx_eq (bs : List UInt8) (i acc : Nat) :
    lastNonZeroIdx i acc bs = if sigLen 0 bs = 0 then acc else i + sigLen 0 bs - 1 := by
  induction bs generalizing i acc with
  | nil => simp [lastNonZeroIdx, sigLen]
  | cons b bs ih =>
    simp only [lastNonZeroIdx, ih, sigLen]
    split <;> rename_i h
    · by_cases hb : b = 0 <;> simp [hb]
    · simp

theorem sigLen_le (fill : UInt8) (bs : List UInt8) : sigLen fill bs ≤ bs.length := by
  induction bs with
  | nil => simp [sigLen]
  | cons b bs ih =>
    simp only [sigLen, List.length_cons]
    split
    · split <;> omega
    · omega

theorem drop_sigLen (fill : UInt8) (bs : List UInt8) {u : Nat} (h : sigLen fill bs ≤ u) :
    bs.drop u = List.replicate (bs.length - u) fill := by
  induction bs generalizing u with
  | nil => simp
  | cons b bs ih =>
    simp only [sigLen] at h
    cases u with
    | zero =>
      split at h <;> rename_i h0
      · split at h <;> rename_i hb
        · have := ih (u := 0) (by omega)
          simp only [List.drop_zero, Nat.sub_zero] at this
          simp only [List.drop_zero, Nat.sub_zero, List.length_cons, List.replicate_succ]
          rw [← this, hb]
        · omega
      · omega
    | succ u =>
      simp only [List.drop_succ_cons, List.length_cons]
      rw [ih]
      · congr 1; omega
      · split at h <;> omega

theorem sigLen_zero_le_iff (bs : List UInt8) (u : Nat) : sigLen 0 bs ≤ u ↔ ofLe bs < 256 ^ u := by
  induction bs generalizing u with
  | nil => simp [sigLen, ofLe]
  | cons b bs ih =>
    simp only [sigLen, ofLe]
    have hb := b.toNat_lt
    have h0 := ih 0
    simp only [Nat.le_zero, Nat.pow_zero, Nat.lt_one_iff] at h0
    cases u with
    | zero =>
      simp only [Nat.pow_zero, Nat.lt_one_iff, Nat.le_zero]
      by_cases hz : sigLen 0 bs = 0
      · simp only [hz, ↓reduceIte]
        have := h0.mp hz
        by_cases hb0 : b = 0
        · simp [hb0, this]
        · have : b.toNat ≠ 0 := fun h => hb0 (UInt8.toNat_inj.mp h)
          simp only [hb0, ↓reduceIte]; omega
      · have : ofLe bs ≠ 0 := fun h => hz (h0.mpr h)
        simp only [hz, ↓reduceIte]; omega
    | succ u =>
      have hu := ih u
      rw [Nat.pow_succ']
      have hp : 0 < 256 ^ u := Nat.pow_pos (by decide)
      by_cases hz : sigLen 0 bs = 0
      · have := h0.mp hz
        simp only [hz, ↓reduceIte]
        constructor
        · intro _; omega
        · intro _; split <;> omega
      · simp only [hz, ↓reduceIte]
        omega

theorem sigLen_255_le_iff (bs : List UInt8) (u : Nat) :
    sigLen 255 bs ≤ u ↔ 256 ^ bs.length ≤ ofLe bs + 256 ^ u := by
  induction bs generalizing u with
  | nil =>
    have hp : 0 < 256 ^ u := Nat.pow_pos (by decide)
    simp only [sigLen, ofLe, List.length_nil, Nat.pow_zero]; omega
  | cons b bs ih =>
    simp only [sigLen, ofLe, List.length_cons]
    have hb := b.toNat_lt
    have h0 := ih 0
    have hl := ofLe_lt bs
    simp only [Nat.le_zero, Nat.pow_zero] at h0
    rw [Nat.pow_succ']
    have hbb : b.toNat = 255 → b = 255 := fun h => UInt8.toNat_inj.mp h
    have h255 : (255 : UInt8).toNat = 255 := rfl
    cases u with
    | zero =>
      simp only [Nat.pow_zero, Nat.le_zero]
      by_cases hz : sigLen 255 bs = 0
      · simp only [hz, ↓reduceIte]
        have := h0.mp hz
        by_cases hb0 : b = 255
        · have : b.toNat = 255 := by rw [hb0, h255]
          rw [if_pos hb0]; omega
        · have : b.toNat ≠ 255 := fun h => hb0 (hbb h)
          simp only [hb0, ↓reduceIte]; omega
      · have : ¬ (256 ^ bs.length ≤ ofLe bs + 1) := fun h => hz (h0.mpr h)
        simp only [hz, ↓reduceIte]; omega
    | succ u =>
      have hu := ih u
      rw [Nat.pow_succ']
      have hp : 0 < 256 ^ u := Nat.pow_pos (by decide)
      by_cases hz : sigLen 255 bs = 0
      · have := h0.mp hz
        simp only [hz, ↓reduceIte]
        constructor
        · intro _; omega
        · intro _; split <;> omega
      · simp only [hz, ↓reduceIte]
        omega

/-- The byte with which unused content bytes are filled. -/
def fillOf (ss : SignedState) : UInt8 := if ss = .signedNegative then 255 else 0

theorem fillArray_eq (ss : SignedState) :
    fillArray ss = List.replicate 16 (fillOf ss) := by
  unfold fillArray fillOf integerMaxSize; split <;> rfl

/-- Invariant of all `Integer`s at run time. -/
structure WF (i : Integer) : Prop where
  len : i.content.length = 16
  used_le : i.used ≤ 16
  fill : i.content.drop i.used = List.replicate (16 - i.used) (fillOf i.signedState)

theorem ofSigned_neg_eq {k : Nat} {n : Int} (h : n < -1) :
    ofSigned k n = ⟨.signedNegative, copyPrefix (List.replicate integerMaxSize 255) (leBytesS k n),
      lastNe 255 0 0 (leBytesS k n)⟩ := by
  unfold ofSigned
  rw [if_neg (by omega), if_neg (by omega), if_pos (by omega)]

theorem ofSigned_pos_eq {k : Nat} {n : Int} (h : 0 < n) :
    ofSigned k n = ⟨.signedPositive, copyPrefix (List.replicate integerMaxSize 0) (leBytesS k n),
      lastNe 0 0 0 (leBytesS k n)⟩ := by
  unfold ofSigned
  rw [if_neg (by omega), if_neg (by omega), if_neg (by omega)]

theorem lastNe_start (fill : UInt8) (bs : List UInt8) : lastNe fill 0 0 bs = sigLen fill bs := by
  rw [lastNe_eq]; split <;> omega

theorem sigLen_append_replicate (fill : UInt8) (bs : List UInt8) (n : Nat) :
    sigLen fill (bs ++ List.replicate n fill) = sigLen fill bs := by
  induction bs with
  | nil =>
    induction n with
    | zero => rfl
    | succ n ih =>
      simp only [List.nil_append, sigLen] at ih ⊢
      simp [List.replicate_succ, sigLen, ih]
  | cons b bs ih => simp [sigLen, ih]

theorem ofUnsigned_wf {k n : Nat} (hk1 : 1 ≤ k) (hk : k ≤ 16) : (ofUnsigned k n).WF := by
  have hs := sigLen_le 0 (leBytes k n)
  simp only [leBytes_length] at hs
  have hu : lastNonZeroIdx 0 0 (leBytes k n) + 1 = max 1 (sigLen 0 (leBytes k n)) := by
    rw [lastNonZeroIdx_eq]; split <;> omega
  have hc : copyPrefix (List.replicate integerMaxSize 0) (leBytes k n)
      = leBytes k n ++ List.replicate (16 - k) 0 := by
    rw [copyPrefix_eq (by simp [integerMaxSize, hk]), List.drop_replicate, leBytes_length]; rfl
  constructor
  · simp only [ofUnsigned, hc]; simp; omega
  · simp only [ofUnsigned, hu]; omega
  · simp only [ofUnsigned, hc, hu, fillOf]
    rw [drop_sigLen 0]
    · simp; omega
    · rw [sigLen_append_replicate]; omega

theorem ofUnsigned_value {k n : Nat} (hk : k ≤ 16) (h : n < 256 ^ k) :
    (ofUnsigned k n).value = n := by
  have hc : copyPrefix (List.replicate integerMaxSize 0) (leBytes k n)
      = leBytes k n ++ List.replicate (16 - k) 0 := by
    rw [copyPrefix_eq (by simp [integerMaxSize, hk]), List.drop_replicate, leBytes_length]; rfl
  simp only [value, ofUnsigned, hc, ofLe_append, ofLe_replicate_zero, ofLe_leBytes_of_lt h]
  simp

theorem ofUnsigned_used {k n : Nat} (h : n < 256 ^ k) {u : Nat} (hu : 1 ≤ u) :
    (ofUnsigned k n).used ≤ u ↔ n < 256 ^ u := by
  simp only [ofUnsigned]
  rw [lastNonZeroIdx_eq]
  rw [← ofLe_leBytes_of_lt h, ← sigLen_zero_le_iff, ofLe_leBytes_of_lt h]
  split <;> omega

theorem ofUnsigned_used_pos (k n : Nat) : 1 ≤ (ofUnsigned k n).used := by
  simp [ofUnsigned]

theorem copy255 {k : Nat} {n : Int} (hk : k ≤ 16) :
    copyPrefix (List.replicate integerMaxSize 255) (leBytesS k n)
      = leBytesS k n ++ List.replicate (16 - k) 255 := by
  rw [copyPrefix_eq (by simp [integerMaxSize, hk]), List.drop_replicate, leBytesS_length]; rfl

theorem copy0 {k : Nat} {n : Int} (hk : k ≤ 16) :
    copyPrefix (List.replicate integerMaxSize 0) (leBytesS k n)
      = leBytesS k n ++ List.replicate (16 - k) 0 := by
  rw [copyPrefix_eq (by simp [integerMaxSize, hk]), List.drop_replicate, leBytesS_length]; rfl

/-- Case analysis for `ofSigned`. -/
theorem ofSigned_cases (n : Int) : n = 0 ∨ n = -1 ∨ n < -1 ∨ 0 < n := by omega

theorem ofSigned_wf {k : Nat} {n : Int} (hk : k ≤ 16) : (ofSigned k n).WF := by
  rcases ofSigned_cases n with h | h | h | h
  · subst h; constructor <;> simp [ofSigned, integerMaxSize, fillOf]
  · subst h; constructor <;> simp [ofSigned, integerMaxSize, fillOf]
  · have hs := sigLen_le 255 (leBytesS k n)
    simp only [leBytesS_length] at hs
    rw [ofSigned_neg_eq h, copy255 hk, lastNe_start]
    constructor
    · simp; omega
    · simp only; omega
    · simp only [fillOf, ↓reduceIte]
      rw [drop_sigLen 255]
      · simp; omega
      · rw [sigLen_append_replicate]
  · have hs := sigLen_le 0 (leBytesS k n)
    simp only [leBytesS_length] at hs
    rw [ofSigned_pos_eq h, copy0 hk, lastNe_start]
    constructor
    · simp; omega
    · simp only; omega
    · simp only [fillOf]
      rw [drop_sigLen 0]
      · simp; omega
      · rw [sigLen_append_replicate]

theorem ofSigned_state (k : Nat) (n : Int) :
    (ofSigned k n).signedState = if n < 0 then .signedNegative else .signedPositive := by
  unfold ofSigned
  split
  · subst_vars; rfl
  · split
    · subst_vars; rfl
    · split <;> rfl

theorem ofSigned_value {k : Nat} {n : Int} (hk : k ≤ 16)
    (h1 : -(256 ^ k : Nat) ≤ 2 * n) (h2 : 2 * n < (256 ^ k : Nat)) :
    (ofSigned k n).value = n := by
  have hp : 0 < 256 ^ k := Nat.pow_pos (by decide)
  rcases ofSigned_cases n with h | h | h | h
  · subst h
    simp only [ofSigned, value, ↓reduceIte, ofLe_replicate_zero]; rfl
  · subst h
    have := ofLe_replicate_255 integerMaxSize
    have h16 : 256 ^ integerMaxSize = 2 ^ 128 := by decide
    rw [h16] at this
    simp only [ofSigned, value, ↓reduceIte, Int.reduceNeg, Int.reduceEq]
    omega
  · rw [ofSigned_neg_eq h, copy255 hk]
    simp only [value, ofLe_append, leBytesS_length]
    rw [leBytesS, ofLe_leBytes_of_lt (toPattern_lt k n)]
    have h3 := toPattern_of_neg (k := k) (n := n) (by omega) (by omega)
    have h4 := ofLe_replicate_255 (16 - k)
    have h5 : (256 : Nat) ^ k * 256 ^ (16 - k) = 256 ^ 16 := by
      rw [← Nat.pow_add]; congr 1; omega
    rw [← h4, Nat.mul_add, Nat.mul_one] at h5
    have h6 : (256 : Nat) ^ 16 = 2 ^ 128 := by decide
    rw [h6] at h5
    generalize 256 ^ k * ofLe (List.replicate (16 - k) 255) = z at *
    generalize 256 ^ k = w at *
    omega
  · rw [ofSigned_pos_eq h, copy0 hk]
    simp only [value, ofLe_append, leBytesS_length, ofLe_replicate_zero]
    rw [leBytesS, ofLe_leBytes_of_lt (toPattern_lt k n)]
    have h3 := toPattern_of_nonneg (k := k) (n := n.toNat) (by omega)
    rw [Int.toNat_of_nonneg (by omega)] at h3
    rw [h3]
    simp; omega

/-- For non-negative native signed integers. -/
theorem ofSigned_used_nonneg {k : Nat} {n : Int} (h0 : 0 ≤ n)
    (h2 : 2 * n < (256 ^ k : Nat)) (u : Nat) :
    (ofSigned k n).used ≤ u ↔ n < (256 ^ u : Nat) := by
  have hp : 0 < 256 ^ u := Nat.pow_pos (by decide)
  rcases ofSigned_cases n with h | h | h | h
  · subst h; simp only [ofSigned, ↓reduceIte]; omega
  · omega
  · omega
  · rw [ofSigned_pos_eq h]
    simp only [lastNe_start, sigLen_zero_le_iff]
    rw [leBytesS, ofLe_leBytes_of_lt (toPattern_lt k n)]
    have h3 := toPattern_of_nonneg (k := k) (n := n.toNat) (by omega)
    rw [Int.toNat_of_nonneg (by omega)] at h3
    rw [h3]; omega

/-- For negative native signed integers. -/
theorem ofSigned_used_neg {k : Nat} {n : Int} (h0 : n < 0)
    (h1 : -(256 ^ k : Nat) ≤ 2 * n) {u : Nat} (hu : 1 ≤ u) :
    (ofSigned k n).used ≤ u ↔ -(256 ^ u : Nat) ≤ n := by
  have hp : 0 < 256 ^ u := Nat.pow_pos (by decide)
  rcases ofSigned_cases n with h | h | h | h
  · omega
  · subst h
    simp only [ofSigned, ↓reduceIte, Int.reduceNeg, Int.reduceEq]; omega
  · rw [ofSigned_neg_eq h]
    simp only [lastNe_start, sigLen_255_le_iff]
    rw [leBytesS, ofLe_leBytes_of_lt (toPattern_lt k n)]
    have h3 := toPattern_of_neg (k := k) (n := n) (by omega) (by omega)
    simp only [leBytes_length]; omega
  · omega

theorem ofSigned_used_pos_of_neg {k : Nat} {n : Int} (h0 : n < 0)
    (h1 : -(256 ^ k : Nat) ≤ 2 * n) : 1 ≤ (ofSigned k n).used := by
  rcases ofSigned_cases n with h | h | h | h
  · omega
  · subst h; simp [ofSigned]
  · rw [ofSigned_neg_eq h]
    simp only [lastNe_start]
    by_contra hc
    have := (sigLen_255_le_iff (leBytesS k n) 0).mp (by omega)
    rw [leBytesS, ofLe_leBytes_of_lt (toPattern_lt k n)] at this
    have h3 := toPattern_of_neg (k := k) (n := n) (by omega) (by omega)
    simp only [leBytes_length] at this; omega
  · omega

/-! ### Reading back -/

theorem WF.take_eq {i : Integer} (h : i.WF) {k : Nat} (hk : k ≤ 16) (hu : i.used ≤ k) :
    copyPrefix (List.replicate k (fillOf i.signedState)) (i.content.take i.used)
      = i.content.take k := by
  have hl := h.len
  have hlen : (i.content.take i.used).length = i.used := by simp; omega
  rw [copyPrefix_eq (by simp; omega), hlen]
  conv_rhs => rw [← List.take_append_drop i.used i.content, h.fill]
  rw [List.take_append, hlen]
  have h1 : List.take k (List.take i.used i.content) = List.take i.used i.content := by
    rw [List.take_take]; congr 1; omega
  rw [h1]; simp; omega

/-- The signed conversion wraps the number to `k` bytes. -/
theorem WF.toSigned_eq {i : Integer} (h : i.WF) {k : Nat} (hk : k ≤ 16) :
    i.toSigned k = if i.used > k then .err .tooBigToFit
      else .ok (ofPattern k (toPattern k i.value)) := by
  unfold toSigned
  split
  · rfl
  · rename_i hu
    have hu : i.used ≤ k := by omega
    have hl := h.len
    have hval : toPattern k i.value = ofLe i.content % 256 ^ k := by
      have hdvd : ((256 ^ k : Nat) : Int) ∣ 2 ^ 128 := by
        have : (2 : Int) ^ 128 = ((256 ^ 16 : Nat) : Int) := by norm_num
        rw [this]
        exact_mod_cast Nat.pow_dvd_pow 256 hk
      unfold toPattern value
      split
      · rw [Int.sub_emod, Int.emod_eq_zero_of_dvd hdvd, Int.sub_zero, Int.emod_emod_of_dvd _ (dvd_refl _)]
        rw [← Int.natCast_emod]; rfl
      · rw [← Int.natCast_emod]; rfl
    have hout : (if i.signedState = .signedNegative then
        copyPrefix (List.replicate k 255) (i.content.take i.used)
      else copyPrefix (List.replicate k 0) (i.content.take i.used)) = i.content.take k := by
      rw [← h.take_eq hk hu]
      unfold fillOf
      split <;> rfl
    simp only [hout]
    congr 1
    unfold ofLeS
    rw [ofLe_take _ _ (by omega), hval]
    congr 1
    simp; omega

theorem WF.toUnsigned_eq {i : Integer} (h : i.WF) {k : Nat} (hk : k ≤ 16) :
    i.toUnsigned k = if i.used > k then .err .tooBigToFit
      else if i.signedState = .signedNegative then .err .signError
      else .ok i.value.toNat := by
  unfold toUnsigned
  split
  · rfl
  · split
    · rfl
    · rename_i hu hs
      have hu : i.used ≤ k := by omega
      have hl := h.len
      congr 1
      have h2 : copyPrefix (List.replicate k 0) (i.content.take k) = i.content.take k := by
        rw [copyPrefix_eq (by simp)]
        simp; omega
      rw [h2]
      have h3 : i.value = ofLe i.content := by
        unfold value; split
        · rename_i h'; exact absurd h' hs
        · rfl
      rw [h3, Int.toNat_natCast]
      have hf := h.fill
      have h4 : i.content.drop k = List.replicate (16 - k) 0 := by
        have : i.content.drop k = (i.content.drop i.used).drop (k - i.used) := by
          rw [List.drop_drop]; congr 1; omega
        rw [this, hf]
        simp [fillOf, hs]; omega
      conv_rhs => rw [← List.take_append_drop k i.content, ofLe_append, h4, ofLe_replicate_zero]
      simp

/-- Content bytes are determined by the sign class and the value. -/
theorem WF.content_eq {i : Integer} (h : i.WF) :
    i.content = leBytes 16 (toPattern 16 i.value) := by
  have hl := h.len
  have : toPattern 16 i.value = ofLe i.content := by
    have h16 := ofLe_lt i.content
    rw [hl] at h16
    unfold toPattern value
    split
    · have : ((ofLe i.content : Int) - 2 ^ 128) % ((256 ^ 16 : Nat) : Int) = ofLe i.content := by
        have e : (2 : Int) ^ 128 = ((256 ^ 16 : Nat) : Int) := by norm_num
        rw [e, Int.sub_emod_right]
        exact Int.emod_eq_of_lt (by omega) (by omega)
      rw [this]; simp
    · rw [Int.emod_eq_of_lt (by omega) (by omega)]; simp
  rw [this, ← hl, leBytes_ofLe]

theorem WF.value_lt {i : Integer} (h : i.WF) : -(2 ^ 128) ≤ i.value ∧ i.value < 2 ^ 128 := by
  have h1 := ofLe_lt i.content
  rw [h.len] at h1
  unfold value
  split <;> constructor <;> push_cast at * <;> omega

/-! ### Serialisation -/

theorem WF.ser_state (i : Integer) : i.ser.1 = i.signedState := by
  unfold ser; simp only; split <;> rfl

/-- What deserialising the bytes of `i` yields: `i` itself, except that an `Integer` whose number is an
unsigned/positive zero comes back with no used bytes, and one whose single used byte is significant
comes back with one. -/
def normUsed (i : Integer) : Integer :=
  { i with used :=
      if i.used ≤ 1 ∧ (i.content.headD 0).toNat ≤ oneByteMaxSize then
        if i.signedState = .signedNegative ∨ i.content.headD 0 ≠ 0 then 1 else 0
      else i.used }

/-- The condition under which `ser` writes all information: a negative number uses a byte. -/
structure Serialisable (i : Integer) : Prop extends WF i where
  neg_used : i.signedState = .signedNegative → 1 ≤ i.used

theorem Serialisable.reads {i : Integer} (h : i.Serialisable) :
    Reads (deser i.signedState) i.ser.2 i.normUsed := by
  have hl := h.len
  have hul := h.used_le
  obtain ⟨b, rest, hc⟩ : ∃ b rest, i.content = b :: rest := by
    cases hc : i.content with
    | nil => simp [hc] at hl
    | cons b rest => exact ⟨b, rest, rfl⟩
  unfold deser ser normUsed
  simp only
  have hhd : i.content.headD 0 = b := by simp [hc]
  rw [hhd]
  by_cases hcase : i.used ≤ 1 ∧ b.toNat ≤ oneByteMaxSize
  · rw [if_pos hcase, if_pos hcase]
    rw [show [b] = [b] ++ [] by rfl]
    refine Reads.bind (Reads.next _ _) ?_
    rw [if_pos hcase.2]
    convert Reads.pure _ using 1
    congr 1
    have hf := h.fill
    rw [fillArray_eq, copyPrefix_eq (by simp)]
    rcases Nat.lt_or_ge i.used 1 with hu0 | hu1
    · have hu0 : i.used = 0 := by omega
      rw [hu0] at hf
      simp only [List.drop_zero, Nat.sub_zero] at hf
      rw [hf] at hc ⊢
      simp only [List.replicate_succ, List.cons.injEq] at hc ⊢
      simp [hc.1]
    · have hu1 : i.used = 1 := by omega
      rw [hu1, hc] at hf
      simp only [List.drop_succ_cons, List.drop_zero] at hf
      rw [hc, hf]
      simp
  · rw [if_neg hcase, if_neg hcase]
    simp only
    have hu : i.used ≠ 0 := by
      intro hu0
      have hf := h.fill
      rw [hu0] at hf
      simp only [List.drop_zero, Nat.sub_zero] at hf
      rw [hf] at hc
      simp only [List.replicate_succ, List.cons.injEq] at hc
      apply hcase
      refine ⟨by omega, ?_⟩
      rw [← hc.1]
      unfold fillOf
      split
      · rename_i hs; have := h.neg_used hs; omega
      · decide
    have hsz : (UInt8.ofNat (oneByteMaxSize + i.used)).toNat = oneByteMaxSize + i.used := by
      simp [oneByteMaxSize]; omega
    rw [if_pos hu, ← List.singleton_append]
    refine Reads.bind (Reads.next _ _) ?_
    rw [if_neg (by rw [hsz]; omega), hsz]
    rw [show i.content.take i.used = i.content.take i.used ++ [] by simp]
    refine Reads.bind (Reads.read _ (by simp [oneByteMaxSize]; omega)) ?_
    convert Reads.pure _ using 1
    have h1 : copyPrefix (fillArray i.signedState) (i.content.take i.used) = i.content := by
      rw [fillArray_eq, copyPrefix_eq (by simp; omega)]
      conv_rhs => rw [← List.take_append_drop i.used i.content, h.fill]
      rw [List.drop_replicate]
      congr 2
      simp; omega
    have h2 : oneByteMaxSize + i.used - oneByteMaxSize = i.used := by omega
    rw [h1, h2]

end Integer

end Souris
