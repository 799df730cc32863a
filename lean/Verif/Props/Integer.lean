import Verif.Lemmas.Integer2

/-! # Properties of `Integer`: C01-C07, C09 -/

namespace Souris

open Integer

/-! ## C01: native integers survive `Integer` -/

/-- C01, unsigned types: `T::try_from(Integer::from(n)) == Ok(n)`. -/
theorem C01_unsigned_roundtrip {k : Nat} (hk : Width k) {n : Nat} (hn : IsUnsigned k n) :
    (ofUnsigned k n).toUnsigned k = .ok n := by
  have hi : (ofUnsigned k n).Native := .unsigned hk hn
  have hw := hi.serialisable.toWF
  have hp : 0 < 256 ^ k := Nat.pow_pos (by decide)
  have hlt := hn.lt
  rw [hw.toUnsigned_eq hk.le, ofUnsigned_value hk.le hlt]
  have := (ofUnsigned_used hlt hk.pos).mpr hlt
  rw [if_neg (by omega), if_neg (by simp [ofUnsigned])]
  simp

/-- C01, signed types. -/
theorem C01_signed_roundtrip {k : Nat} (hk : Width k) {n : Int} (hn : IsSigned k n) :
    (ofSigned k n).toSigned k = .ok n := by
  have hi : (ofSigned k n).Native := .signed hk hn
  have hw := hi.serialisable.toWF
  have hn' := (isSigned_iff hk.pos _).mp hn
  have hv := ofSigned_value hk.le hn'.1 hn'.2
  have := (hi.used_le_iff hk.pos).mpr (by rw [hv]; omega)
  rw [hw.toSigned_eq hk.le, hv, if_neg (by omega), ofPattern_toPattern hn'.1 hn'.2]

example : Width 8 ∧ IsUnsigned 8 18446744073709551615 ∧ IsSigned 8 (-9223372036854775808) := by
  refine ⟨by unfold Width; decide, by unfold IsUnsigned; decide, by unfold IsSigned; decide⟩

/-- The number denoted by the `Integer` built from a native integer is that integer (so the statements
below about `value` are statements about the numbers the user put in). -/
theorem C01_value {k : Nat} (hk : Width k) :
    (∀ n, IsUnsigned k n → (ofUnsigned k n).value = n) ∧
    (∀ n, IsSigned k n → (ofSigned k n).value = n) := by
  refine ⟨fun n hn => ofUnsigned_value hk.le hn.lt, fun n hn => ?_⟩
  have hn' := (isSigned_iff hk.pos _).mp hn
  exact ofSigned_value hk.le hn'.1 hn'.2

/-! ## C02: narrowing never changes the number -/

/-- C02 for unsigned targets: exact success criterion and exact value. -/
theorem C02_unsigned_exact {i : Integer} (hi : i.Native) {k : Nat} (hk : Width k) :
    (∀ m : Nat, i.toUnsigned k = .ok m ↔ (IsUnsigned k m ∧ i.value = m)) ∧
    ((¬ ∃ m : Nat, IsUnsigned k m ∧ i.value = m) → ∃ e, i.toUnsigned k = .err e) := by
  have hw := hi.serialisable.toWF
  have hu := hi.used_le_iff hk.pos
  have hneg := hi.neg_iff
  have hp : 0 < 256 ^ k := Nat.pow_pos (by decide)
  rw [hw.toUnsigned_eq hk.le]
  unfold IsUnsigned
  rw [two_pow_eight_mul]
  constructor
  · intro m
    split
    · constructor
      · intro h; cases h
      · rintro ⟨h1, h2⟩; omega
    · split
      · constructor
        · intro h; cases h
        · rintro ⟨h1, h2⟩
          have := hneg.mp (by assumption)
          omega
      · have : ¬ i.value < 0 := fun h => by simp_all
        simp only [Out.ok.injEq]
        omega
  · intro h
    split
    · exact ⟨_, rfl⟩
    · split
      · exact ⟨_, rfl⟩
      · exfalso
        have : ¬ i.value < 0 := fun h => by simp_all
        exact h ⟨i.value.toNat, by omega, by omega⟩

/-- C02 for signed targets, the law the code really follows: it succeeds exactly when the magnitude
fits in `k` *bytes* and then returns the number wrapped to `k` bytes of two's complement. -/
theorem C02_signed_law {i : Integer} (hi : i.Native) {k : Nat} (hk : Width k) :
    i.toSigned k =
      if -(2 ^ (8 * k) : Int) ≤ i.value ∧ i.value < (2 ^ (8 * k) : Int) then
        .ok (ofPattern k (toPattern k i.value))
      else .err .tooBigToFit := by
  have hw := hi.serialisable.toWF
  have hu := hi.used_le_iff hk.pos
  have he : (2 : Int) ^ (8 * k) = ((256 ^ k : Nat) : Int) := by
    rw [← two_pow_eight_mul]; push_cast; rfl
  rw [hw.toSigned_eq hk.le, he]
  by_cases h : i.used ≤ k
  · rw [if_neg (by omega), if_pos (hu.mp h)]
  · rw [if_pos (by omega), if_neg (fun h' => h (hu.mpr h'))]

/-- C02 for signed targets, partial: when the number fits, the answer is right. Missing: numbers that
do not fit but have few enough bytes (see the refutation). -/
theorem C02_signed_fits_partial {i : Integer} (hi : i.Native) {k : Nat} (hk : Width k)
    (hfit : IsSigned k i.value) : i.toSigned k = .ok i.value := by
  have hn' := (isSigned_iff hk.pos _).mp hfit
  have hp : 0 < 256 ^ k := Nat.pow_pos (by decide)
  have hw := hi.serialisable.toWF
  have hu := hi.used_le_iff hk.pos
  rw [hw.toSigned_eq hk.le, if_neg, ofPattern_toPattern hn'.1 hn'.2]
  have := hu.mpr (by omega)
  omega

/-- C02 is violated: `i8::try_from(Integer::from(200u8))` is `Ok(-56)`. -/
theorem C02_refuted_signed :
    ∃ i : Integer, i.Native ∧ i.value = 200 ∧ i.toSigned 1 = .ok (-56) :=
  ⟨ofUnsigned 1 200, .unsigned (by unfold Width; decide) (by unfold IsUnsigned; decide),
    by decide, by decide⟩

/-- C02 is violated for negative numbers too: `i8::try_from(Integer::from(-200i16))` is `Ok(56)`. -/
theorem C02_refuted_signed_neg :
    ∃ i : Integer, i.Native ∧ i.value = -200 ∧ i.toSigned 1 = .ok 56 :=
  ⟨ofSigned 2 (-200), .signed (by unfold Width; decide) (by unfold IsSigned; decide),
    by decide, by decide⟩

/-- The violation is total on the critical range: *every* native integer with `2^(8k-1) ≤ |n| < 2^(8k)`
(roughly) converts to the wrong number instead of an error. -/
theorem C02_refuted_everywhere {i : Integer} (hi : i.Native) {k : Nat} (hk : Width k)
    (hbytes : -(2 ^ (8 * k) : Int) ≤ i.value ∧ i.value < (2 ^ (8 * k) : Int))
    (hnofit : ¬ IsSigned k i.value) : ∃ m, i.toSigned k = .ok m ∧ m ≠ i.value := by
  rw [C02_signed_law hi hk, if_pos hbytes]
  refine ⟨_, rfl, fun heq => hnofit ?_⟩
  rw [isSigned_iff hk.pos, ← heq]
  have hlt := toPattern_lt k i.value
  have hp : 0 < 256 ^ k := Nat.pow_pos (by decide)
  unfold ofPattern
  split <;> omega

example : (ofUnsigned 16 (2 ^ 127)).toSigned 16 = .ok (-(2 ^ 127)) := by decide

/-! ## C03: byte format -/

/-- C03: deserialising the bytes of any run-time `Integer`, wherever they sit in a slice, consumes
exactly them and gives back the same sign state and the same number. -/
theorem C03_integer_roundtrip {i : Integer} (hi : i.Reachable) (pre tail : List UInt8)
    (hlen : (pre ++ i.ser.2 ++ tail).length < 2 ^ 64) :
    ∃ j, Integer.deser i.ser.1 ⟨pre ++ i.ser.2 ++ tail, pre.length⟩
        = .ok (j, ⟨pre ++ i.ser.2 ++ tail, (pre ++ i.ser.2).length⟩) ∧
      j.signedState = i.signedState ∧ j.value = i.value := by
  have h := hi.serialisable.reads pre tail hlen
  refine ⟨i.normUsed, ?_, rfl, rfl⟩
  rw [WF.ser_state]
  simpa [Cursor.At] using h

/-- C03: different numbers of the same sign state have encodings neither of which is a prefix of the
other. -/
theorem C03_prefix_free {i j : Integer} (hi : i.Reachable) (hj : j.Reachable)
    (hs : i.signedState = j.signedState) (hlen : j.ser.2.length < 2 ^ 64)
    (hpre : i.ser.2 <+: j.ser.2) : i.value = j.value ∧ i.ser.2 = j.ser.2 := by
  obtain ⟨t, ht⟩ := hpre
  have h1 := hi.serialisable.reads [] t (by simpa [ht, usizeMod] using hlen)
  have h2 := hj.serialisable.reads [] [] (by simpa [usizeMod] using hlen)
  simp only [List.append_nil, List.nil_append] at h1 h2
  rw [ht, hs, h2] at h1
  simp only [Out.ok.injEq, Prod.mk.injEq, Cursor.At, Cursor.mk.injEq] at h1
  have hlen' : i.ser.2.length = j.ser.2.length := h1.2.2.symm
  have hv : i.normUsed.value = j.normUsed.value := by rw [h1.1]
  refine ⟨hv, ?_⟩
  have : t = [] := by
    have := congrArg List.length ht
    simp only [List.length_append] at this
    exact List.length_eq_zero_iff.mp (by omega)
  simpa [this] using ht

example : (ofSigned 4 (-70000)).Reachable ∧ (ofSigned 4 (-70000)).ser.2 = [242, 144, 238, 254] := by
  refine ⟨.native (.signed (by unfold Width; decide) (by unfold IsSigned; decide)), by decide⟩

/-! ## C04: a round-tripped Integer equals the original -/

/-- C04 exactly: the round-tripped native `Integer` is Rust-`==` to the original iff the original is
not an unsigned zero. -/
theorem C04_roundtrip_eq_iff {i : Integer} (hi : i.Native) (pre tail : List UInt8)
    (hlen : (pre ++ i.ser.2 ++ tail).length < 2 ^ 64) :
    ∃ j c, Integer.deser i.ser.1 ⟨pre ++ i.ser.2 ++ tail, pre.length⟩ = .ok (j, c) ∧
      (j.eq i = true ↔ ¬ (i.signedState = .unsigned ∧ i.value = 0)) := by
  have h := hi.serialisable.reads pre tail hlen
  refine ⟨i.normUsed, Cursor.At (pre ++ i.ser.2) tail, ?_, ?_⟩
  · rw [WF.ser_state]; simpa [Cursor.At] using h
  · constructor
    · rintro heq ⟨hs, hv⟩
      have hw := hi.serialisable.toWF
      have hu0 := hi.used_zero_iff
      have h256 : -((256 ^ 1 : Nat) : Int) ≤ i.value ∧ i.value < ((256 ^ 1 : Nat) : Int) := by
        rw [hv]; decide
      have hu1 := (hi.used_le_iff (u := 1) (by omega)).mpr h256
      have hune : i.used ≠ 0 := fun h0 => by
        have := (hu0.mp h0).2; rw [hs] at this; cases this
      have hv1 := hw.value_of_used_le_one hu1
      simp only [hs, hv, reduceCtorEq, if_false] at hv1
      have hb : i.content.headD 0 = 0 := UInt8.toNat_inj.mp (by rw [UInt8.toNat_zero]; omega)
      have hnu : i.normUsed.used = 0 := by
        unfold normUsed
        simp only [hb, hu1, hs]
        simp
      unfold Integer.eq at heq
      split at heq
      · cases heq
      · rename_i hne
        have := congrArg List.length (not_not.mp hne)
        rw [hnu] at this
        simp only [List.length_take, hw.len] at this
        omega
    · intro hz
      rw [hi.normUsed_eq hz, WF.eq_iff hi.serialisable.toWF hi.serialisable.toWF]
      simp

/-- C04, partial form: round trip is `==` for all native integers except unsigned zero. -/
theorem C04_roundtrip_eq_partial {i : Integer} (hi : i.Native)
    (hz : ¬ (i.signedState = .unsigned ∧ i.value = 0)) (pre tail : List UInt8)
    (hlen : (pre ++ i.ser.2 ++ tail).length < 2 ^ 64) :
    Integer.deser i.ser.1 ⟨pre ++ i.ser.2 ++ tail, pre.length⟩
      = .ok (i, ⟨pre ++ i.ser.2 ++ tail, (pre ++ i.ser.2).length⟩) := by
  have h := hi.serialisable.reads pre tail hlen
  rw [hi.normUsed_eq hz] at h
  rw [WF.ser_state]; simpa [Cursor.At] using h

/-- C04 is violated by `Integer::from(0u32)` (any unsigned type): after the round trip it is `!=`. -/
theorem C04_refuted_unsigned_zero {k : Nat} (hk : Width k) :
    ∃ j c, Integer.deser (ofUnsigned k 0).ser.1 (Cursor.new (ofUnsigned k 0).ser.2) = .ok (j, c) ∧
      j.eq (ofUnsigned k 0) = false := by
  have h0 : IsUnsigned k 0 := by unfold IsUnsigned; exact Nat.pow_pos (by decide)
  have hi : (ofUnsigned k 0).Native := .unsigned hk h0
  have hlen : ([] ++ (ofUnsigned k 0).ser.2 ++ []).length < 2 ^ 64 := by
    rcases hk with rfl | rfl | rfl | rfl | rfl <;> decide
  obtain ⟨j, c, h1, h2⟩ := C04_roundtrip_eq_iff hi [] [] hlen
  refine ⟨j, c, by simpa [Cursor.new] using h1, ?_⟩
  have hv : (ofUnsigned k 0).value = 0 := by
    have := (C01_value hk).1 0 h0; simpa using this
  cases he : j.eq (ofUnsigned k 0)
  · rfl
  · exact absurd ⟨rfl, hv⟩ (h2.mp he)

/-! ## C05: equality is numeric equality -/

/-- C05 exactly: `==` between native integers is numeric equality, except that zero made from an
unsigned type and zero made from a signed type differ. -/
theorem C05_eq_iff {a b : Integer} (ha : a.Native) (hb : b.Native) :
    a.eq b = true ↔ a.value = b.value ∧
      (a.value = 0 → (a.signedState = .signedPositive ↔ b.signedState = .signedPositive)) :=
  Native.eq_iff ha hb

/-- C05, partial: away from zero `==` is numeric equality. -/
theorem C05_eq_numeric_partial {a b : Integer} (ha : a.Native) (hb : b.Native) (hz : a.value ≠ 0) :
    a.eq b = true ↔ a.value = b.value := by
  rw [Native.eq_iff ha hb]
  constructor
  · exact fun h => h.1
  · exact fun h => ⟨h, fun h0 => absurd h0 hz⟩

/-- C05 is violated: `Integer::from(0u8) != Integer::from(0i8)`, for any widths. -/
theorem C05_refuted_zero {k l : Nat} (hk : Width k) (hl : Width l) :
    (ofUnsigned k 0).eq (ofSigned l 0) = false ∧
      (ofUnsigned k 0).value = 0 ∧ (ofSigned l 0).value = 0 := by
  have h0 : IsUnsigned k 0 := by unfold IsUnsigned; exact Nat.pow_pos (by decide)
  have h0' : IsSigned l 0 := by
    unfold IsSigned
    have : (0 : Int) < 2 ^ (8 * l - 1) := by positivity
    omega
  have hv := (C01_value hk).1 0 h0
  have hv' := (C01_value hl).2 0 h0'
  refine ⟨?_, by simpa using hv, hv'⟩
  cases he : (ofUnsigned k 0).eq (ofSigned l 0)
  · rfl
  · have := (Native.eq_iff (.unsigned hk h0) (.signed hl h0')).mp he
    have h3 := (this.2 (by simpa using hv)).mpr rfl
    cases h3

/-- C05 is violated for text: `"0".parse::<Integer>()` differs from `Integer::from(0u8)`. -/
theorem C05_refuted_zero_text :
    Integer.eq ⟨.unsigned, List.replicate 16 0, 0⟩ (ofUnsigned 1 0) = false := by decide

/-- C05: `==` is an equivalence relation on all run-time `Integer`s (including those deserialised
from arbitrary bytes). -/
theorem C05_equivalence :
    (∀ a : Integer, a.eq a = true) ∧
    (∀ a b : Integer, a.Reachable → b.Reachable → a.eq b = true → b.eq a = true) ∧
    (∀ a b c : Integer, a.Reachable → b.Reachable → c.Reachable →
      a.eq b = true → b.eq c = true → a.eq c = true) := by
  refine ⟨fun a => ?_, fun a b ha hb h => ?_, fun a b c ha hb hc h1 h2 => ?_⟩
  · unfold Integer.eq
    cases a.signedState <;> simp
  · have ha := ha.serialisable.toWF; have hb := hb.serialisable.toWF
    rw [WF.eq_iff ha hb] at h
    rw [WF.eq_iff hb ha]
    exact ⟨h.1.symm, h.2.1.symm, h.2.2.symm⟩
  · have ha := ha.serialisable.toWF; have hb := hb.serialisable.toWF
    have hc := hc.serialisable.toWF
    rw [WF.eq_iff ha hb] at h1
    rw [WF.eq_iff hb hc] at h2
    rw [WF.eq_iff ha hc]
    exact ⟨h1.1.trans h2.1, h1.2.1.trans h2.2.1, h1.2.2.trans h2.2.2⟩

/-- C05: `==` never identifies different numbers, on all run-time `Integer`s. -/
theorem C05_eq_sound {a b : Integer} (ha : a.Reachable) (hb : b.Reachable) (h : a.eq b = true) :
    a.value = b.value := by
  have := (WF.eq_iff ha.serialisable.toWF hb.serialisable.toWF).mp h
  exact WF.value_eq_of this.2.1 this.2.2

/-- C05 is violated for deserialised integers beyond zero: the bytes `[241, 5, 0]` denote 5 but are
not `==` to `Integer::from(5u8)`. -/
theorem C05_refuted_noncanonical :
    ∃ j c, Integer.deser .unsigned (Cursor.new [241, 5, 0]) = .ok (j, c) ∧ j.value = 5 ∧
      (ofUnsigned 1 5).value = 5 ∧ j.eq (ofUnsigned 1 5) = false :=
  ⟨⟨.unsigned, [5, 0, 0, 0, 0, 0, 0, 0, 0, 0, 0, 0, 0, 0, 0, 0], 2⟩, ⟨[241, 5, 0], 3⟩,
    by decide, by decide, by decide, by decide⟩

/-! ## C06: hash agrees with equality -/

/-- C06: `==` integers feed the same data to the hasher. -/
theorem C06_hash_of_eq {a b : Integer} (ha : a.Reachable) (hb : b.Reachable)
    (h : a.eq b = true) : a.hashData = b.hashData := by
  obtain ⟨h1, h2, h3⟩ := (WF.eq_iff ha.serialisable.toWF hb.serialisable.toWF).mp h
  unfold hashData
  rw [h1, h2]
  simp only [h3]

example : (ofUnsigned 1 7).eq (ofSigned 16 7) = true ∧
    (ofUnsigned 1 7).signedState ≠ (ofSigned 16 7).signedState := by decide

/-! ## C07: encoding size -/

/-- C07: the encoding is one byte exactly for numbers `0..=239` and `-256..=-17`; otherwise it is at
most `1 + u` bytes exactly when the number fits in `u` bytes (`-256^u ≤ n < 256^u`). -/
theorem C07_size {i : Integer} (hi : i.Native) :
    (i.ser.2.length = 1 ↔ (0 ≤ i.value ∧ i.value ≤ 239) ∨ (-256 ≤ i.value ∧ i.value ≤ -17)) ∧
    (∀ u, 1 ≤ u → (i.ser.2.length ≤ 1 + u ↔ -(256 ^ u : Int) ≤ i.value ∧ i.value < 256 ^ u)) := by
  have hw := hi.serialisable.toWF
  have hneg := hi.neg_iff
  have hb := (i.content.headD 0).toNat_lt
  have hul := hw.used_le
  have hl := hw.len
  have h1 := hi.used_le_iff (u := 1) (by omega)
  simp only [Nat.pow_one] at h1
  have h0 := hi.used_zero_iff
  have hlen : i.ser.2.length =
      if i.used ≤ 1 ∧ (i.content.headD 0).toNat ≤ oneByteMaxSize then 1 else 1 + i.used := by
    unfold ser
    simp only
    split
    · rfl
    · simp only [List.length_cons]
      split
      · simp; omega
      · simp; omega
  have hone : (i.used ≤ 1 ∧ (i.content.headD 0).toNat ≤ oneByteMaxSize) ↔
      (0 ≤ i.value ∧ i.value ≤ 239) ∨ (-256 ≤ i.value ∧ i.value ≤ -17) := by
    have h239 : oneByteMaxSize = 239 := rfl
    constructor
    · rintro ⟨ha, hb2⟩
      have hv := hw.value_of_used_le_one ha
      split at hv <;> omega
    · intro h
      have ha : i.used ≤ 1 := by rw [h1]; omega
      have hv := hw.value_of_used_le_one ha
      refine ⟨ha, ?_⟩
      split at hv
      · rename_i hs; have := hneg.mp hs; omega
      · rename_i hs; have : ¬ i.value < 0 := fun h' => hs (hneg.mpr h'); omega
  constructor
  · rw [hlen, ← hone]
    split
    · rename_i h; exact ⟨fun _ => h, fun _ => rfl⟩
    · rename_i h
      constructor
      · intro h'
        exfalso
        have hu0 : i.used = 0 := by omega
        have hv := hw.value_of_used_le_one (by omega)
        have hz := h0.mp hu0
        rw [hz.1, hz.2] at hv
        simp only [reduceCtorEq, if_false] at hv
        apply h
        unfold oneByteMaxSize
        omega
      · intro h'; exact absurd h' h
  · intro u hu
    have hcast : ((256 ^ u : Nat) : Int) = 256 ^ u := by push_cast; rfl
    rw [← hcast, ← hi.used_le_iff hu, hlen]
    split <;> omega

/-- C07: never more than 17 bytes, and never more than one byte above the fixed-width encoding. -/
theorem C07_size_le {k : Nat} (hk : Width k) :
    (∀ n, IsUnsigned k n → (ofUnsigned k n).ser.2.length ≤ k + 1) ∧
    (∀ n, IsSigned k n → (ofSigned k n).ser.2.length ≤ k + 1) ∧ k + 1 ≤ 17 := by
  have hp : 0 < 256 ^ k := Nat.pow_pos (by decide)
  have hcast : ((256 ^ k : Nat) : Int) = 256 ^ k := by push_cast; rfl
  refine ⟨fun n hn => ?_, fun n hn => ?_, by have := hk.le; omega⟩
  · have := (C07_size (.unsigned hk hn)).2 k hk.pos
    rw [(C01_value hk).1 n hn, ← hcast] at this
    have hlt := hn.lt
    omega
  · have := (C07_size (.signed hk hn)).2 k hk.pos
    rw [(C01_value hk).2 n hn, ← hcast] at this
    have hn' := (isSigned_iff hk.pos _).mp hn
    omega

example : (ofUnsigned 8 239).ser.2.length = 1 ∧ (ofUnsigned 8 240).ser.2.length = 2 ∧
    (ofSigned 8 (-1)).ser.2.length = 2 ∧ (ofSigned 8 (-17)).ser.2.length = 1 := by decide

/-! ## C09: arithmetic is exact or loud -/

theorem Integer.Native.unsigned_value {a : Integer} (ha : a.Native)
    (h : a.signedState = .unsigned) : 0 ≤ a.value ∧ a.value < 2 ^ 128 := by
  have hw := ha.serialisable.toWF
  have := hw.value_lt
  have hn := ha.neg_iff
  rw [h] at hn
  constructor
  · by_contra hc
    have := hn.mpr (by omega)
    cases this
  · exact this.2

theorem Integer.Native.toUnsigned16 {a : Integer} (ha : a.Native)
    (h : a.signedState = .unsigned) : a.toUnsigned 16 = .ok a.value.toNat := by
  rw [ha.serialisable.toWF.toUnsigned_eq (le_refl _),
    if_neg (by have := ha.serialisable.toWF.used_le; omega), if_neg (by rw [h]; simp)]

/-- C09, partial: with overflow checks, for native operands that are both unsigned, or both inside the
`i128` range, the operator returns the exact result or panics (and panics exactly when the exact
result is outside the target type or the divisor is zero). Missing: mixed operands where an unsigned one exceeds `i128::MAX`
(see the refutation), and builds without overflow checks. -/
theorem C09_arith_exact_partial {a b : Integer} (ha : a.Native) (hb : b.Native) (op : Op)
    (hrange : (a.signedState = .unsigned ∧ b.signedState = .unsigned) ∨
      (a.value < 2 ^ 127 ∧ b.value < 2 ^ 127)) :
    (∃ r, arith true op a b = .ok r ∧ r.Native ∧ r.value = op.exact a.value b.value ∧
        ¬ (op = .div ∧ b.value = 0)) ∨
    (arith true op a b = .panic .arith ∧
      ((op = .div ∧ b.value = 0) ∨
       (a.signedState = .unsigned ∧ b.signedState = .unsigned ∧
          ¬ (0 ≤ op.exact a.value b.value ∧ op.exact a.value b.value < 2 ^ 128)) ∨
       ¬ (-(2 ^ 127) ≤ op.exact a.value b.value ∧ op.exact a.value b.value < 2 ^ 127))) := by
  unfold arith
  by_cases huu : a.signedState = .unsigned ∧ b.signedState = .unsigned
  · rw [if_pos huu, ha.toUnsigned16 huu.1, hb.toUnsigned16 huu.2]
    have va := ha.unsigned_value huu.1
    have vb := hb.unsigned_value huu.2
    have ea : ((a.value.toNat : Nat) : Int) = a.value := Int.toNat_of_nonneg va.1
    have eb : ((b.value.toNat : Nat) : Int) = b.value := Int.toNat_of_nonneg vb.1
    simp only [opU128, ea, eb]
    by_cases hd : op = .div ∧ b.value.toNat = 0
    · rw [if_pos hd]
      exact .inr ⟨rfl, .inl ⟨hd.1, by omega⟩⟩
    · rw [if_neg hd]
      by_cases hr : 0 ≤ op.exact a.value b.value ∧ op.exact a.value b.value < 2 ^ 128
      · rw [if_pos hr]
        have hu : IsUnsigned 16 (op.exact a.value b.value).toNat := by
          unfold IsUnsigned; omega
        have hw : Width 16 := by unfold Width; decide
        refine .inl ⟨_, rfl, .unsigned hw hu, ?_, fun h => hd ⟨h.1, by omega⟩⟩
        rw [(C01_value hw).1 _ hu, Int.toNat_of_nonneg hr.1]
      · rw [if_neg hr]
        exact .inr ⟨rfl, .inr (.inl ⟨huu.1, huu.2, hr⟩)⟩
  · rw [if_neg huu]
    have hlt := hrange.resolve_left huu
    have hw16 : Width 16 := by unfold Width; decide
    have inr : ∀ {x : Integer}, x.Native → x.value < 2 ^ 127 → IsSigned 16 x.value := by
      intro x hx hxlt
      refine ⟨?_, hxlt⟩
      cases hx with
      | @unsigned k n hk hn =>
        rw [(C01_value hk).1 n hn]
        have : (0 : Int) ≤ n := Int.natCast_nonneg n
        norm_num
      | @signed k n hk hn =>
        rw [(C01_value hk).2 n hn]
        have h1 := hn.1
        have h2 : (2 : Int) ^ (8 * k - 1) ≤ 2 ^ (8 * 16 - 1) :=
          pow_le_pow_right₀ (by norm_num) (by have := hk.le; omega)
        omega
    rw [C02_signed_fits_partial ha hw16 (inr ha hlt.1), C02_signed_fits_partial hb hw16 (inr hb hlt.2)]
    simp only [opI128]
    by_cases hd : op = .div ∧ (b.value = 0 ∨ (a.value = -(2 ^ 127) ∧ b.value = -1))
    · rw [if_pos hd]
      refine .inr ⟨rfl, ?_⟩
      rcases hd.2 with h | ⟨h1, h2⟩
      · exact .inl ⟨hd.1, h⟩
      · right; right
        rw [hd.1, h1, h2]
        decide
    · rw [if_neg hd]
      by_cases hr : -(2 ^ 127) ≤ op.exact a.value b.value ∧ op.exact a.value b.value < 2 ^ 127
      · rw [if_pos hr]
        have hu : IsSigned 16 (op.exact a.value b.value) := hr
        refine .inl ⟨_, rfl, .signed hw16 hu, (C01_value hw16).2 _ hu, ?_⟩
        exact fun h => hd ⟨h.1, .inl h.2⟩
      · rw [if_neg hr]
        exact .inr ⟨rfl, .inr (.inr hr)⟩

/-- C09 is violated even with overflow checks: `Integer::from(2u128.pow(127)) + Integer::from(0i8)` is
`-2^127`, silently. -/
theorem C09_refuted_mixed :
    ∃ a b r : Integer, a.Native ∧ b.Native ∧ a.value = 2 ^ 127 ∧ b.value = 0 ∧
      arith true .add a b = .ok r ∧ r.value = -(2 ^ 127) :=
  ⟨ofUnsigned 16 (2 ^ 127), ofSigned 1 0, ofSigned 16 (-(2 ^ 127)),
    .unsigned (by unfold Width; decide) (by unfold IsUnsigned; decide),
    .signed (by unfold Width; decide) (by unfold IsSigned; decide),
    by decide, by decide, by decide, by decide⟩

example : ∃ r, arith true .mul (ofUnsigned 8 (2 ^ 63)) (ofSigned 8 (-3)) = .ok r ∧
    r.value = -(3 * 2 ^ 63) := ⟨ofSigned 16 (-(3 * 2 ^ 63)), by decide, by decide⟩

end Souris
