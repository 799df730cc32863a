import Verif.Model.RepoTests
import Verif.Props.IntegerSerde
import Verif.Props.Lz4Use
import Verif.Lemmas.Format

/-!
# C97: the project's own tests, for every input

The tests without random input are `example`s: they say that the model does what the tests say the code does.
-/

namespace Souris

open RepoTests Integer

/-! ## The tests without random input -/

example : ∀ x ∈ integerCases, integerCase x.1 x.2 = true := by decide +kernel
example : testDisplay = true := by decide +kernel
example : testPop = true := by decide +kernel
example : testCursorMovement = true := by decide +kernel
example : encodeDecode id "abcdeabcdabcabaaaaaa".toList = true := by decide +kernel

/-! ## Integers -/

theorem unwrap_ok {ε α : Type} {o : Out ε α} {a : α} {rest : α → Bool} (h : o = .ok a) : unwrap o rest = rest a := by
  rw [h]; rfl

/-- **C97** `doesnt_crash` of integer.rs. -/
theorem C97_integer_doesnt_crash (s : List Char) : integerDoesntCrash s = true := by
  unfold integerDoesntCrash
  have := (C08_parse_exact s).2.2
  cases h : fromStr s with
  | panic w => exact absurd h (this w)
  | ok _ => rfl
  | err _ => rfl

/-- **C97** `parse_valid_u32`. -/
theorem C97_parse_valid_u32 (i : Nat) (hi : i < 2 ^ 32) : parseValidU32 i = true := by
  unfold parseValidU32
  rw [unwrap_ok (C01_unsigned_roundtrip (by unfold Width; decide) (by unfold IsUnsigned; omega))]
  simp

/-- **C97** `parse_valid_i32`. -/
theorem C97_parse_valid_i32 (i : Int) (hi : -(2 ^ 31) ≤ i ∧ i < 2 ^ 31) : parseValidI32 i = true := by
  unfold parseValidI32
  rw [unwrap_ok (C01_signed_roundtrip (by unfold Width; decide) (by unfold IsSigned; omega))]
  simp

theorem inverts_new {ε α : Type} {p : Parser ε α} {bytes : List UInt8} {x : α} (h : Inverts p bytes x)
    (hl : bytes.length < 2 ^ 64) : p (Cursor.new bytes) = .ok (x, ⟨bytes, bytes.length⟩) := by
  have := h [] [] (by simpa using hl)
  simpa [Cursor.new] using this

theorem parseMagnitude_le {max : Nat} {cs : List Char} {r : Nat} (h : parseMagnitude max cs = some r) : r ≤ max :=
  (parseMagnitude_eq_some.mp h).2.2.2

/-- What `FromStr` makes of any text: only `"0"` has its own form. -/
theorem fromStr_native {s : List Char} {i : Integer} (h : fromStr s = .ok i) :
    (s = ['0'] ∧ i = ⟨.unsigned, List.replicate 16 0, 0⟩) ∨ (s ≠ ['0'] ∧ i.Native) := by
  have hw : Width 16 := by unfold Width; decide
  cases s with
  | nil => simp [fromStr] at h
  | cons c cs =>
    by_cases h0 : c :: cs = ['0']
    · simp only [fromStr, if_pos h0, Out.ok.injEq] at h
      exact .inl ⟨h0, h.symm⟩
    · right
      refine ⟨h0, ?_⟩
      simp only [fromStr, if_neg h0] at h
      by_cases hm : c = '-'
      · rw [if_pos hm] at h
        subst hm
        simp only [parseI128] at h
        cases hp : parseMagnitude (2 ^ 127) cs with
        | none => rw [hp] at h; cases h
        | some r =>
          rw [hp] at h
          cases h
          have := parseMagnitude_le hp
          exact .signed (n := -(r : Int)) hw (by unfold IsSigned; omega)
      · rw [if_neg hm] at h
        have key : ∀ r, parseU128 (c :: cs) = some r → r ≤ 2 ^ 128 - 1 := by
          intro r hr
          unfold parseU128 at hr
          split at hr
          · exact parseMagnitude_le hr
          · exact parseMagnitude_le hr
        cases hp : parseU128 (c :: cs) with
        | none => rw [hp] at h; cases h
        | some r =>
          rw [hp] at h
          cases h
          have := key r hp
          exact .unsigned hw (by unfold IsUnsigned; omega)

theorem intText_ne_zero {n : Int} (h : n ≠ 0) : intText n ≠ ['0'] := by
  intro e
  have h1 := intText_numeral n
  rw [e] at h1
  cases h1 with
  | plain _ _ => exact h rfl

/-- Text, bytes, and back: what the two `back_to_original` tests share. -/
theorem text_bytes_back (n : Int) (h1 : -(2 ^ 127) ≤ n) (h2 : n < 2 ^ 128) :
    ∃ i c, fromStr (intText n) = .ok i ∧ Integer.deser i.ser.1 (Cursor.new i.ser.2) = .ok (i, c) ∧
      ((n = 0 ∧ i = ⟨.unsigned, List.replicate 16 0, 0⟩) ∨ (i.Native ∧ i.value = n)) := by
  obtain ⟨i, e, hv⟩ := (C08_parse_exact (intText n)).2.1 n (intText_numeral n) h1 h2
  rcases fromStr_native e with ⟨hs, rfl⟩ | ⟨hs, hn⟩
  · refine ⟨_, ⟨[0], 1⟩, e, by decide, .inl ⟨?_, rfl⟩⟩
    by_contra h
    exact intText_ne_zero h hs
  · have hz : n ≠ 0 := by
      rintro rfl
      refine hs ?_
      unfold intText natText
      decide
    have hl : i.ser.2.length < 2 ^ 64 := by
      have := (C07_size hn).2 16 (by decide)
      have hr := Native.range hn
      have : i.ser.2.length ≤ 17 := this.mpr ⟨by have := hr.1; omega, by have := hr.2.1; omega⟩
      omega
    have := C04_roundtrip_eq_partial hn (fun h => hz (hv.symm.trans h.2)) [] [] (by simpa using hl)
    exact ⟨i, _, e, by simpa [Cursor.new] using this, .inr ⟨hn, hv⟩⟩

theorem eq_self (i : Integer) : i.eq i = true := C05_equivalence.1 i

/-- **C97** `back_to_original`. -/
theorem C97_back_to_original (i : Int) (hi : -(2 ^ 127) ≤ i ∧ i < 2 ^ 127) : backToOriginal i = true := by
  obtain ⟨x, c, e1, e2, h⟩ := text_bytes_back i hi.1 (by omega)
  unfold backToOriginal
  rw [unwrap_ok e1, unwrap_ok e2]
  simp only [eq_self, Bool.true_and]
  rcases h with ⟨rfl, rfl⟩ | ⟨hn, hv⟩
  · decide
  · rw [unwrap_ok (C02_signed_fits_partial hn (by unfold Width; decide) (by unfold IsSigned; omega))]
    simpa using hv

/-- **C97** `back_to_original_other_size`. -/
theorem C97_back_to_original_other_size (i : Nat) (hi : i < 2 ^ 8) : backToOriginalOtherSize i = true := by
  obtain ⟨x, c, e1, e2, h⟩ := text_bytes_back i (by omega) (by omega)
  have et : intText (i : Int) = natText i := by
    unfold intText
    rw [if_neg (by omega)]
    simp
  rw [et] at e1
  unfold backToOriginalOtherSize
  rw [unwrap_ok e1, unwrap_ok e2]
  simp only [eq_self, Bool.true_and]
  rcases h with ⟨h0, rfl⟩ | ⟨hn, hv⟩
  · have : i = 0 := by omega
    subst this
    decide
  · rw [unwrap_ok (((C02_unsigned_exact hn (by unfold Width; decide)).1 i).mpr
      ⟨by unfold IsUnsigned; omega, hv⟩)]
    simp

/-- What both serde tests do, exactly. -/
theorem serdeWorks_iff {i : Integer} (hi : i.Native) :
    serdeWorks i = true ↔ ¬ (i.value = 0 ∧ i.signedState = .signedPositive) := by
  obtain ⟨s, e, _, hok, herr⟩ := C61_json_text_partial hi
  unfold serdeWorks
  rw [unwrap_ok e]
  by_cases hr : -(2 ^ 63) ≤ i.value ∧ i.value < 2 ^ 64
  · obtain ⟨j, ej, hv, heq⟩ := hok hr
    rw [ej]
    have ht : i.display = s := by
      rw [toJsonText_eq hi, Out.ok.injEq] at e
      rw [← e]
      exact Integer.InRange.display_eq ⟨.native hi, (Native.range hi).1, (Native.range hi).2.2⟩
    have hj : j.Native := ((C61_json_reads s).1 j ej).1
    have hsym : i.eq j = j.eq i := by
      have hE := C05_equivalence.2.1
      cases h : j.eq i with
      | true => exact hE j i (.native hj) (.native hi) h
      | false =>
        cases h' : i.eq j with
        | false => rfl
        | true => rw [hE i j (.native hi) (.native hj) h'] at h; cases h
    simp only [ht, decide_true, Bool.true_and, hsym]
    exact heq
  · rw [herr hr]
    simp only [true_iff]
    rintro ⟨h, _⟩
    rw [h] at hr
    omega

/-- **C97** `serde_works_signed`, in part: it passes for every number but one. -/
theorem C97_serde_works_signed_partial (i : Int) (hi : -(2 ^ 127) ≤ i ∧ i < 2 ^ 127) :
    serdeWorksSigned i = true ↔ i ≠ 0 := by
  have hs : IsSigned 16 i := by unfold IsSigned; omega
  have hw : Width 16 := by unfold Width; decide
  unfold serdeWorksSigned
  rw [serdeWorks_iff (.signed hw hs), (C01_value hw).2 i hs]
  constructor
  · rintro h rfl
    exact h ⟨rfl, by decide⟩
  · exact fun h h' => h h'.1

/-- **C97** is violated: `serde_works_signed` fails for the integer 0. -/
theorem C97_refuted_serde_zero : serdeWorksSigned 0 = false := by
  have := (C97_serde_works_signed_partial 0 (by omega)).not.mpr (by simp)
  simpa using this

/-- **C97** `serde_works_unsigned`. -/
theorem C97_serde_works_unsigned (i : Nat) (hi : i < 2 ^ 128) : serdeWorksUnsigned i = true := by
  unfold serdeWorksUnsigned
  rw [serdeWorks_iff (.unsigned (by unfold Width; decide) (by unfold IsUnsigned; omega))]
  rintro ⟨_, h⟩
  simp [ofUnsigned] at h

/-! ## Values -/

theorem reread_ok {env : Env} {v v' : Value} {bytes : List UInt8} {rest : Value → Bool}
    (h1 : Value.ser env none v = .ok bytes) (h2 : Inverts (Value.deser env none) bytes v')
    (hl : bytes.length < 2 ^ 64) : reread env v rest = rest v' := by
  unfold reread
  rw [unwrap_ok h1, unwrap_ok (inverts_new h2 hl)]

/-- **C97** `test_ch`. -/
theorem C97_test_ch {env : Env} (hlz : env.lz.Lossless) (hord : HashOrder env.byteOrd) (c : Char) :
    testCh env c = true := by
  obtain ⟨bytes, e, hi⟩ := C26_exact_partial (h := none) hlz hord (.character c) (fun i h => by cases h)
    (fun a b h => by cases h)
  have hl := (C07_size_le (k := 4) (by unfold Width; decide)).1 c.toNat
    (by have := c.val.toNat_lt; unfold IsUnsigned; exact Nat.lt_of_lt_of_le this (by decide))
  unfold testCh
  rw [reread_ok e hi (by cases e; simp only [List.length_cons]; omega)]
  simp [Value.charAcc]

/-- **C97** `test_str`. -/
theorem C97_test_str {env : Env} (hlz : env.lz.Lossless) (hord : HashOrder env.byteOrd) (s : List Char)
    (hs : (utf8 s).length ≤ isizeMax) : testStr env s = true := by
  unfold isizeMax at hs
  obtain ⟨bytes, e, hi⟩ := C26_exact_partial (h := none) hlz hord (v := .string s)
    (.string ⟨by omega, fun _ h => by cases h⟩) (fun i h => by cases h) (fun a b h => by cases h)
  have hl := (C07_size_le (k := 8) (by unfold Width; decide)).1 (utf8 s).length (by unfold IsUnsigned; omega)
  unfold testStr
  rw [reread_ok e hi (by cases e; simp only [List.length_cons, List.length_append]; omega)]
  simp [Value.strAcc]

/-- **C97** `test_bin`. The data that comes back is all data of up to 2 MiB, and more. -/
theorem C97_test_bin {env : Env} (hlz : env.lz.Lossless) (hord : HashOrder env.byteOrd) (b : List UInt8)
    (hb : b.length ≤ 2 ^ 21) : testBin env b = true := by
  obtain ⟨bytes, e, hi⟩ := C26_exact_partial (h := none) hlz hord (v := .binary b)
    (.binary (Value.binaryKept_small hord hb)) (fun i h => by cases h) (fun a b h => by cases h)
  obtain ⟨comp, bs, e', _, hl, _⟩ := C25_never_expands env.lz hord b (by omega)
  unfold testBin
  rw [reread_ok e hi (by
    have : Value.ser env none (.binary b) = .ok (Value.tyByte .binary comp.toByte :: bs) := by
      simp only [Value.ser, e']; rfl
    rw [this] at e
    cases e
    rw [List.length_cons]; omega)]
  simp [Value.binaryAcc]

/-- **C97** `test_bool`. -/
theorem C97_test_bool (env : Env) (b : Bool) : testBool env b = true := by
  cases b <;> rfl

/-- **C97** `test_polar_form_ser`, for all floats (infinities and not-a-numbers too, bit by bit). -/
theorem C97_test_polar_form_ser {env : Env} (hlz : env.lz.Lossless) (hord : HashOrder env.byteOrd) (m a : UInt64) :
    testPolarFormSer env m a = true := by
  obtain ⟨bytes, e, hi⟩ := C26_exact_partial (h := none) hlz hord (v := .imaginary (.polar m a))
    (.imaginary (.polar m a)) (fun i h => by cases h) (fun a b h => by cases h)
  unfold testPolarFormSer
  rw [reread_ok e hi (by cases e; simp [Imaginary.ser])]
  simp [Value.imaginaryAcc]

/-- **C97** `test_int`. -/
theorem C97_test_int {env : Env} (hlz : env.lz.Lossless) (hord : HashOrder env.byteOrd) (i : Int)
    (h : -(2 ^ 127) ≤ i ∧ i < 2 ^ 127) : testInt env i = true := by
  have hs : IsSigned 16 i := by unfold IsSigned; omega
  have hw : Width 16 := by unfold Width; decide
  have hst : (ofSigned 16 i).signedState ≠ .unsigned := by
    unfold ofSigned
    split
    · exact (fun h => by cases h)
    · split
      · exact (fun h => by cases h)
      · split <;> exact (fun h => by cases h)
  obtain ⟨bytes, e, hi⟩ := C26_exact_partial (h := none) hlz hord (v := .integer (ofSigned 16 i))
    (.integer (.native (.signed hw hs))) (fun j hj => by cases hj; exact ⟨.signed hw hs, fun h => hst h.1⟩)
    (fun a b h => by cases h)
  have hl := (C07_size_le hw).2.1 i hs
  unfold testInt
  rw [reread_ok e hi (by cases e; simp only [List.length_cons]; omega)]
  simp only [Value.intAcc, eq_self, Bool.true_and]
  rw [unwrap_ok (C01_signed_roundtrip hw hs)]
  simp

/-! ## Bits -/

/-- **C97** is violated: `test_partialeq` fails if the two numbers are the same and the lengths are not, which the
test does not expect. -/
theorem C97_refuted_partialeq_length (a m n : Nat) (h : m ≠ n) : testPartialEq a a m n = false := by
  simp [testPartialEq, Bits.eq, h, unwrap]

/-- **C97** is violated: `test_partialeq` fails for the different numbers 0 and `2^31` with one valid bit each. -/
theorem C97_refuted_partialeq_bits : testPartialEq 0 (2 ^ 31) 1 1 = false := by decide +kernel

theorem byte_eq_iff (x y : Nat) : UInt8.ofNat x = UInt8.ofNat y ↔ x % 256 = y % 256 := by
  rw [← UInt8.toNat_inj]
  simp

theorem byte_mask_iff (i x y : Nat) (hi : i < 8) (h0 : i ≠ 0) :
    (UInt8.ofNat x &&& (List.range (i + 1)).foldl (fun acc j => acc ||| Bits.bit j) 0 =
      UInt8.ofNat y &&& (List.range (i + 1)).foldl (fun acc j => acc ||| Bits.bit j) 0) ↔
      x % 2 ^ (i + 1) = y % 2 ^ (i + 1) := by
  have key : ∀ z : Nat, (UInt8.ofNat z &&& (List.range (i + 1)).foldl (fun acc j => acc ||| Bits.bit j) 0).toNat
      = z % 2 ^ (i + 1) := by
    intro z
    have hm : ((List.range (i + 1)).foldl (fun acc j => acc ||| Bits.bit j) 0).toNat = 2 ^ (i + 1) - 1 := by
      have : i = 1 ∨ i = 2 ∨ i = 3 ∨ i = 4 ∨ i = 5 ∨ i = 6 ∨ i = 7 := by omega
      rcases this with rfl | rfl | rfl | rfl | rfl | rfl | rfl <;> decide
    rw [UInt8.toNat_and, hm, Nat.and_two_pow_sub_one_eq_mod, UInt8.toNat_ofNat']
    exact Nat.mod_mod_of_dvd _ (pow_dvd_pow 2 (by omega : i + 1 ≤ 8))
  rw [← UInt8.toNat_inj, key, key]

/-- The bytes that are compared agree exactly if the numbers agree up to the last bit that counts. -/
theorem eq_leBytes_iff (a b m : Nat) (ha : a < 2 ^ 32) (hb : b < 2 ^ 32) :
    Bits.eq ⟨leBytes 4 a, m⟩ ⟨leBytes 4 b, m⟩ =
      .ok (decide (a % 2 ^ (if m % 8 = 0 then 32 else 25 + m % 8) = b % 2 ^ (if m % 8 = 0 then 32 else 25 + m % 8))) := by
  unfold Bits.eq
  rw [if_pos rfl]
  by_cases h : m % 8 = 0
  · simp only [Bits.properBytes, h, if_true, leBytes, Out.ok.injEq, decide_eq_decide, List.cons.injEq, and_true,
      byte_eq_iff]
    omega
  · have hm : m % 8 < 8 := Nat.mod_lt _ (by decide)
    simp only [Bits.properBytes, h, if_false, leBytes, List.cons_ne_nil, List.length_cons, List.length_nil,
      Nat.zero_add, Nat.reduceAdd, Nat.reduceSub, List.modify_succ_cons, List.modify_zero_cons, Out.ok.injEq,
      decide_eq_decide, List.cons.injEq, and_true, byte_eq_iff, byte_mask_iff _ _ _ hm h]
    generalize m % 8 = i at hm h
    have : i = 1 ∨ i = 2 ∨ i = 3 ∨ i = 4 ∨ i = 5 ∨ i = 6 ∨ i = 7 := by omega
    rcases this with rfl | rfl | rfl | rfl | rfl | rfl | rfl <;> simp only [Nat.reduceAdd, Nat.reducePow] <;> omega

/-- **C97** `test_partialeq`, exactly: it passes if and only if equal numbers come with equal lengths, and different
numbers of the same length differ in the bits that are compared: all, or if the length is not a multiple of eight,
those up to bit `24 + length % 8`. -/
theorem C97_test_partialeq_partial (a b m n : Nat) (ha : a < 2 ^ 32) (hb : b < 2 ^ 32) :
    testPartialEq a b m n = true ↔ (a = b → m = n) ∧ (a ≠ b → m = n → m % 8 ≠ 0 →
      a % 2 ^ (25 + m % 8) ≠ b % 2 ^ (25 + m % 8)) := by
  unfold testPartialEq
  by_cases hmn : m = n
  · subst hmn
    rw [unwrap_ok (eq_leBytes_iff a b m ha hb)]
    by_cases hab : a = b
    · simp [hab]
    · simp only [hab, if_false, false_imp_iff, true_and, ne_eq, not_false_eq_true, true_imp_iff, Bool.not_eq_true',
        decide_eq_false_iff_not]
      by_cases h8 : m % 8 = 0
      · simp only [h8, if_true, not_true_eq_false, false_imp_iff, iff_true]
        omega
      · simp [h8]
  · have : Bits.eq ⟨leBytes 4 a, m⟩ ⟨leBytes 4 b, n⟩ = .ok false := by simp [Bits.eq, hmn]
    rw [unwrap_ok this]
    by_cases hab : a = b <;> simp [hab, hmn]

example : testPartialEq 5 7 9 9 = true := (C97_test_partialeq_partial 5 7 9 9 (by decide) (by decide)).mpr (by decide)

/-- **C97** `test_hash`, for any hash function that tells single bytes apart. -/
theorem C97_test_hash (hash : List UInt8 → UInt64) (hh : ∀ x y : UInt8, hash [x] = hash [y] → x = y) (a b : UInt8)
    (n : Nat) : testHash hash a b n = true := by
  have hp : ∀ c : UInt8, ∃ x, Bits.properBytes ⟨[c], n⟩ = .ok [x] := by
    intro c
    unfold Bits.properBytes
    simp only [List.cons_ne_nil, if_false]
    split
    · exact ⟨_, rfl⟩
    · exact ⟨_, by simp; rfl⟩
  obtain ⟨x, ex⟩ := hp a
  obtain ⟨y, ey⟩ := hp b
  unfold testHash Bits.hashData Bits.eq
  simp only [ex, ey, unwrap, if_true, decide_eq_true_eq]
  by_cases h : x = y
  · simp [h]
  · simp only [List.cons.injEq, and_true, h, if_false]
    exact decide_eq_true (fun e => h (hh x y e))

example : ∃ hash : List UInt8 → UInt64, ∀ x y : UInt8, hash [x] = hash [y] → x = y :=
  ⟨fun l => (l.headD 0).toUInt64, fun x y h => by
    rw [← UInt8.toNat_inj]
    have := congrArg UInt64.toNat h
    simpa using this⟩

/-! ## Huffman coders -/

section
variable {ord : List (Node Char × Nat) → List (Node Char × Nat)} (hord : HashOrder ord)
include hord

/-- **C97** `nodes_from_empty_string`. -/
theorem C97_nodes_from_empty_string : nodesFromEmptyString ord = true := by
  have := (C17_new_total hord []).2 rfl
  unfold nodesFromEmptyString
  unfold Huffman.new at this
  cases h : Huffman.nodeTree ord (Huffman.freqTable []) with
  | err _ => rfl
  | ok r => rw [h] at this; cases this
  | panic p => rw [h] at this; cases this

/-- **C97** `nodes_from_one_char_repeated`. -/
theorem C97_nodes_from_one_char_repeated (x : Char) (n : Nat) (hn : 0 < n) :
    nodesFromOneCharRepeated ord x n = true := by
  obtain ⟨k, rfl⟩ : ∃ k, n = k + 1 := ⟨n - 1, by omega⟩
  have := new_replicate hord x k
  unfold nodesFromOneCharRepeated
  unfold Huffman.new at this
  rw [Out.bind_eq_ok] at this
  obtain ⟨root, e, h⟩ := this
  rw [unwrap_ok e]
  have : root = .leaf x := by
    simp only [Out.pure_eq, Out.ok.injEq, Huffman.ofRoot, Huffman.mk.injEq] at h
    exact h.2
  subst this
  simp

/-- **C97** `doesnt_crash_string`. -/
theorem C97_huffman_doesnt_crash (s : List Char) : huffmanDoesntCrash ord s = true := by
  unfold huffmanDoesntCrash
  by_cases h : s = []
  · rw [(C17_new_total hord s).2 h]
  · obtain ⟨x, e⟩ := (C17_new_total hord s).1 h
    rw [e]

theorem encodeDecode_two {s : List Char} (h : TwoSymbols s) : encodeDecode ord s = true := by
  obtain ⟨x, e, hx⟩ := C17_lossless_partial hord s h
  obtain ⟨bits, e1, e2⟩ := hx s (fun _ h => h)
  unfold encodeDecode
  rw [unwrap_ok e, unwrap_ok e1, unwrap_ok e2]
  simp

/-- **C97** `works_on_arbritrary_ascii_strings`: all texts of the expression `[a-z]+[A-Z0-9]+`. -/
theorem C97_works_on_ascii_strings (l r : List Char) (hl : l ≠ []) (hr : r ≠ [])
    (h1 : ∀ c ∈ l, 'a' ≤ c ∧ c ≤ 'z') (h2 : ∀ c ∈ r, ('A' ≤ c ∧ c ≤ 'Z') ∨ ('0' ≤ c ∧ c ≤ '9')) :
    encodeDecode ord (l ++ r) = true := by
  refine encodeDecode_two hord ?_
  obtain ⟨x, hx⟩ := List.exists_mem_of_ne_nil l hl
  obtain ⟨y, hy⟩ := List.exists_mem_of_ne_nil r hr
  refine ⟨x, by simp [hx], y, by simp [hy], ?_⟩
  rintro rfl
  have a := (h1 x hx).1
  rcases h2 x hy with b | b
  · exact absurd (Char.le_trans a b.2) (by decide)
  · exact absurd (Char.le_trans a b.2) (by decide)

omit hord in
theorem twoSymbols_words {x y : Char} (rest : List Char) (hx : 'a' ≤ x ∧ x ≤ 'z') (hy : 'A' ≤ y ∧ y ≤ 'Z') :
    TwoSymbols (x :: y :: rest) := by
  refine ⟨x, by simp, y, by simp, ?_⟩
  rintro rfl
  exact absurd (Char.le_trans hx.1 hy.2) (by decide)

/-- **C97** `works_on_arbritrary_strings`: all texts of the expression `[a-z][A-Z].*`. -/
theorem C97_works_on_strings (x y : Char) (rest : List Char) (hx : 'a' ≤ x ∧ x ≤ 'z') (hy : 'A' ≤ y ∧ y ≤ 'Z') :
    encodeDecode ord (x :: y :: rest) = true := encodeDecode_two hord (twoSymbols_words rest hx hy)

/-- A code of 32 bits for characters. -/
def charBools (c : Char) : List Bool := (List.range 32).map (fun i => c.toNat.testBit i)

omit hord in
theorem charBools_prefixFree (data : List Char) : PrefixFreeOn data charBools := by
  intro x _ y _ hxy h
  have h := h.eq_of_length (by simp [charBools])
  apply hxy
  have hx : x.toNat < 2 ^ 32 := x.val.toNat_lt
  have hy : y.toNat < 2 ^ 32 := y.val.toNat_lt
  have : x.toNat = y.toNat := by
    apply Nat.eq_of_testBit_eq
    intro i
    by_cases hi : i < 32
    · have := congrArg (fun l => l[i]?) h
      simpa [charBools, hi] using this
    · rw [Nat.testBit_lt_two_pow (lt_of_lt_of_le hx (Nat.pow_le_pow_right (by decide) (by omega))),
        Nat.testBit_lt_two_pow (lt_of_lt_of_le hy (Nat.pow_le_pow_right (by decide) (by omega)))]
  exact Char.toNat_inj.mp this

/-- **C97** `ser_works_on_arbritrary_strings`: all texts of that expression of up to `2^19` characters. The test's
texts have at most a few dozen. -/
theorem C97_ser_works_on_strings (x y : Char) (rest : List Char) (hx : 'a' ≤ x ∧ x ≤ 'z') (hy : 'A' ≤ y ∧ y ≤ 'Z')
    (hl : (x :: y :: rest).length ≤ 2 ^ 19) : serWorks ord (x :: y :: rest) = true := by
  have h2 := twoSymbols_words rest hx hy
  generalize x :: y :: rest = s at h2 hl
  have hne : s ≠ [] := by
    obtain ⟨x, hx, _⟩ := h2
    exact List.ne_nil_of_mem hx
  obtain ⟨root, e, _, hnd, hmem, hbr⟩ := Huffman.new_ok hord s hne
  obtain ⟨l, r, rfl⟩ := hbr h2
  obtain ⟨cs, hcs⟩ := Huffman.exists_codes _ s (fun x hx => (hmem x).mpr hx)
  have e1 := Huffman.encode_ok _ hcs
  have e2 : (Huffman.ofRoot (.branch l r)).decode (Bits.ofList cs.flatten) = .ok s := by
    obtain ⟨h', e', hd⟩ := C17_lossless_partial hord s h2
    rw [e] at e'
    cases e'
    obtain ⟨bits, h1, h2⟩ := hd s (fun _ h => h)
    rw [e1] at h1
    cases h1
    exact h2
  obtain ⟨h', bits', e3, hle⟩ := C19_optimal hord s hne charBools (charBools_prefixFree s)
  have hb : bits' = Bits.ofList cs.flatten := by
    simp [Huffman.newAndEncode, e, e1] at e3
    exact e3.2.symm
  subst hb
  have hlen : cs.flatten.length ≤ 2 ^ 24 := by
    have : s.map (fun x => (charBools x).length) = List.replicate s.length 32 := by
      rw [List.eq_replicate_iff]
      simp [charBools]
    rw [this, List.sum_replicate_nat] at hle
    have : cs.flatten.length ≤ s.length * 32 := hle
    omega
  obtain ⟨bytes, es, hr⟩ := C15_bits_roundtrip_partial cs.flatten hlen
  rw [Bits.ofBools_eq] at es hr
  have hbl : bytes.length < 2 ^ 64 := by
    have : (Bits.ofList cs.flatten).ser = .ok ((Integer.ofUnsigned 8 cs.flatten.length).ser.2 ++ Bits.pack cs.flatten) := by
      simp only [Bits.ser, Bits.properBytes_ofList]; rfl
    rw [this] at es
    cases es
    have h1 := (C07_size_le (k := 8) (by unfold Width; decide)).1 cs.flatten.length (by unfold IsUnsigned; omega)
    have h2 := Bits.pack_length cs.flatten
    rw [List.length_append]
    omega
  have hhl : (Huffman.ofRoot (.branch l r)).serChar.length < 2 ^ 64 := by
    have h1 := Fixed.serChar_length (.branch l r)
    have h2 : (Node.branch l r).leaves.length ≤ s.length := (hnd.subperm fun x hx => (hmem x).mp hx).length_le
    show (Node.branch l r).serChar.length < 2 ^ 64
    omega
  obtain ⟨h2', e4, hsame⟩ := C20_tree_roundtrip_char (.branch l r) [] [] (by simpa using hhl)
  have hbits := hr [] [] (by simpa using hbl)
  simp only [List.nil_append, List.append_nil, List.length_nil] at e4 hbits
  have e5 : Huffman.deserChar (Cursor.new (Huffman.ofRoot (.branch l r)).serChar) = .ok (h2', _) := e4
  have e6 : Bits.deser (Cursor.new bytes) = .ok (Bits.ofList cs.flatten, _) := hbits
  unfold serWorks
  rw [unwrap_ok e, unwrap_ok e1, unwrap_ok es, unwrap_ok e5]
  simp only
  rw [unwrap_ok e6]
  simp only
  rw [unwrap_ok ((hsame.2 _).trans e2)]
  simp

end

/-! ## Binary data -/

theorem testRoundtrip_ok {ε ε' : Type} {input bytes : List UInt8} {s : List UInt8 → Out ε (List UInt8)}
    {d : Parser ε' (List UInt8)} (h1 : s input = .ok bytes) (h2 : Inverts d bytes input) (hl : bytes.length < 2 ^ 64) :
    testRoundtrip input s d = true := by
  unfold testRoundtrip
  rw [unwrap_ok h1, unwrap_ok (inverts_new h2 hl)]
  simp

theorem rleRuns_length (x : UInt8) (n : Nat) (b : List UInt8) :
    (Binary.rleRuns x n b).length ≤ 2 * b.length + 2 := by
  induction b generalizing x n with
  | nil => unfold Binary.rleRuns; split <;> simp
  | cons y ys ih =>
    unfold Binary.rleRuns
    split
    · have := ih x (n + 1)
      simp only [List.length_cons]
      omega
    · have := ih y 1
      simp only [List.length_cons]
      omega

theorem usizeSer_length {n : Nat} (h : n < 2 ^ 64) : (Binary.usizeSer n).length ≤ 9 :=
  (C07_size_le (k := 8) (by unfold Width; decide)).1 n (by unfold IsUnsigned; omega)

theorem rle_short (b : List UInt8) (hb : b.length ≤ 2 ^ 62) : (Binary.rle b).length < 2 ^ 64 := by
  cases b with
  | nil => decide
  | cons x xs =>
    have h1 := rleRuns_length x 1 xs
    simp only [List.length_cons] at hb
    have h2 := usizeSer_length (n := (Binary.rleRuns x 1 xs).length) (by omega)
    simp only [Binary.rle, List.length_append]
    omega

/-- **C97** `test_rle_specific_cases` and `proptest_rle_*`: data of any content and length. -/
theorem C97_test_rle (b : List UInt8) (hb : b.length ≤ 2 ^ 62) : testRle b = true :=
  testRoundtrip_ok rfl (C22_rle_lossless b) (rle_short b hb)

theorem lz_short {z : Lz4} (hz : z.Earlier) (b : List UInt8) (hb : b.length ≤ 2 ^ 62) :
    (Binary.lz z.codec b).length < 2 ^ 64 := by
  have h1 := C89_size hz b
  have h2 := usizeSer_length (n := b.length) (by omega)
  have h3 := usizeSer_length (n := (z.codec.compress b).length) (by omega)
  unfold Binary.lz
  split
  · omega
  · simp only [List.length_append]
    omega

/-- **C97** `test_lz_specific_cases` and `proptest_lz_*`. -/
theorem C97_test_lz {z : Lz4} (hz : z.Earlier) (b : List UInt8) (hb : b.length ≤ 2 ^ 62) :
    testLz z.codec b = true :=
  testRoundtrip_ok rfl (C23_lz4 hz b (by unfold isizeMax; omega)) (lz_short hz b hb)

theorem huffman_short {ord : List (Node UInt8 × Nat) → List (Node UInt8 × Nat)} (hord : HashOrder ord)
    {b bytes : List UInt8} (hb : b.length ≤ 2 ^ 60) (e : Binary.huffman ord b = .ok bytes) : bytes.length < 2 ^ 64 := by
  have h9 := usizeSer_length (n := b.length) (by omega)
  by_cases h : TwoSymbols b
  · obtain ⟨root, cs, _, hnd, hmem, hcs, hnae, e'⟩ := Binary.huffman_two hord b h
    rw [e'] at e
    cases e
    have hne : b ≠ [] := by
      obtain ⟨x, hx, _⟩ := h
      exact List.ne_nil_of_mem hx
    obtain ⟨h', bits, e3, hle⟩ := C24_no_longer hord b hne
    rw [hnae] at e3
    cases e3
    have hle : cs.flatten.length ≤ 8 * b.length := hle
    have h1 := Binary.ser8_length root
    have h2 : root.leaves.length ≤ b.length := (hnd.subperm hmem).length_le
    have h3 := usizeSer_length (n := cs.flatten.length) (by omega)
    have h4 := Bits.pack_length cs.flatten
    simp only [List.length_cons, List.length_append]
    omega
  · cases b with
    | nil => cases e; decide
    | cons x xs =>
      have ha : Binary.allEqual (x :: xs) = true := (Binary.allEqual_iff _).mpr h
      unfold Binary.huffman at e
      simp only [if_pos ha] at e
      cases e
      simp only [List.length_cons, List.length_append, List.length_nil] at h9 ⊢
      omega

/-- **C97** `test_huff_specific_cases` and `proptest_huffman_*`: data of up to 2 MiB. -/
theorem C97_test_huffman {ord : List (Node UInt8 × Nat) → List (Node UInt8 × Nat)} (hord : HashOrder ord)
    (b : List UInt8) (hb : b.length ≤ 2 ^ 21) : testHuffman ord b = true := by
  obtain ⟨bytes, e, hi⟩ := C24_huffman_lossless_partial hord b (by unfold isizeMax; omega) (.inl hb)
  exact testRoundtrip_ok e hi (huffman_short hord (by omega) e)

/-- The fixed cases of the three tests. -/
theorem C97_cases {z : Lz4} (hz : z.Earlier) {ord : List (Node UInt8 × Nat) → List (Node UInt8 × Nat)}
    (hord : HashOrder ord) : ∀ b ∈ RepoTests.cases, testRle b = true ∧ testLz z.codec b = true ∧
      testHuffman ord b = true := by
  intro b hb
  have hl : b.length ≤ 2 ^ 21 := by
    simp only [RepoTests.cases, List.mem_cons, List.not_mem_nil, or_false] at hb
    rcases hb with rfl | rfl | rfl | rfl | rfl
    · decide
    · decide
    · decide
    · decide
    · rw [List.length_replicate]; decide
  exact ⟨C97_test_rle b (by omega), C97_test_lz hz b (by omega), C97_test_huffman hord b hl⟩

/-! ## Examples -/

example : testStr realEnv "naïve".toList = true :=
  C97_test_str (C89_lossless threeBack_earlier) (fun _ => .refl _) _ (by decide)
example : serWorks id "aB, déjà vu".toList = true :=
  C97_ser_works_on_strings (fun _ => .refl _) 'a' 'B' ", déjà vu".toList (by decide) (by decide) (by decide)
example : backToOriginal (-170141183460469231731687303715884105728) = true :=
  C97_back_to_original _ (by decide)
example : testBin realEnv [1, 2, 2] = true :=
  C97_test_bin (C89_lossless threeBack_earlier) (fun _ => .refl _) _ (by decide)

end Souris
