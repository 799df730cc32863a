import Verif.Spec.ImaginarySerde
import Verif.Props.IntegerSerde
import Verif.Props.IntegerFloat
import Verif.Props.JsonExact
import Verif.Props.JsonNear

/-! # C98: complex numbers through serde -/

namespace Souris

open Imaginary SerdeJson

/-- A whole number in JSON. -/
def wholeJson (z : Int) : SJValue := .number (if 0 ≤ z then .posInt z.toNat else .negInt z)

theorem wholeJson_whole (z : Int) : WholeNumber (wholeJson z) z := by
  unfold wholeJson
  split
  · rename_i h
    have := WholeNumber.pos z.toNat
    rwa [Int.toNat_of_nonneg h] at this
  · exact .neg z

theorem wholeJson_made {P : UInt64 → Prop} {z : Int} (h : -(2 ^ 63) ≤ z ∧ z < 2 ^ 64) : (wholeJson z).Made P := by
  unfold wholeJson
  split
  · exact .posInt (by omega)
  · exact .negInt h.1 (by omega)

theorem intField_eq {i : Integer} (hi : i.Native) :
    (-(2 ^ 63) ≤ i.value ∧ i.value < 2 ^ 64 → intField i = .ok (wholeJson i.value)) ∧
    (¬ (-(2 ^ 63) ≤ i.value ∧ i.value < 2 ^ 64) → intField i = .err ()) := by
  refine ⟨fun h => ?_, fun h => by unfold intField; rw [(C61_json_value_partial hi).2 h]⟩
  obtain ⟨v, e, hv, _⟩ := C61_serialise hi
  have e2 : i.toJsonNumber = .ok (SerdeJson.toNumber v) := by unfold Integer.toJsonNumber; rw [e]; rfl
  unfold intField
  rw [e2]
  revert hv h
  generalize i.value = z
  intro h hv
  unfold wholeJson
  cases hv with
  | @unsigned k n hk hn =>
    simp only [SerdeJson.toNumber, SJNumber.ofU64]
    rw [if_pos (by omega), if_pos (by omega)]
    simp
  | @signed k z hk hn =>
    simp only [SerdeJson.toNumber, SJNumber.ofU64, SJNumber.ofI64]
    by_cases h0 : 0 ≤ z
    · rw [if_pos (by omega), if_pos h0]
    · rw [if_neg (by omega), if_pos (by omega), if_neg h0, if_pos (by omega)]

theorem readInt_sound {j : SJValue} {P : UInt64 → Prop} (hj : j.Made P) {i : Integer} (h : readInt j = some i) :
    i.Native ∧ WholeNumber j i.value := by
  have hw : Width 8 := by unfold Width; decide
  cases hj with
  | @posInt n hn =>
    have e : i = Integer.ofUnsigned 8 n := by cases h; rfl
    have hu : IsUnsigned 8 n := by unfold IsUnsigned; omega
    subst e
    rw [(C01_value hw).1 n hu]
    exact ⟨.unsigned hw hu, .pos n⟩
  | @negInt n h1 h0 =>
    have e : i = Integer.ofSigned 8 n := by cases h; rfl
    have hu : IsSigned 8 n := by unfold IsSigned; omega
    subst e
    rw [(C01_value hw).2 n hu]
    exact ⟨.signed hw hu, .neg n⟩
  | float => cases h
  | null => cases h
  | bool => cases h
  | string => cases h
  | array => cases h
  | object => cases h

theorem readInt_complete {j : SJValue} {P : UInt64 → Prop} (hj : j.Made P) {z : Int} (h : WholeNumber j z) :
    ∃ i, readInt j = some i ∧ i.Native ∧ i.value = z := by
  cases h with
  | pos n =>
    obtain ⟨h1, h2⟩ := readInt_sound hj (i := Integer.ofUnsigned 8 n) rfl
    refine ⟨_, rfl, h1, ?_⟩
    generalize (Integer.ofUnsigned 8 n).value = w at h2
    cases h2
    rfl
  | neg _ =>
    obtain ⟨h1, h2⟩ := readInt_sound hj (i := Integer.ofSigned 8 z) rfl
    refine ⟨_, rfl, h1, ?_⟩
    generalize (Integer.ofSigned 8 z).value = w at h2
    cases h2
    rfl

theorem castInt_nearest {z : Int} (h : -(2 ^ 63) ≤ z ∧ z < 2 ^ 64) : NearestF64 z (UInt64.ofNat (f64Format.castInt z)) := by
  have hw : Width 16 := by unfold Width; decide
  have hs : IsSigned 16 z := by unfold IsSigned; omega
  obtain ⟨b, h1, h2⟩ := C60_f64_nearest (.signed hw hs)
  rw [(C01_value hw).2 z hs] at h2
  unfold Integer.toF64 at h1
  rw [cast_eq (.signed hw hs), (C01_value hw).2 z hs] at h1
  have e : UInt64.ofNat (f64Format.castInt z) = b := by cases h1; rfl
  rw [e]
  exact h2

theorem readFloat_sound {j : SJValue} {P : UInt64 → Prop} (hj : j.Made P) {b : UInt64} (h : readFloat j = some b) :
    FloatNumber j b := by
  cases hj with
  | @posInt n hn =>
    have e : b = UInt64.ofNat (f64Format.castInt (n : Int)) := by
      have : f64Format.castInt (n : Int) = f64Format.castNat n := by
        unfold FloatFormat.castInt
        rw [if_neg (by omega)]
        rfl
      rw [this]
      cases h
      rfl
    rw [e]
    exact .whole (.pos n) (castInt_nearest (by omega))
  | @negInt n h1 h0 =>
    cases h
    exact .whole (.neg n) (castInt_nearest (by omega))
  | float => cases h; exact .float _
  | null => cases h
  | bool => cases h
  | string => cases h
  | array => cases h
  | object => cases h

theorem readFloat_complete {j : SJValue} {b : UInt64} (h : FloatNumber j b) : ∃ b', readFloat j = some b' := by
  cases h with
  | float b => exact ⟨b, rfl⟩
  | whole h => cases h <;> exact ⟨_, rfl⟩

theorem ofJson_cartesian (m : List (List Char × SJValue)) :
    ofJsonValue (.object [("CartesianForm".toList, .object m)]) = (do
      let re ← readInt (← SJValue.get "real".toList m)
      let im ← readInt (← SJValue.get "imaginary".toList m)
      return .cartesian re im) := rfl

theorem ofJson_polar (m : List (List Char × SJValue)) :
    ofJsonValue (.object [("PolarForm".toList, .object m)]) = (do
      let md ← readFloat (← SJValue.get "modulus".toList m)
      let ar ← readFloat (← SJValue.get "argument".toList m)
      return .polar md ar) := rfl

/-- **C98**: of all JSON, exactly the objects that say a complex number are read as one, and as the one they say. -/
theorem C98_reads {j : SJValue} (hj : j.Made fun _ => True) :
    (∀ z, ofJsonValue j = some z → ComplexJson j z) ∧ ((∃ z, ComplexJson j z) → ∃ z, ofJsonValue j = some z) := by
  constructor
  · intro z h
    unfold ofJsonValue at h
    split at h
    · rename_i name m
      have hm : ∀ k x, (k, x) ∈ m → x.Made fun _ => True := by
        cases hj with
        | object _ h2 => cases h2 _ _ (List.mem_singleton.mpr rfl) with | object _ h3 => exact h3
      split at h
      · rename_i hn
        subst hn
        simp only [Option.bind_eq_bind, Option.bind_eq_some_iff, Option.pure_def, Option.some.injEq] at h
        obtain ⟨a, ha, re, hre, b, hb, im, him, rfl⟩ := h
        exact .cartesian (get_mem ha) (get_mem hb) (readInt_sound (hm _ _ (get_mem ha)) hre)
          (readInt_sound (hm _ _ (get_mem hb)) him)
      · split at h
        · rename_i hn
          subst hn
          simp only [Option.bind_eq_bind, Option.bind_eq_some_iff, Option.pure_def, Option.some.injEq] at h
          obtain ⟨a, ha, re, hre, b, hb, im, him, rfl⟩ := h
          exact .polar (get_mem ha) (get_mem hb) (readFloat_sound (hm _ _ (get_mem ha)) hre)
            (readFloat_sound (hm _ _ (get_mem hb)) him)
        · cases h
    · cases h
  · rintro ⟨z, h⟩
    have key : ∀ (k : List Char) (m : List (List Char × SJValue)), (SJValue.object [(k, .object m)]).Made (fun _ => True) →
        (m.map Prod.fst).Nodup ∧ ∀ k x, (k, x) ∈ m → x.Made fun _ => True := by
      intro k m hj
      cases hj with
      | object _ h2 => cases h2 _ _ (List.mem_singleton.mpr rfl) with | object h4 h3 => exact ⟨made_nodup h4, h3⟩
    cases h with
    | cartesian ha hb hre him =>
      obtain ⟨hn, hm⟩ := key _ _ hj
      obtain ⟨i, h1, _⟩ := readInt_complete (hm _ _ ha) hre.2
      obtain ⟨i', h2, _⟩ := readInt_complete (hm _ _ hb) him.2
      rw [ofJson_cartesian, get_of_mem hn ha, get_of_mem hn hb]
      exact ⟨.cartesian i i', by simp [h1, h2]⟩
    | polar ha hb hre him =>
      obtain ⟨hn, hm⟩ := key _ _ hj
      obtain ⟨i, h1⟩ := readFloat_complete hre
      obtain ⟨i', h2⟩ := readFloat_complete him
      rw [ofJson_polar, get_of_mem hn ha, get_of_mem hn hb]
      exact ⟨.polar i i', by simp [h1, h2]⟩

/-- JSON that was not written by this library: another order, another member, and a float where a whole number would do. -/
example : (∃ z, ofJsonValue (.object [("PolarForm".toList, .object [("argument".toList, .number (.float 0)),
      ("modulus".toList, .number (.posInt 3)), ("unit".toList, .null)])]) = some z) ∧
    ofJsonValue (.object [("PolarForm".toList, .object [("argument".toList, .number (.float 0))])]) = none := by
  refine ⟨(C98_reads (.object (by simp) fun k x hx => ?_)).2
    ⟨.polar 0x4008000000000000 0, .polar (a := .number (.posInt 3)) (b := .number (.float 0)) (by simp) (by simp) ?_ (.float 0)⟩, rfl⟩
  · cases List.mem_singleton.mp hx
    refine .object (by decide +kernel) fun k x hx => ?_
    simp only [List.mem_cons, Prod.mk.injEq, List.not_mem_nil, or_false] at hx
    rcases hx with ⟨_, rfl⟩ | ⟨_, rfl⟩ | ⟨_, rfl⟩
    · exact .float (by unfold F64Finite; decide) trivial
    · exact .posInt (by decide)
    · exact .null
  · have h := castInt_nearest (z := 3) (by decide)
    have e : UInt64.ofNat (f64Format.castInt 3) = 0x4008000000000000 := by decide +kernel
    rw [e] at h
    exact .whole (.pos 3) h

/-- What is written for two integers. -/
theorem cartesian_json {re im : Integer} (hre : re.Native) (him : im.Native)
    (h1 : -(2 ^ 63) ≤ re.value ∧ re.value < 2 ^ 64) (h2 : -(2 ^ 63) ≤ im.value ∧ im.value < 2 ^ 64) :
    toJsonValue (.cartesian re im) = .ok (.object [("CartesianForm".toList,
      .object [("imaginary".toList, wholeJson im.value), ("real".toList, wholeJson re.value)])]) := by
  simp only [toJsonValue]
  rw [(intField_eq hre).1 h1, (intField_eq him).1 h2]
  rfl

theorem two_made {P : UInt64 → Prop} {name k k' : List Char} {a b : SJValue} (ha : a.Made P) (hb : b.Made P)
    (hk : SJValue.keyLt k k' = true) : (SJValue.object [(name, .object [(k, a), (k', b)])]).Made P := by
  refine .object (by simp) fun _ x hx => ?_
  cases List.mem_singleton.mp hx
  refine .object (by simp [hk]) fun _ x hx => ?_
  rcases List.mem_cons.mp hx with hx | hx
  · cases hx; exact ha
  · cases List.mem_singleton.mp hx; exact hb

/-- **C98**, in part: a complex number with whole parts made from Rust integers comes back from `serde_json`'s value
tree with the same parts, exactly if they fit 64 bits; otherwise writing it is an error. It is `==` to the original
unless a part is the zero of a signed type. -/
theorem C98_cartesian_partial {re im : Integer} (hre : re.Native) (him : im.Native) :
    ((-(2 ^ 63) ≤ re.value ∧ re.value < 2 ^ 64) ∧ (-(2 ^ 63) ≤ im.value ∧ im.value < 2 ^ 64) →
      ∃ j re' im', toJsonValue (.cartesian re im) = .ok j ∧ ComplexJson j (.cartesian re im) ∧
        ofJsonValue j = some (.cartesian re' im') ∧ re'.value = re.value ∧ im'.value = im.value ∧
        ((Imaginary.cartesian re' im').eq (.cartesian re im) = true ↔
          ¬ (re.value = 0 ∧ re.signedState = .signedPositive) ∧ ¬ (im.value = 0 ∧ im.signedState = .signedPositive))) ∧
    (¬ ((-(2 ^ 63) ≤ re.value ∧ re.value < 2 ^ 64) ∧ (-(2 ^ 63) ≤ im.value ∧ im.value < 2 ^ 64)) →
      toJsonValue (.cartesian re im) = .err ()) := by
  constructor
  · rintro ⟨h1, h2⟩
    obtain ⟨re', e1, n1, v1⟩ := readInt_complete (wholeJson_made (P := fun _ => True) h1) (wholeJson_whole re.value)
    obtain ⟨im', e2, n2, v2⟩ := readInt_complete (wholeJson_made (P := fun _ => True) h2) (wholeJson_whole im.value)
    refine ⟨_, re', im', cartesian_json hre him h1 h2, ?_, ?_, v1, v2, ?_⟩
    · exact .cartesian (by simp) (by simp) ⟨hre, wholeJson_whole _⟩ ⟨him, wholeJson_whole _⟩
    · rw [ofJson_cartesian]
      show (do
        let re ← readInt (wholeJson re.value)
        let im ← readInt (wholeJson im.value)
        return Imaginary.cartesian re im) = _
      rw [e1, e2]
      rfl
    · have zero : ∀ {i i' : Integer}, i.Native → i'.Native → i'.value = i.value → readInt (wholeJson i.value) = some i' →
          (i'.eq i = true ↔ ¬ (i.value = 0 ∧ i.signedState = .signedPositive)) := by
        intro i i' hi hi' hv he
        rw [C05_eq_iff hi' hi, hv]
        simp only [true_and, not_and]
        refine forall_congr' fun h0 => ?_
        rw [h0] at he
        have : i' = Integer.ofUnsigned 8 0 := by cases he; rfl
        rw [this]
        constructor
        · intro h hs
          have := h.mpr hs
          cases this
        · exact fun h => ⟨fun h' => (by cases h'), fun h' => absurd h' h⟩
      simp only [Imaginary.eq, Bool.and_eq_true, zero hre n1 v1 e1, zero him n2 v2 e2]
  · intro h
    simp only [toJsonValue]
    by_cases h1 : -(2 ^ 63) ≤ re.value ∧ re.value < 2 ^ 64
    · rw [(intField_eq hre).1 h1, (intField_eq him).2 fun h2 => h ⟨h1, h2⟩]
      rfl
    · rw [(intField_eq hre).2 h1]
      rfl

/-- Both parts fit. -/
example : ∃ j, toJsonValue (.cartesian (Integer.ofSigned 4 (-3)) (Integer.ofUnsigned 8 (2 ^ 64 - 1))) = .ok j ∧
    ∃ z, ofJsonValue j = some z := by
  have hw4 : Width 4 := by unfold Width; decide
  have hw8 : Width 8 := by unfold Width; decide
  have hs : IsSigned 4 (-3) := by unfold IsSigned; decide
  have hu : IsUnsigned 8 (2 ^ 64 - 1) := by unfold IsUnsigned; decide
  obtain ⟨j, re, im, h1, _, h2, _⟩ := (C98_cartesian_partial (.signed hw4 hs) (.unsigned hw8 hu)).1 (by
    rw [(C01_value hw4).2 _ hs, (C01_value hw8).1 _ hu]; decide)
  exact ⟨j, h1, _, h2⟩

theorem polar_json {md ar : UInt64} (h1 : F64Finite md) (h2 : F64Finite ar) :
    toJsonValue (.polar md ar) = .ok (.object [("PolarForm".toList,
      .object [("argument".toList, .number (.float ar)), ("modulus".toList, .number (.float md))])]) := by
  have hf : ∀ b, F64Finite b → floatField b = .number (.float b) := by
    intro b h
    unfold floatField SJValue.ofF64
    rw [if_pos (f64Finite_iff b |>.mpr h)]
  rw [← hf md h1, ← hf ar h2]
  rfl

/-- **C98**, in part: a complex number in polar form comes back with the same bits if both parts are finite;
otherwise it is written, with `null` in place of the part, and cannot be read. -/
theorem C98_polar_partial (md ar : UInt64) :
    (F64Finite md ∧ F64Finite ar → ∃ j, toJsonValue (.polar md ar) = .ok j ∧ ComplexJson j (.polar md ar) ∧
      ofJsonValue j = some (.polar md ar)) ∧
    (¬ (F64Finite md ∧ F64Finite ar) → ∃ j, toJsonValue (.polar md ar) = .ok j ∧ ofJsonValue j = none) := by
  have hf : ∀ b, (F64Finite b → floatField b = .number (.float b)) ∧ (¬ F64Finite b → floatField b = .null) := by
    intro b
    unfold floatField SJValue.ofF64
    constructor
    · intro h; rw [if_pos (f64Finite_iff b |>.mpr h)]
    · intro h; rw [if_neg fun h' => h (f64Finite_iff b |>.mp h')]
  have he : toJsonValue (.polar md ar) = .ok (.object [("PolarForm".toList,
      .object [("argument".toList, floatField ar), ("modulus".toList, floatField md)])]) := rfl
  have hr : ofJsonValue (.object [("PolarForm".toList,
      .object [("argument".toList, floatField ar), ("modulus".toList, floatField md)])]) = (do
        let m ← readFloat (floatField md)
        let a ← readFloat (floatField ar)
        return .polar m a) := rfl
  constructor
  · rintro ⟨h1, h2⟩
    refine ⟨_, he, ?_, ?_⟩
    · rw [(hf md).1 h1, (hf ar).1 h2]
      exact .polar (by simp) (by simp) (.float _) (.float _)
    · rw [hr, (hf md).1 h1, (hf ar).1 h2]
      rfl
  · intro h
    refine ⟨_, he, ?_⟩
    rw [hr]
    by_cases h1 : F64Finite md
    · rw [(hf md).1 h1, (hf ar).2 fun h2 => h ⟨h1, h2⟩]
      rfl
    · rw [(hf md).2 h1]
      rfl

example : ∃ j, toJsonValue (.polar 0x4004000000000000 0xBFD5555555555555) = .ok j ∧
    ofJsonValue j = some (.polar 0x4004000000000000 0xBFD5555555555555) := by
  obtain ⟨j, h1, _, h2⟩ := (C98_polar_partial 0x4004000000000000 0xBFD5555555555555).1
    ⟨by unfold F64Finite; decide, by unfold F64Finite; decide⟩
  exact ⟨j, h1, h2⟩

/-- **C98**, in part: also as text, a complex number with whole parts is what was written. -/
theorem C98_cartesian_text_partial {re im : Integer} (hre : re.Native) (him : im.Native) {j : SJValue}
    (h : toJsonValue (.cartesian re im) = .ok j) : parse (print j) = some j := by
  by_cases hr : (-(2 ^ 63) ≤ re.value ∧ re.value < 2 ^ 64) ∧ (-(2 ^ 63) ≤ im.value ∧ im.value < 2 ^ 64)
  · rw [cartesian_json hre him hr.1 hr.2] at h
    cases h
    exact (C83_text_partial (two_made (wholeJson_made hr.2) (wholeJson_made hr.1) (by decide +kernel))
      (by unfold wholeJson; simp [SJValue.depth, SJValue.depthEntries])).1
  · rw [(C98_cartesian_partial hre him).2 hr] at h
    cases h

theorem near_two {name k k' : List Char} {a b : UInt64} {j' : SJValue}
    (h : JsonNear (.object [(name, .object [(k, .number (.float a)), (k', .number (.float b))])]) j') :
    ∃ a' b', j' = .object [(name, .object [(k, .number (.float a')), (k', .number (.float b'))])] ∧
      FloatNear a a' ∧ FloatNear b b' := by
  cases h with
  | @object _ m' hk hv =>
    match m', hk, hv with
    | [], hk, _ => simp at hk
    | _ :: _ :: _, hk, _ => simp at hk
    | [(k, x)], hk, hv =>
      have hx := hv _ (List.mem_cons_self ..)
      simp only [List.map_cons, List.map_nil, List.cons.injEq, and_true] at hk
      subst hk
      cases hx with
      | @object _ m2 hk2 hv2 =>
        match m2, hk2, hv2 with
        | [], hk, _ => simp at hk
        | [_], hk, _ => simp at hk
        | _ :: _ :: _ :: _, hk, _ => simp at hk
        | [(k1, x1), (k2, x2)], hk2, hv2 =>
          have a1 := hv2 _ (List.mem_cons_self ..)
          have a2 := hv2 _ (List.mem_cons_of_mem _ (List.mem_cons_self ..))
          simp only [List.map_cons, List.map_nil, List.cons.injEq, and_true] at hk2
          obtain ⟨rfl, rfl⟩ := hk2
          cases a1 with
          | @float _ a' h3 =>
            cases a2 with
            | @float _ b' h4 => exact ⟨a', b', rfl, h3, h4⟩

/-- **C98**, in part: as text, a complex number in polar form comes back off by at most two parts in 10¹⁵. -/
theorem C98_polar_text_partial {md ar : UInt64} (h1 : F64Finite md ∧ |f64Value md| ≤ 17975 * 10 ^ 304)
    (h2 : F64Finite ar ∧ |f64Value ar| ≤ 17975 * 10 ^ 304) :
    ∃ j j' md' ar', toJsonValue (.polar md ar) = .ok j ∧ parse (print j) = some j' ∧
      ofJsonValue j' = some (.polar md' ar') ∧ FloatNear md md' ∧ FloatNear ar ar' := by
  have hj := polar_json h1.1 h2.1
  obtain ⟨j', hn, hp, _⟩ := C83_near_partial (j := .object [("PolarForm".toList,
      .object [("argument".toList, .number (.float ar)), ("modulus".toList, .number (.float md))])])
    (two_made (.float h2.1 h2.2) (.float h1.1 h1.2) (by decide +kernel)) (by simp [SJValue.depth, SJValue.depthEntries])
  obtain ⟨ar', md', rfl, h3, h4⟩ := near_two hn
  exact ⟨_, _, md', ar', hj, hp, rfl, h4, h3⟩

/-- A third and minus a third. -/
example : ∃ j j' md' ar', toJsonValue (.polar 0x3FD5555555555555 0xBFD5555555555555) = .ok j ∧ parse (print j) = some j' ∧
    ofJsonValue j' = some (.polar md' ar') := by
  have big : ∀ b ∈ [(0x3FD5555555555555 : UInt64), 0xBFD5555555555555], |f64Value b| ≤ 17975 * 10 ^ 304 := by
    intro b hb
    have h1 : |f64Value b| ≤ 1 := by
      simp only [List.mem_cons, List.not_mem_nil, or_false] at hb
      rcases hb with rfl | rfl <;> decide +kernel
    have h2 : (1 : ℚ) ≤ 10 ^ 304 := one_le_pow₀ (by norm_num)
    have h3 : (1 : ℚ) * 10 ^ 304 ≤ 17975 * 10 ^ 304 := mul_le_mul_of_nonneg_right (by norm_num) (by positivity)
    rw [one_mul] at h3
    exact h1.trans (h2.trans h3)
  obtain ⟨j, j', a, b, h1, h2, h3, _⟩ := C98_polar_text_partial (md := 0x3FD5555555555555) (ar := 0xBFD5555555555555)
    ⟨by unfold F64Finite; decide, big _ (by simp)⟩ ⟨by unfold F64Finite; decide, big _ (by simp)⟩
  exact ⟨j, j', a, b, h1, h2, h3⟩

/-- **C98** is violated by an infinite modulus: what is written cannot be read. -/
theorem C98_refuted_infinite : ∃ j, toJsonValue (.polar 0x7FF0000000000000 0) = .ok j ∧ ofJsonValue j = none :=
  (C98_polar_partial _ _).2 fun h => by have := h.1; unfold F64Finite at this; exact absurd this (by decide)

/-- **C98** is violated by parts outside 64 bits. -/
theorem C98_refuted_large : ∃ re im : Integer, re.Native ∧ im.Native ∧ toJsonValue (.cartesian re im) = .err () :=
  ⟨Integer.ofUnsigned 16 (2 ^ 64), Integer.ofUnsigned 1 0, .unsigned (by unfold Width; decide) (by unfold IsUnsigned; decide),
    .unsigned (by unfold Width; decide) (by unfold IsUnsigned; decide),
    (C98_cartesian_partial (.unsigned (by unfold Width; decide) (by unfold IsUnsigned; decide))
      (.unsigned (by unfold Width; decide) (by unfold IsUnsigned; decide))).2 fun h => by
        rw [(C01_value (by unfold Width; decide)).1 _ (by unfold IsUnsigned; decide)] at h
        exact absurd h.1.2 (by decide)⟩

/-- **C98** is violated by `0i32` as a part: what is read is not `==`. -/
theorem C98_refuted_signed_zero : ∃ (re im : Integer) (j : SJValue) (z : Imaginary), re.Native ∧ im.Native ∧
    toJsonValue (.cartesian re im) = .ok j ∧ ofJsonValue j = some z ∧ z.eq (.cartesian re im) = false := by
  have hw : Width 4 := by unfold Width; decide
  have hs : IsSigned 4 0 := by unfold IsSigned; decide
  obtain ⟨j, re, im, h1, _, h2, _, _, h3⟩ := (C98_cartesian_partial (.signed hw hs) (.signed hw hs)).1 (by
    rw [(C01_value hw).2 _ hs]; decide)
  refine ⟨_, _, j, _, .signed hw hs, .signed hw hs, h1, h2, ?_⟩
  rw [Bool.eq_false_iff]
  exact fun h => (h3.mp h).1 ⟨(C01_value hw).2 _ hs, rfl⟩

end Souris
