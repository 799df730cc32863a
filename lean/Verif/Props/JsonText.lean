import Verif.Lemmas.JsonClose
import Verif.Lemmas.JsonPrint
import Verif.Lemmas.JsonShortest

/-! # JSON as text (C83, C84) -/

namespace Souris

open SerdeJson

/-! ## C83: printed values are read back -/

/-- **C83**, in part. A JSON value, printed compactly or indented, is read back as the same value, if it is
nested at most 127 deep and its floats have few digits. Without the two conditions this is false, see
`C83_refuted_deep` and `C83_refuted_float`. -/
theorem C83_text_partial {j : SJValue} (h : j.Made FewDigits) (hd : j.depth ≤ 127) :
    parse (print j) = some j ∧ parse (pretty 0 j) = some j := by
  have hR : SerdeJson.Reads (Printed FewDigits) := printed_reads fun _ _ h => h
  have hN : ∀ n, SJValue.Made FewDigits (.number n) → Printed FewDigits (numberText n) n := fun n h => ⟨h, rfl⟩
  exact ⟨parse_complete hR ⟨[], _, [], by simp, blank_nil, blank_nil, print_doc hN h hd⟩,
    parse_complete hR ⟨[], _, [], by simp, blank_nil, blank_nil, pretty_doc hN h hd 0⟩⟩

/-- A float with few digits: 2.5. -/
theorem fewDigits_sample : F64Finite 0x4004000000000000 ∧ FewDigits 0x4004000000000000 := by
  have e : signed true (roundTo 25 (-1)) = 0x4004000000000000 := by decide +kernel
  have h := roundTo_nearest (d := 25) (k := -1) (by decide +kernel)
  rw [e] at h
  refine ⟨by unfold F64Finite; decide, 25, 1, by decide, by decide, .inl ?_⟩
  rwa [zpow_neg_one, ← div_eq_mul_inv, ← pow_one (10 : ℚ)] at h

example : ∃ j : SJValue, j.Made FewDigits ∧ j.depth = 2 ∧ parse (print j) = some j ∧ parse (pretty 0 j) = some j ∧
    print j = "{\"a\":[1,-2,2.5,\"x\\\"\"],\"b\":null}".toList ∧ print j ≠ pretty 0 j := by
  have hm : SJValue.Made FewDigits (.object [("a".toList, .array [.number (.posInt 1), .number (.negInt (-2)),
      .number (.float 0x4004000000000000), .string "x\"".toList]), ("b".toList, .null)]) := by
    refine .object (by decide) ?_
    intro k j hj
    simp only [List.mem_cons, Prod.mk.injEq, List.not_mem_nil, or_false] at hj
    rcases hj with ⟨_, rfl⟩ | ⟨_, rfl⟩
    · refine .array ?_
      intro j hj
      simp only [List.mem_cons, List.not_mem_nil, or_false] at hj
      rcases hj with rfl | rfl | rfl | rfl
      · exact .posInt (by decide)
      · exact .negInt (by decide) (by decide)
      · exact .float fewDigits_sample.1 fewDigits_sample.2
      · exact .string _
    · exact .null
  have := C83_text_partial hm (by decide)
  exact ⟨_, hm, by decide, this.1, this.2, by decide +kernel, by decide +kernel⟩

/-- **C83** is false for values that are nested too deep: no text at all is read as such a value. -/
theorem C83_refuted_deep {j : SJValue} (hd : 127 < j.depth) (s : List Char) : parse s ≠ some j := by
  intro h
  obtain ⟨_, t, _, _, _, _, hdoc⟩ := parse_sound (N := JsonNum) (fun _ _ _ _ h => number_sound h) h
  have := doc_depth hdoc
  omega

/-- A value that is nested `n` deep. -/
theorem deep_made (n : Nat) : ∃ j : SJValue, j.Made FewDigits ∧ j.depth = n := by
  induction n with
  | zero => exact ⟨.null, .null, rfl⟩
  | succ n ih =>
    obtain ⟨j, h1, h2⟩ := ih
    refine ⟨.array [j], .array fun x hx => ?_, ?_⟩
    · rw [List.mem_singleton] at hx
      exact hx ▸ h1
    · simp only [SJValue.depth, SJValue.depthList, h2]
      omega

example : ∃ j : SJValue, j.Made FewDigits ∧ parse (print j) ≠ some j := by
  obtain ⟨j, h1, h2⟩ := deep_made 128
  exact ⟨j, h1, C83_refuted_deep (by omega) _⟩

example : ∃ j : SJValue, j.depth = 127 ∧ parse (print j) = some j := by
  obtain ⟨j, h1, h2⟩ := deep_made 127
  exact ⟨j, h2, (C83_text_partial h1 (by omega)).1⟩

/-- The text of 2⁵³ − 1 as a float is read as 2⁵³ − 2. -/
theorem parse_witness : print (.number (.float 0x433FFFFFFFFFFFFF)) = "9007199254740991.0".toList ∧
    parse "9007199254740991.0".toList = some (.number (.float 0x433FFFFFFFFFFFFE)) := by
  refine ⟨by decide +kernel, ?_⟩
  refine parse_complete (N := fun t n => t = "9007199254740991.0".toList ∧ n = .float 0x433FFFFFFFFFFFFE) ?_
    ⟨[], _, [], by simp, blank_nil, blank_nil, .number _ ⟨rfl, rfl⟩⟩
  rintro t n ⟨rfl, rfl⟩
  refine ⟨true, '9', "007199254740991.0".toList, by decide, by decide, fun rest hr => ?_⟩
  have hreal : JsonReal "9007199254740991.0".toList "9007199254740991".toList ['0'] 0 :=
    ⟨['.', '0'], [], by decide, ⟨⟨by decide, by decide⟩, by decide⟩, .inr ⟨⟨by decide, by decide⟩, rfl⟩, .none⟩
  have h := number_easy (pos := true) hreal hr (by decide) (by decide +kernel) (by decide)
  have e : fromParts true (digitsValue ("9007199254740991".toList ++ ['0'])) (0 - (['0'].length : Int)) = some 0x433FFFFFFFFFFFFE := by
    decide +kernel
  rw [e] at h
  exact h

/-- **C83** is false for floats with many digits. -/
theorem C83_refuted_float : ∃ j j' : SJValue, j.Made (fun _ => True) ∧ j.depth = 0 ∧ parse (print j) = some j' ∧ j' ≠ j := by
  refine ⟨.number (.float 0x433FFFFFFFFFFFFF), .number (.float 0x433FFFFFFFFFFFFE), .float (by unfold F64Finite; decide) trivial, rfl, ?_, ?_⟩
  · rw [parse_witness.1]
    exact parse_witness.2
  · intro h
    cases h

/-- The text of a number is right. -/
theorem numberText_right {P : UInt64 → Prop} {n : SJNumber} (hn : SJValue.Made P (.number n)) : JsonRight (numberText n) n := by
  cases hn with
  | @posInt n h =>
    have hv := (natText_spec n).2.2
    have := JsonRight.posInt (whole_natText n) (by rw [hv]; exact h)
    rwa [hv] at this
  | @negInt n h h0 =>
    have hv := (natText_spec n.natAbs).2.2
    have := JsonRight.negInt (whole_natText n.natAbs) (by rw [hv]; omega) (by rw [hv]; omega)
    rw [hv, show (-(n.natAbs : Int)) = n by omega] at this
    rw [numberText, intText, if_pos h0]
    exact this
  | float h _ => exact floatText_right h

/-- **C83**: the printed text, compact or indented, is JSON for the value and not nested deeper. Every number of
it is the integer, or a decimal to which the float is the nearest one. So whoever reads numbers as they should
be read gets the value, however large or deep it is. -/
theorem C83_print {j : SJValue} (h : j.Made fun _ => True) :
    JsonText JsonRight j.depth (print j) j ∧ JsonText JsonRight j.depth (pretty 0 j) j :=
  ⟨⟨[], _, [], by simp, blank_nil, blank_nil, print_doc (fun _ => numberText_right) h le_rfl⟩,
    ⟨[], _, [], by simp, blank_nil, blank_nil, pretty_doc (fun _ => numberText_right) h le_rfl 0⟩⟩

/-- This includes the witness of `C83_refuted_float`: its text is right, but it is not read as it should be. -/
example : JsonText JsonRight 0 "9007199254740991.0".toList (.number (.float 0x433FFFFFFFFFFFFF)) := by
  have h := (C83_print (j := .number (.float 0x433FFFFFFFFFFFFF)) (.float (by unfold F64Finite; decide) trivial)).1
  rwa [parse_witness.1] at h

/-! ## C84: what is read is JSON, and JSON is read -/

/-- **C84**, in part: a text that is read is JSON for the value, nested at most 127 deep. Of numbers that are
not integers of 64 bits and do not have few digits, this says only that they are read as some float with the
right sign; the nearest float is not always the result, see `C84_refuted_float`. -/
theorem C84_sound_partial {s : List Char} {j : SJValue} (h : parse s = some j) : JsonText JsonNum 127 s j :=
  parse_sound (fun _ _ _ _ h => number_sound h) h

/-- **C84**, in part: every number that is read, with however many digits, is about the one that is written: it differs
from it by at most the 10¹⁵-th part. Missing is that it is the nearest (`C84_refuted_float`). -/
theorem C84_close_partial {s : List Char} {j : SJValue} (h : parse s = some j) : JsonText JsonClose 127 s j :=
  parse_sound (fun _ _ _ _ h => number_close h) h

example : (parse "[-123456789.123456789123456789e-250,98765432109876543210987654321e200]".toList).isSome := by decide +kernel

/-- Some texts that are not JSON. -/
example : parse "[1,]".toList = none ∧ parse "01".toList = none ∧ parse "{\"a\":1 \"b\":2}".toList = none ∧
    parse "\"\\ud800\"".toList = none := by
  simp only [← Option.isNone_iff_eq_none]
  decide +kernel

theorem exact_reads : SerdeJson.Reads JsonExact := by
  intro t n h
  have easy : ∀ (pos : Bool) {t int frac : List Char} {e : Int} {b : UInt64}, JsonReal t int frac e → t ≠ int →
      EasyDecimal int frac e → F64Finite b → (pos = true ↔ b.toNat < 2 ^ 63) →
      Nearest b (if pos then realValue int frac e else -realValue int frac e) →
      ∃ c cs, t = c :: cs ∧ c ∈ decimalDigits ∧ ∀ rest, Stops rest → number pos (t ++ rest) = some (.float b, rest) := by
    intro pos t int frac e b h hint he hb hs hv
    have h' := h
    obtain ⟨fr, ex, rfl, hw, _⟩ := h'
    obtain ⟨c, cs, rfl, hc, _⟩ := digits_cons hw.1
    refine ⟨c, cs ++ fr ++ ex, by simp, hc, fun rest hr => ?_⟩
    rw [number_easy h hr hint (by have := he.1; omega) he.2.2]
    obtain ⟨f1, f2⟩ := fromParts_easy pos he.1 he.2.1
    rw [f1]
    have hn := roundTo_nearest f2
    obtain ⟨pos', a, ha, rfl⟩ := finite_signed hb
    have hpos : pos' = pos := by
      rw [signed_toNat pos' ha] at hs
      rw [inf_val] at ha
      cases pos <;> cases pos' <;> simp at hs ⊢
      omega
    subst hpos
    have hq : 0 ≤ realValue (c :: cs) frac e := by
      exact mul_nonneg (Nat.cast_nonneg _) (ten_pos _).le
    have hab : a = roundTo (digitsValue (c :: cs ++ frac)) (e - frac.length) := by
      cases pos' with
      | true => exact nearest_unique hq ha f2 hv hn
      | false =>
        have := Nearest.flip ha hv
        rw [if_neg (by decide), neg_neg] at this
        exact nearest_unique hq ha f2 this hn
    rw [hab]
    rfl
  cases h with
  | posInt h hv =>
    obtain ⟨c, cs, rfl, hc, _⟩ := digits_cons h.1
    refine ⟨true, c, cs, rfl, hc, fun rest hr => ?_⟩
    rw [number_integer h hr hv]
    rfl
  | negInt h h0 hv =>
    obtain ⟨c, cs, rfl, hc, _⟩ := digits_cons h.1
    refine ⟨false, c, cs, rfl, hc, fun rest hr => ?_⟩
    rw [number_integer h hr (by omega)]
    unfold integerEnd
    rw [if_neg (by decide), if_neg (by omega)]
  | posFloat h hint he hb hs hv =>
    obtain ⟨c, cs, rfl, hc, hread⟩ := easy true h hint he hb ⟨fun _ => hs, fun _ => rfl⟩ (by rw [if_pos rfl]; exact hv)
    exact ⟨true, c, cs, rfl, hc, hread⟩
  | negFloat h hint he hb hs hv =>
    obtain ⟨c, cs, rfl, hc, hread⟩ := easy false h hint he hb ⟨fun h => (by cases h), fun h => absurd hs (by omega)⟩ (by rw [if_neg (by decide)]; exact hv)
    exact ⟨false, c, cs, rfl, hc, hread⟩

/-- **C84**, in part: JSON is read as the value that it stands for, if it is nested at most 127 deep and its
numbers are integers of 64 bits or have few digits. -/
theorem C84_exact_partial {s : List Char} {j : SJValue} (h : JsonText JsonExact 127 s j) : parse s = some j :=
  parse_complete exact_reads h

/-- A text with white space, escapes, a number with few digits, and a key twice. -/
example : parse " {\"\\u0061\" : 1, \"a\":[ 25e-1 ] }\n".toList =
    some (.object [(['a'], .array [.number (.float 0x4004000000000000)])]) := by
  have h25 : JsonExact "25e-1".toList (.float 0x4004000000000000) := by
    have e : signed true (roundTo 25 (-1)) = 0x4004000000000000 := by decide +kernel
    have h := roundTo_nearest (d := 25) (k := -1) (by decide +kernel)
    rw [e] at h
    refine .posFloat (int := ['2', '5']) (frac := []) (e := -1)
      ⟨[], ['e', '-', '1'], rfl, ⟨⟨by decide, by decide⟩, by decide⟩, .inl ⟨rfl, rfl⟩, .minus (.inl rfl) ⟨by decide, by decide⟩⟩
      (by decide) ⟨by decide, by decide, by decide⟩ (by unfold F64Finite; decide) (by decide) h
  have hblank : ∀ s : List Char, (∀ c ∈ s, c = ' ' ∨ c = '\n') → JsonBlank s := by
    intro s h c hc
    rcases h c hc with rfl | rfl <;> simp [JsonSpace]
  have harr : JsonDoc JsonExact 126 "[ 25e-1 ]".toList (.array [.number (.float 0x4004000000000000)]) :=
    .array (es := [⟨[' '], "25e-1".toList, [' '], .number (.float 0x4004000000000000)⟩]) (by simp)
      (by simp only [List.mem_singleton, forall_eq]; exact ⟨hblank _ (by decide), hblank _ (by decide)⟩)
      (by simp only [List.mem_singleton, forall_eq]; exact .number _ h25)
  have hm : Gathered [(['a'], .number (.posInt 1)), (['a'], .array [.number (.float 0x4004000000000000)])]
      [(['a'], .array [.number (.float 0x4004000000000000)])] := gathered_collect _
  have hobj : JsonDoc JsonExact 127 "{\"\\u0061\" : 1, \"a\":[ 25e-1 ] }".toList
      (.object [(['a'], .array [.number (.float 0x4004000000000000)])]) :=
    .object (ms := [⟨[], "\\u0061".toList, ['a'], [' '], ⟨[' '], ['1'], [], .number (.posInt 1)⟩⟩,
        ⟨[' '], ['a'], ['a'], [], ⟨[], "[ 25e-1 ]".toList, [' '], .array [.number (.float 0x4004000000000000)]⟩⟩]) (by simp)
      (by
        simp only [List.mem_cons, List.not_mem_nil, or_false, forall_eq_or_imp, forall_eq]
        exact ⟨⟨hblank _ (by decide), hblank _ (by decide), hblank _ (by decide), hblank _ (by decide)⟩,
          hblank _ (by decide), hblank _ (by decide), hblank _ (by decide), hblank _ (by decide)⟩)
      (by
        simp only [List.mem_cons, List.not_mem_nil, or_false, forall_eq_or_imp, forall_eq]
        exact ⟨.unit (u := "0061".toList) (c := 'a') (.mk (x := 0) (y := 0) (z := 6) (w := 1) (by decide) (by decide) (by decide) (by decide)) .nil,
          .plain (by decide) (by decide) (by decide) .nil⟩)
      (by
        simp only [List.mem_cons, List.not_mem_nil, or_false, forall_eq_or_imp, forall_eq]
        exact ⟨.number _ (.posInt (ds := ['1']) ⟨⟨by decide, by decide⟩, by decide⟩ (by decide)), harr⟩)
      hm
  exact C84_exact_partial ⟨[' '], _, ['\n'], rfl, hblank _ (by decide), hblank _ (by decide), hobj⟩

/-- A text stands for something else if the numbers do. -/
theorem doc_map {N N' : List Char → SJNumber → Prop} (hN : ∀ t n, N t n → ∃ n', N' t n') {d : Nat} {t : List Char} {j : SJValue}
    (h : JsonDoc N d t j) : ∃ j', JsonDoc N' d t j' := by
  induction h with
  | null d => exact ⟨_, .null d⟩
  | true d => exact ⟨_, .true d⟩
  | false d => exact ⟨_, .false d⟩
  | number d h =>
    obtain ⟨n', h'⟩ := hN _ _ h
    exact ⟨_, .number d h'⟩
  | string d h => exact ⟨_, .string d h⟩
  | emptyArray d hw => exact ⟨_, .emptyArray d hw⟩
  | emptyObject d hw => exact ⟨_, .emptyObject d hw⟩
  | @array d es hne hw h ih =>
    obtain ⟨es', h1, h2, h3⟩ : ∃ es' : List JsonElement, es'.map JsonElement.whole = es.map JsonElement.whole ∧
        (∀ e ∈ es', JsonBlank e.before ∧ JsonBlank e.after) ∧ ∀ e ∈ es', JsonDoc N' d e.text e.value := by
      clear hne
      induction es with
      | nil => exact ⟨[], rfl, by simp, by simp⟩
      | cons e es ih' =>
        obtain ⟨es', h1, h2, h3⟩ := ih' (fun x hx => hw x (by simp [hx])) (fun x hx => h x (by simp [hx]))
          (fun x hx => ih x (by simp [hx]))
        obtain ⟨v, hv⟩ := ih e (by simp)
        refine ⟨⟨e.before, e.text, e.after, v⟩ :: es', ?_, ?_, ?_⟩
        · rw [List.map_cons, List.map_cons, h1]
          rfl
        · intro x hx
          rcases List.mem_cons.mp hx with rfl | hx
          · exact hw e (by simp)
          · exact h2 x hx
        · intro x hx
          rcases List.mem_cons.mp hx with rfl | hx
          · exact hv
          · exact h3 x hx
    have hne' : es' ≠ [] := by
      rintro rfl
      exact hne (List.map_eq_nil_iff.mp h1.symm)
    have := JsonDoc.array hne' h2 h3
    rw [h1] at this
    exact ⟨_, this⟩
  | @object d ms m hne hw hk h hm ih =>
    obtain ⟨ms', h1, h2, h3, h4⟩ : ∃ ms' : List JsonMember, ms'.map JsonMember.whole = ms.map JsonMember.whole ∧
        (∀ x ∈ ms', JsonBlank x.before ∧ JsonBlank x.middle ∧ JsonBlank x.element.before ∧ JsonBlank x.element.after) ∧
        (∀ x ∈ ms', JsonChars x.keyText x.key) ∧ ∀ x ∈ ms', JsonDoc N' d x.element.text x.element.value := by
      clear hne hm
      induction ms with
      | nil => exact ⟨[], rfl, by simp, by simp, by simp⟩
      | cons e es ih' =>
        obtain ⟨es', h1, h2, h3, h4⟩ := ih' (fun x hx => hw x (by simp [hx])) (fun x hx => hk x (by simp [hx]))
          (fun x hx => h x (by simp [hx])) (fun x hx => ih x (by simp [hx]))
        obtain ⟨v, hv⟩ := ih e (by simp)
        refine ⟨⟨e.before, e.keyText, e.key, e.middle, ⟨e.element.before, e.element.text, e.element.after, v⟩⟩ :: es', ?_, ?_, ?_, ?_⟩
        · rw [List.map_cons, List.map_cons, h1]
          rfl
        · intro x hx
          rcases List.mem_cons.mp hx with rfl | hx
          · exact hw e (by simp)
          · exact h2 x hx
        · intro x hx
          rcases List.mem_cons.mp hx with rfl | hx
          · exact hk e (by simp)
          · exact h3 x hx
        · intro x hx
          rcases List.mem_cons.mp hx with rfl | hx
          · exact hv
          · exact h4 x hx
    have hne' : ms' ≠ [] := by
      rintro rfl
      exact hne (List.map_eq_nil_iff.mp h1.symm)
    have := JsonDoc.object hne' h2 h3 h4 (gathered_collect _)
    rw [h1] at this
    exact ⟨_, this⟩

/-- **C84**, in part: every JSON text is read, if it is nested at most 127 deep and its numbers fit
floats. -/
theorem C84_complete_partial {s : List Char} {j : SJValue} (h : JsonText (fun t _ => JsonToken t) 127 s j) :
    ∃ j', parse s = some j' := by
  obtain ⟨before, t, after, rfl, hb, ha, hdoc⟩ := h
  obtain ⟨j', hj'⟩ := doc_map (N' := fun t n => ∃ pos c cs, t = (if pos then c :: cs else '-' :: c :: cs) ∧ c ∈ decimalDigits ∧
    ∀ rest, Stops rest → number pos (c :: cs ++ rest) = some (n, rest)) (fun t n ht => by
      have key : ∀ (pos : Bool) {t int frac : List Char} {e : Int}, JsonReal t int frac e → t.length ≤ 2 ^ 30 →
          realValue int frac e ≤ 17976 * 10 ^ 304 → ∃ n c cs, t = c :: cs ∧ c ∈ decimalDigits ∧ ∀ rest, Stops rest → number pos (t ++ rest) = some (n, rest) := by
        intro pos t int frac e h hl hs
        obtain ⟨n, hn⟩ := number_fits pos h hl hs
        obtain ⟨fr, ex, rfl, hw, _⟩ := h
        obtain ⟨c, cs, rfl, hc, _⟩ := digits_cons hw.1
        exact ⟨n, c, cs ++ fr ++ ex, by simp, hc, hn⟩
      cases ht with
      | pos h hl hs =>
        obtain ⟨n, c, cs, rfl, hc, hn⟩ := key true h hl hs
        exact ⟨n, true, c, cs, rfl, hc, hn⟩
      | neg h hl hs =>
        obtain ⟨n, c, cs, rfl, hc, hn⟩ := key false h hl hs
        exact ⟨n, false, c, cs, rfl, hc, hn⟩) hdoc
  exact ⟨j', parse_complete (fun t n h => h) ⟨before, t, after, rfl, hb, ha, hj'⟩⟩

example : ∃ j, parse "[123456789012345678901234567890,-0.1E-9999]".toList = some j := by
  have h1 : JsonToken "123456789012345678901234567890".toList :=
    .pos (t := "123456789012345678901234567890".toList) (int := "123456789012345678901234567890".toList) (frac := []) (e := 0)
      ⟨[], [], by simp, ⟨⟨by decide, by decide⟩, by decide⟩, .inl ⟨rfl, rfl⟩, .none⟩ (by decide)
      (fits_of_digits (by decide) (by decide))
  have h2 : JsonToken "-0.1E-9999".toList :=
    .neg (int := ['0']) (frac := ['1']) (e := -9999)
      ⟨['.', '1'], "E-9999".toList, rfl, ⟨⟨by decide, by decide⟩, by decide⟩, .inr ⟨⟨by decide, by decide⟩, rfl⟩,
        .minus (.inr rfl) ⟨by decide, by decide⟩⟩ (by decide) (fits_of_digits (by decide) (by decide))
  refine C84_complete_partial ⟨[], _, [], rfl, blank_nil, blank_nil,
    .array (es := [⟨[], "123456789012345678901234567890".toList, [], .number (.posInt 0)⟩,
      ⟨[], "-0.1E-9999".toList, [], .number (.posInt 0)⟩]) (by simp) ?_ ?_⟩
  · simp only [List.mem_cons, List.not_mem_nil, or_false, forall_eq_or_imp, forall_eq]
    exact ⟨⟨blank_nil, blank_nil⟩, blank_nil, blank_nil⟩
  · simp only [List.mem_cons, List.not_mem_nil, or_false, forall_eq_or_imp, forall_eq]
    exact ⟨.number _ h1, .number _ h2⟩

/-- **C84**, in part: numbers that are too large for floats are rejected. -/
theorem C84_range_partial {t int frac : List Char} {e : Int} (h : JsonReal t int frac e) (hl : t.length ≤ 2 ^ 30)
    (hq : 17977 * 10 ^ 304 < realValue int frac e) : parse t = none ∧ parse ('-' :: t) = none := by
  have hchars := real_chars h
  have hno : ∀ c ∈ '-' :: t, ¬ JsonSpace c ∧ c ≠ 'n' ∧ c ≠ 't' ∧ c ≠ 'f' ∧ c ≠ '"' ∧ c ≠ '[' ∧ c ≠ '{' := by
    intro c hc
    have : c ∈ decimalDigits ∨ c = '.' ∨ c = 'e' ∨ c = 'E' ∨ c = '+' ∨ c = '-' := by
      rcases List.mem_cons.mp hc with rfl | hc
      · simp
      · exact hchars c hc
    have hd : ∀ c ∈ decimalDigits ++ ['.', 'e', 'E', '+', '-'],
        ¬ JsonSpace c ∧ c ≠ 'n' ∧ c ≠ 't' ∧ c ≠ 'f' ∧ c ≠ '"' ∧ c ≠ '[' ∧ c ≠ '{' := by
      unfold JsonSpace
      decide
    exact hd c (by simpa using this)
  have key : ∀ s j, (∀ c ∈ s, c ∈ '-' :: t) → parse s = some j → ∃ n, JsonClose s n := by
    intro s j hs hj
    obtain ⟨before, x, after, rfl, hb, ha, hd⟩ := C84_close_partial hj
    have hb0 : before = [] := by
      cases before with
      | nil => rfl
      | cons c cs => exact absurd (hb c (by simp)) (hno c (hs c (by simp))).1
    have ha0 : after = [] := by
      cases after with
      | nil => rfl
      | cons c cs => exact absurd (ha c (by simp)) (hno c (hs c (by simp))).1
    subst hb0 ha0
    simp only [List.nil_append, List.append_nil] at hs ⊢
    have hh : ∀ c cs, x = c :: cs → c ≠ 'n' ∧ c ≠ 't' ∧ c ≠ 'f' ∧ c ≠ '"' ∧ c ≠ '[' ∧ c ≠ '{' :=
      fun c cs e => (hno c (hs c (by rw [e]; simp))).2
    cases hd with
    | null => exact absurd rfl (hh _ _ (show "null".toList = 'n' :: ['u', 'l', 'l'] from rfl)).1
    | true => exact absurd rfl (hh _ _ (show "true".toList = 't' :: ['r', 'u', 'e'] from rfl)).2.1
    | false => exact absurd rfl (hh _ _ (show "false".toList = 'f' :: ['a', 'l', 's', 'e'] from rfl)).2.2.1
    | number _ h => exact ⟨_, h⟩
    | string => exact absurd rfl (hh _ _ rfl).2.2.2.1
    | emptyArray => exact absurd rfl (hh _ _ rfl).2.2.2.2.1
    | array => exact absurd rfl (hh _ _ rfl).2.2.2.2.1
    | emptyObject => exact absurd rfl (hh _ _ rfl).2.2.2.2.2
    | object => exact absurd rfl (hh _ _ rfl).2.2.2.2.2
  have hbig : ¬ realValue int frac e ≤ 17977 * 10 ^ 304 := not_le.mpr hq
  have whole : ∀ {ds : List Char}, JsonWhole ds → t = ds → digitsValue ds < 2 ^ 64 → False := by
    rintro ds hw rfl hv
    obtain ⟨rfl, rfl, rfl⟩ := real_unique h ⟨[], [], by simp, hw, .inl ⟨rfl, rfl⟩, .none⟩
    refine hbig ?_
    have h1 : realValue int [] 0 = (digitsValue int : ℚ) := by unfold realValue; simp
    rw [h1]
    have h2 : (digitsValue int : ℚ) ≤ 10 ^ 20 := by exact_mod_cast hv.le.trans (by decide)
    have h3 : (10 : ℚ) ^ 20 ≤ 10 ^ 304 := pow_le_pow_right₀ (by norm_num) (by norm_num)
    have h4 : (0 : ℚ) ≤ 10 ^ 304 := by positivity
    generalize (10 : ℚ) ^ 304 = T at *
    linarith
  have float : ∀ {int' frac' : List Char} {e' : Int} {b : UInt64} {q : ℚ}, JsonReal t int' frac' e' → F64Finite b →
      (t.length ≤ 2 ^ 30 → Close b q) → |q| = realValue int' frac' e' → False := by
    intro int' frac' e' b q h' hb hv he
    obtain ⟨rfl, rfl, rfl⟩ := real_unique h h'
    exact hbig (he ▸ close_fits hb (hv hl))
  have hminus : ∀ c cs, t = c :: cs → c ≠ '-' := by
    rintro c cs rfl rfl
    obtain ⟨fr, ex, h1, hw, _⟩ := h
    obtain ⟨c, cs, rfl, hc, _⟩ := digits_cons hw.1
    rw [List.cons_append, List.cons_append, List.cons.injEq] at h1
    rw [← h1.1] at hc
    exact minus_not_digit hc
  constructor
  · cases hj : parse t with
    | none => rfl
    | some j =>
      exfalso
      obtain ⟨n, hn⟩ := key t j (fun c hc => by simp [hc]) hj
      cases hn with
      | posInt hw hv => exact whole hw rfl hv
      | negInt => exact hminus _ _ rfl rfl
      | posFloat h' _ hb _ hv => exact float h' hb hv (abs_of_nonneg (realValue_nonneg _ _ _))
      | negFloat => exact hminus _ _ rfl rfl
  · cases hj : parse ('-' :: t) with
    | none => rfl
    | some j =>
      exfalso
      obtain ⟨n, hn⟩ := key ('-' :: t) j (fun c hc => hc) hj
      have hm : ∀ {ds : List Char}, JsonWhole ds → '-' :: t = ds → False := by
        rintro ds hw rfl
        exact minus_not_digit (hw.1.2 '-' (by simp))
      generalize hs : '-' :: t = s at hn
      cases hn with
      | posInt hw hv => exact hm hw hs
      | negInt hw h0 hv =>
        rw [List.cons.injEq] at hs
        exact whole hw hs.2 (by omega)
      | posFloat h' _ hb _ hv =>
        obtain ⟨fr, ex, h1, hw, _⟩ := h'
        obtain ⟨c, cs, rfl, hc, _⟩ := digits_cons hw.1
        rw [h1, List.cons_append, List.cons_append, List.cons.injEq] at hs
        rw [← hs.1] at hc
        exact minus_not_digit hc
      | negFloat h' _ hb _ hv =>
        rw [List.cons.injEq] at hs
        obtain ⟨_, rfl⟩ := hs
        exact float h' hb hv (by rw [abs_neg, abs_of_nonneg (realValue_nonneg _ _ _)])

example : parse "1e309".toList = none := by
  refine (C84_range_partial (int := ['1']) (frac := []) (e := 309)
    ⟨[], "e309".toList, rfl, ⟨⟨by decide, by decide⟩, by decide⟩, .inl ⟨rfl, rfl⟩, .plain (.inl rfl) ⟨by decide, by decide⟩⟩
    (by decide) ?_).1
  unfold realValue
  have h1 : digitsValue (['1'] ++ []) = 1 := by decide
  rw [h1, Nat.cast_one, one_mul]
  show (17977 : ℚ) * 10 ^ 304 < 10 ^ (309 : Int)
  calc (17977 : ℚ) * 10 ^ 304 < 10 ^ 5 * 10 ^ 304 := mul_lt_mul_of_pos_right (by norm_num) (by positivity)
    _ = 10 ^ (309 : Int) := by rw [← pow_add]; rfl

/-- **C84** is false for numbers with many digits: the float that is read is not the nearest one. -/
theorem C84_refuted_float : ∃ t int frac e b, JsonReal t int frac e ∧ t ≠ int ∧ parse t = some (.number (.float b)) ∧
    ¬ Nearest b (realValue int frac e) := by
  refine ⟨"9007199254740991.0".toList, "9007199254740991".toList, ['0'], 0, _,
    ⟨['.', '0'], [], by decide, ⟨⟨by decide, by decide⟩, by decide⟩, .inr ⟨⟨by decide, by decide⟩, rfl⟩, .none⟩,
    by decide, parse_witness.2, fun h => ?_⟩
  have hn := roundTo_nearest (d := 90071992547409910) (k := -1) (by decide +kernel)
  have ev : realValue "9007199254740991".toList ['0'] 0 = ((90071992547409910 : Nat) : ℚ) * 10 ^ (-1 : Int) := by
    unfold realValue
    have : digitsValue ("9007199254740991".toList ++ ['0']) = 90071992547409910 := by decide +kernel
    rw [this]
    rfl
  rw [ev] at h
  have e : (0x433FFFFFFFFFFFFE : UInt64) = signed true 0x433FFFFFFFFFFFFE := by decide
  rw [e] at h
  have := nearest_unique (by positivity) (by decide) (by decide +kernel) h hn
  exact absurd this (by decide +kernel)

/-- **C84** is false for texts that are nested too deep: they are not read. -/
theorem C84_refuted_deep : ∃ s j, JsonText JsonExact 128 s j ∧ parse s = none := by
  let deep : Nat → SJValue := fun n => Nat.rec .null (fun _ j => .array [j]) n
  have h : ∀ n, (deep n).Made (fun _ => False) ∧ (deep n).depth = n := by
    intro n
    induction n with
    | zero => exact ⟨.null, rfl⟩
    | succ n ih =>
      refine ⟨.array fun x hx => ?_, ?_⟩
      · rw [List.mem_singleton] at hx
        exact hx ▸ ih.1
      · show 1 + max (deep n).depth 0 = n + 1
        rw [ih.2]
        omega
  refine ⟨print (deep 128), deep 128, ⟨[], _, [], by simp, blank_nil, blank_nil, print_doc ?_ (h 128).1 (by rw [(h 128).2])⟩, ?_⟩
  · intro n hn
    cases hn with
    | @posInt n h =>
      have hv := (natText_spec n).2.2
      have := JsonExact.posInt (whole_natText n) (by rw [hv]; exact h)
      rwa [hv] at this
    | @negInt n h h0 =>
      have hv := (natText_spec n.natAbs).2.2
      have := JsonExact.negInt (whole_natText n.natAbs) (by rw [hv]; omega) (by rw [hv]; omega)
      rw [hv, show (-(n.natAbs : Int)) = n by omega] at this
      rw [numberText, intText, if_pos h0]
      exact this
    | float _ h => exact h.elim
  · rw [← Option.isNone_iff_eq_none]
    decide +kernel

end Souris
