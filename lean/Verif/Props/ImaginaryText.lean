import Verif.Lemmas.ImaginaryText
import Verif.Lemmas.JsonSame
import Verif.Props.ImaginarySerde

/-! # C98: complex numbers straight to JSON text and back -/

namespace Souris

open Imaginary SerdeJson

/-! ## Numbers -/

theorem numberField_sound {cs : List Char} {n : SJNumber} {rest : List Char} (h : numberField cs = some (n, rest)) :
    ∃ w t, JsonBlank w ∧ cs = w ++ (t ++ rest) ∧ JsonClose t n := by
  obtain ⟨w, hw, e⟩ := skip_split cs
  unfold numberField at h
  split at h
  · cases h
  rename_i c r hs
  rw [hs] at e
  split_ifs at h with h1 h2
  · obtain ⟨t, rfl, ht⟩ := number_close h
    subst h1
    exact ⟨w, '-' :: t, hw, e, ht⟩
  · obtain ⟨t, et, ht⟩ := number_close h
    rw [et] at e
    exact ⟨w, t, hw, e, ht⟩

theorem numberField_reads {pos : Bool} {c : Char} {cs : List Char} (hc : c ∈ decimalDigits) {w : List Char} (hw : JsonBlank w)
    (rest : List Char) :
    numberField (w ++ ((if pos then c :: cs else '-' :: c :: cs) ++ rest)) = number pos (c :: cs ++ rest) := by
  unfold numberField
  rw [skip_blank hw]
  cases pos with
  | true =>
    simp only [if_true, List.cons_append]
    rw [skip_cons (digit_head hc).1]
    simp only [(digit_head hc).2.2.2.2.2.2.2, if_false]
    rw [if_pos]
    exact Option.isSome_iff_exists.mpr ⟨_, digitOf_of_mem hc⟩
  | false =>
    simp only [Bool.false_eq_true, if_false, List.cons_append]
    rw [skip_cons (by decide)]
    simp

theorem number_made {t : List Char} {n : SJNumber} (h : JsonClose t n) : SJValue.Made (fun _ => True) (.number n) := by
  cases h with
  | posInt _ hv => exact .posInt hv
  | negInt _ h0 hv => exact .negInt (by omega) (by omega)
  | posFloat _ _ hb => exact .float hb trivial
  | negFloat _ _ hb => exact .float hb trivial

theorem intFieldOf_sound (cs : List Char) (i : Integer) (rest : List Char) (h : intFieldOf cs = some (i, rest)) :
    ∃ w t, JsonBlank w ∧ cs = w ++ (t ++ rest) ∧ IntegerPart t i := by
  unfold intFieldOf at h
  split at h
  · cases h
  rename_i n r hn
  obtain ⟨w, t, hw, e, ht⟩ := numberField_sound hn
  simp only [Option.map_eq_some_iff, Prod.mk.injEq] at h
  obtain ⟨i', hi, rfl, rfl⟩ := h
  obtain ⟨h1, h2⟩ := readInt_sound (number_made ht) hi
  exact ⟨w, t, hw, e, h1, n, ht, h2⟩

theorem floatFieldOf_sound (cs : List Char) (b : UInt64) (rest : List Char) (h : floatFieldOf cs = some (b, rest)) :
    ∃ w t, JsonBlank w ∧ cs = w ++ (t ++ rest) ∧ FloatPart t b := by
  unfold floatFieldOf at h
  split at h
  · cases h
  rename_i n r hn
  obtain ⟨w, t, hw, e, ht⟩ := numberField_sound hn
  simp only [Option.map_eq_some_iff, Prod.mk.injEq] at h
  obtain ⟨i', hi, rfl, rfl⟩ := h
  exact ⟨w, t, hw, e, n, ht, readFloat_sound (number_made ht) hi⟩

theorem field_names : "real".toList ≠ "imaginary".toList ∧ "modulus".toList ≠ "argument".toList := by decide

/-- **C98**, straight from text: whatever is read says the number that is read. `ignore` is how the values of other
members are skipped, and `S` what they may be. -/
theorem C98_direct_sound {ignore : List Char → Option (List Char)} {S : List Char → Prop}
    (hi : ∀ cs rest, ignore cs = some rest → ∃ w t, JsonBlank w ∧ cs = w ++ (t ++ rest) ∧ S t)
    {s : List Char} {z : Imaginary} (h : ofJsonText ignore s = some z) : ComplexText S s z := by
  obtain ⟨w0, hw0, e0⟩ := skip_split s
  unfold ofJsonText at h
  split at h
  · cases h
  rename_i c r hs
  rw [hs] at e0
  split_ifs at h with h1
  subst h1
  split at h
  · cases h
  rename_i z' cs hv
  obtain ⟨w5, hw5, e5⟩ := skip_split cs
  split at h
  · cases h
  rename_i c' r' hs'
  rw [hs'] at e5
  split_ifs at h with h2
  obtain ⟨rfl, h3⟩ := h2
  cases h
  have hw6 := skip_nil_iff.mp h3
  subst e5
  obtain ⟨w1, hw1, e1⟩ := skip_split r
  unfold variantOf at hv
  split at hv
  · cases hv
  rename_i c1 r1 hs1
  rw [hs1] at e1
  split_ifs at hv with h4
  subst h4
  split at hv
  · cases hv
  rename_i name cs1 hname
  obtain ⟨kt, rfl, hkt⟩ := str_sound hname
  split_ifs at hv with h5 h6
  · split at hv
    · cases hv
    rename_i cs2 hcol
    obtain ⟨w2, hw2, rfl⟩ := colon_sound hcol
    simp only [Option.map_eq_some_iff, Prod.mk.injEq] at hv
    obtain ⟨⟨⟨a, b⟩, cs3⟩, hf, rfl, rfl⟩ := hv
    obtain ⟨w3, t, hw3, rfl, ht⟩ := fields_sound field_names.1 intFieldOf_sound hi hf
    refine .cartesian ⟨w0, ⟨w1, kt, name, w2, w3, t, w5⟩, r', hw0, hw6, ⟨hw1, hkt, hw2, hw3, hw5⟩, h5, ht, ?_⟩
    rw [e0, e1]
    simp [MemberText.whole]
  · split at hv
    · cases hv
    rename_i cs2 hcol
    obtain ⟨w2, hw2, rfl⟩ := colon_sound hcol
    simp only [Option.map_eq_some_iff, Prod.mk.injEq] at hv
    obtain ⟨⟨⟨a, b⟩, cs3⟩, hf, rfl, rfl⟩ := hv
    obtain ⟨w3, t, hw3, rfl, ht⟩ := fields_sound field_names.2 floatFieldOf_sound hi hf
    refine .polar ⟨w0, ⟨w1, kt, name, w2, w3, t, w5⟩, r', hw0, hw6, ⟨hw1, hkt, hw2, hw3, hw5⟩, h6, ht, ?_⟩
    rw [e0, e1]
    simp [MemberText.whole]

/-! ## Texts that are read -/

/-- A text of a number is read as this part, wherever it stands. -/
def ReadsPart {α : Type} (read : List Char → Option (α × List Char)) (t : List Char) (a : α) : Prop :=
  (∃ (pos : Bool) (c : Char) (cs : List Char), t = (if pos then c :: cs else '-' :: c :: cs) ∧ c ∈ decimalDigits) ∧
  ∀ w rest, JsonBlank w → Stops rest → read (w ++ (t ++ rest)) = some (a, rest)

theorem ReadsPart.head {α : Type} {read : List Char → Option (α × List Char)} (t : List Char) (a : α) (h : ReadsPart read t a) :
    ∃ c cs, t = c :: cs ∧ ws c = false ∧ c ≠ ']' := by
  obtain ⟨⟨pos, c, cs, rfl, hc⟩, _⟩ := h
  cases pos with
  | true => exact ⟨c, cs, rfl, (digit_head hc).1, (digit_head hc).2.1⟩
  | false => exact ⟨'-', c :: cs, rfl, by decide, by decide⟩

theorem close_whole_reads {t : List Char} {n : SJNumber} (h : JsonClose t n) {z : Int} (hz : WholeNumber (.number n) z) :
    ∃ pos c cs, t = (if pos then c :: cs else '-' :: c :: cs) ∧ c ∈ decimalDigits ∧
      ∀ rest, Stops rest → number pos (c :: cs ++ rest) = some (n, rest) := by
  cases h with
  | posInt hw hv =>
    obtain ⟨c, cs, rfl, hc, _⟩ := digits_cons hw.1
    exact ⟨true, c, cs, rfl, hc, fun rest hr => by rw [number_integer hw hr hv]; rfl⟩
  | negInt hw h0 hv =>
    obtain ⟨c, cs, rfl, hc, _⟩ := digits_cons hw.1
    refine ⟨false, c, cs, rfl, hc, fun rest hr => ?_⟩
    rw [number_integer hw hr (by omega)]
    unfold integerEnd
    rw [if_neg (by decide), if_neg (by omega)]
  | posFloat => cases hz
  | negFloat => cases hz

theorem integerPart_reads {t : List Char} {i : Integer} (h : IntegerPart t i) :
    ∃ i', ReadsPart intFieldOf t i' ∧ i'.Native ∧ i'.value = i.value := by
  obtain ⟨_, n, h1, h2⟩ := h
  obtain ⟨i', e, hn, hv⟩ := readInt_complete (number_made h1) h2
  obtain ⟨pos, c, cs, rfl, hc, hr⟩ := close_whole_reads h1 h2
  refine ⟨i', ⟨⟨pos, c, cs, rfl, hc⟩, fun w rest hw hrest => ?_⟩, hn, hv⟩
  unfold intFieldOf
  rw [numberField_reads hc hw, hr rest hrest]
  simp only [e, Option.map_some]

theorem number_readFloat (n : SJNumber) : ∃ b, readFloat (.number n) = some b := by
  cases n <;> exact ⟨_, rfl⟩

theorem token_reads {t : List Char} (h : JsonToken t) : ∃ b, ReadsPart floatFieldOf t b := by
  have key : ∀ (pos : Bool) {t int frac : List Char} {e : Int}, JsonReal t int frac e → t.length ≤ 2 ^ 30 →
      realValue int frac e ≤ 17976 * 10 ^ 304 → ∃ b, ReadsPart floatFieldOf (if pos then t else '-' :: t) b := by
    intro pos t int frac e h hl hs
    obtain ⟨n, hn⟩ := number_fits pos h hl hs
    obtain ⟨fr, ex, rfl, hw, _⟩ := h
    obtain ⟨c, cs, rfl, hc, _⟩ := digits_cons hw.1
    obtain ⟨b, hb⟩ := number_readFloat n
    refine ⟨b, ⟨pos, c, cs ++ fr ++ ex, by simp, hc⟩, fun w rest hw' hr => ?_⟩
    unfold floatFieldOf
    have hn := hn rest hr
    simp only [List.cons_append] at hn ⊢
    rw [numberField_reads hc hw']
    simp only [List.cons_append, hn, hb, Option.map_some]
  cases h with
  | pos h hl hs => exact key true h hl hs
  | neg h hl hs => exact key false h hl hs

theorem PairText.map {α β : Type} {N : List Char → α → Prop} {N' : List Char → β → Prop} {R : α → β → Prop}
    {S : List Char → Prop} {k k' : List Char} (hN : ∀ t a, N t a → ∃ a', N' t a' ∧ R a a') {t : List Char} {a b : α}
    (h : PairText N S k k' t a b) : ∃ a' b', PairText N' S k k' t a' b' ∧ R a a' ∧ R b b' := by
  cases h with
  | object hm ha hb hs =>
    obtain ⟨f1, x1, b1, e1, k1, n1, o1⟩ := ha
    obtain ⟨f2, x2, b2, e2, k2, n2, o2⟩ := hb
    obtain ⟨a', ha', ra⟩ := hN _ _ n1
    obtain ⟨b', hb', rb⟩ := hN _ _ n2
    exact ⟨a', b', .object hm ⟨f1, x1, b1, e1, k1, ha', o1⟩ ⟨f2, x2, b2, e2, k2, hb', o2⟩ hs, ra, rb⟩
  | array h1 h2 h3 h4 ha hb =>
    obtain ⟨a', ha', ra⟩ := hN _ _ ha
    obtain ⟨b', hb', rb⟩ := hN _ _ hb
    exact ⟨a', b', .array h1 h2 h3 h4 ha' hb', ra, rb⟩

section complete

variable {ignore : List Char → Option (List Char)} {S : List Char → Prop}
  (hi : ∀ t, S t → ∀ w rest, JsonBlank w → Stops rest → ignore (w ++ (t ++ rest)) = some rest)

include hi

omit hi in
theorem named_reads {name : List Char} {s : List Char} {P : List Char → Prop} (h : NamedText name P s) {z : Imaginary}
    (hP : ∀ t, P t → ∀ kt mid w rest, JsonChars kt name → JsonBlank mid → JsonBlank w →
      variantOf ignore ('"' :: (kt ++ '"' :: (mid ++ ':' :: (w ++ (t ++ rest))))) = some (z, rest)) :
    ofJsonText ignore s = some z := by
  obtain ⟨w, m, w', hw, hw', ⟨m1, m2, m3, m4, m5⟩, rfl, ht, rfl⟩ := h
  have h1 := hP _ ht m.keyText m.middle m.inner (m.after ++ '}' :: w') m2 m3 m4
  have h2 : variantOf ignore (m.whole ++ '}' :: w') = variantOf ignore
      ('"' :: (m.keyText ++ '"' :: (m.middle ++ ':' :: (m.inner ++ (m.value ++ (m.after ++ '}' :: w')))))) := by
    have e : m.whole ++ '}' :: w' = m.before ++ '"' :: (m.keyText ++ '"' :: (m.middle ++ ':' :: (m.inner ++
        (m.value ++ (m.after ++ '}' :: w'))))) := by simp [MemberText.whole]
    rw [e]
    unfold variantOf
    rw [skip_blank m1]
  unfold ofJsonText
  rw [skip_blank hw, skip_cons (by decide)]
  simp only [if_true, h2, h1]
  rw [skip_blank m5, skip_cons (by decide)]
  simp only [true_and]
  rw [if_pos (skip_nil_iff.mpr hw')]

theorem cartesian_reads {s : List Char} {re im : Integer} (h : NamedText "CartesianForm".toList
      (PairText (ReadsPart intFieldOf) S "real".toList "imaginary".toList · re im) s) :
    ofJsonText ignore s = some (.cartesian re im) := by
  refine named_reads h fun t ht kt mid w rest h1 h2 h3 => ?_
  unfold variantOf
  rw [skip_cons (by decide)]
  simp only [if_true]
  rw [str_complete h1 (by simp)]
  have e : ("CartesianForm".toList : List Char) = kCartesian := rfl
  simp only [e, if_true, colon_complete h2]
  have := fields_complete field_names.1 (fun t a h => h.2) ReadsPart.head hi ht h3 rest
  simp only [show Value.kReal = "real".toList from rfl, show Value.kImaginary = "imaginary".toList from rfl, this]
  rfl

theorem polar_reads {s : List Char} {md ar : UInt64} (h : NamedText "PolarForm".toList
      (PairText (ReadsPart floatFieldOf) S "modulus".toList "argument".toList · md ar) s) :
    ofJsonText ignore s = some (.polar md ar) := by
  refine named_reads h fun t ht kt mid w rest h1 h2 h3 => ?_
  unfold variantOf
  rw [skip_cons (by decide)]
  simp only [if_true]
  rw [str_complete h1 (by simp)]
  have e : ("PolarForm".toList : List Char) = kPolar := rfl
  have ne : kPolar ≠ kCartesian := by decide
  simp only [e, if_neg ne, if_true, colon_complete h2]
  have := fields_complete field_names.2 (fun t a h => h.2) ReadsPart.head hi ht h3 rest
  simp only [show Value.kModulus = "modulus".toList from rfl, show Value.kArgument = "argument".toList from rfl, this]
  rfl

/-- **C98**, straight from text: a text that says a complex number with whole parts is read, with these parts, whatever
the order of the members and whatever others there are. -/
theorem C98_direct_cartesian {s : List Char} {re im : Integer} (h : ComplexText S s (.cartesian re im)) :
    ∃ re' im', ofJsonText ignore s = some (.cartesian re' im') ∧ re'.value = re.value ∧ im'.value = im.value := by
  cases h with
  | cartesian h =>
    obtain ⟨w, m, w', hw, hw', hm, hk, ht, hs⟩ := h
    obtain ⟨a, b, hp, ha, hb⟩ := PairText.map (N' := ReadsPart intFieldOf) (R := fun i i' => i'.Native ∧ i'.value = i.value)
      (fun t a h => integerPart_reads h) ht
    exact ⟨a, b, cartesian_reads hi ⟨w, m, w', hw, hw', hm, hk, hp, hs⟩, ha.2, hb.2⟩

/-- **C98**, straight from text: a text with two numbers that fit floats, in the place of modulus and argument, is
read. What is read is about the two numbers (`C98_direct_sound`). -/
theorem C98_direct_polar {s : List Char} (h : NamedText "PolarForm".toList
      (PairText (fun t (_ : Unit) => JsonToken t) S "modulus".toList "argument".toList · () ()) s) :
    ∃ md ar, ofJsonText ignore s = some (.polar md ar) := by
  obtain ⟨w, m, w', hw, hw', hm, hk, ht, hs⟩ := h
  obtain ⟨a, b, hp, _⟩ := PairText.map (N' := ReadsPart floatFieldOf) (R := fun _ _ => True)
    (fun t a h => by obtain ⟨b, hb⟩ := token_reads h; exact ⟨b, hb, trivial⟩) ht
  exact ⟨a, b, polar_reads hi ⟨w, m, w', hw, hw', hm, hk, hp, hs⟩⟩

end complete

/-! ## What is written -/

theorem variantText_named {α : Type} {N : List Char → α → Prop} (S : List Char → Prop) {name k k' x y : List Char} {a b : α}
    (hk : k ≠ k') (hx : N x a) (hy : N y b) : NamedText name (PairText N S k k' · a b) (variantText name k x k' y) := by
  have mem : ∀ n v : List Char, (⟨[], n.flatMap escapeChar, n, [], [], v, []⟩ : MemberText).Right := fun n v =>
    ⟨blank_nil, strText_chars n, blank_nil, blank_nil, blank_nil⟩
  refine ⟨[], ⟨[], name.flatMap escapeChar, name, [], [], _, []⟩, [], blank_nil, blank_nil, mem _ _, rfl,
    .object (ms := [⟨[], k.flatMap escapeChar, k, [], [], x, []⟩, ⟨[], k'.flatMap escapeChar, k', [], [], y, []⟩])
      ?_ ⟨[], _, _, rfl, rfl, hx, ?_⟩ ⟨[_], _, [], rfl, rfl, hy, ?_⟩ ?_, ?_⟩
  · intro m hm
    simp only [List.mem_cons, List.not_mem_nil, or_false] at hm
    rcases hm with rfl | rfl <;> exact mem _ _
  · simpa using hk.symm
  · simpa using hk
  · intro m hm h1 h2
    simp only [List.mem_cons, List.not_mem_nil, or_false] at hm
    rcases hm with rfl | rfl
    · exact absurd rfl h1
    · exact absurd rfl h2
  · simp [variantText, strText, MemberText.whole, List.intercalate_cons_cons]

/-- If one of the two parts cannot be read, nothing is. -/
theorem variant_fails {α : Type} {read : List Char → Option (α × List Char)} {ignore : List Char → Option (List Char)}
    {k k' x y : List Char} (hk : k ≠ k')
    (h : (∀ rest, Stops rest → read (x ++ rest) = none) ∨
      ((∃ o : Option α, ∀ rest, Stops rest → read (x ++ rest) = o.map (·, rest)) ∧ ∀ rest, Stops rest → read (y ++ rest) = none)) (rest : List Char) :
    fieldsOf read ignore k k' ('{' :: (strText k ++ ':' :: (x ++ ',' :: (strText k' ++ ':' :: (y ++ '}' :: rest))))) = none := by
  have hs : ∀ n r, str ((n.flatMap escapeChar ++ '"' :: r).length + 1) (n.flatMap escapeChar ++ '"' :: r) = some (n, r) :=
    fun n r => str_complete (strText_chars n) (by simp) r
  have hc : ∀ r, colon (':' :: r) = some r := fun r => colon_complete blank_nil r
  have e : ∀ n r, strText n ++ r = '"' :: (n.flatMap escapeChar ++ '"' :: r) := fun n r => by simp [strText]
  have hx : Stops (',' :: (strText k' ++ ':' :: (y ++ '}' :: rest))) := stops_cons (by decide) _
  have hy : Stops ('}' :: rest) := stops_cons (by decide) _
  unfold fieldsOf
  rw [skip_cons (by decide)]
  simp only [show ('{' : Char) ≠ '[' by decide, if_false, if_true]
  rw [members, e k, skip_cons (by decide)]
  simp only [show ('"' : Char) ≠ '}' by decide, if_false, if_true, hs, hc]
  rcases h with h | ⟨⟨_ | a, h⟩, h'⟩
  · rw [h _ hx]
  · rw [h _ hx]
    rfl
  · rw [h _ hx]
    simp only [Option.map_some]
    generalize hf : ('"' :: _ : List Char).length = f
    obtain ⟨f, rfl⟩ : ∃ f', f = f' + 1 := ⟨f - 1, by simp at hf; omega⟩
    rw [members, skip_cons (by decide), e k']
    simp only [show (',' : Char) ≠ '}' by decide, if_false, if_true, Bool.false_eq_true]
    rw [skip_cons (by decide)]
    simp only [if_true, hs, hc, if_neg hk.symm, h' _ hy]

theorem ofJsonText_fails {ignore : List Char → Option (List Char)} {name k x k' y : List Char}
    (h : name = kCartesian ∧ (∀ rest, fieldsOf intFieldOf ignore Value.kReal Value.kImaginary
        ('{' :: (strText k ++ ':' :: (x ++ ',' :: (strText k' ++ ':' :: (y ++ '}' :: rest))))) = none) ∨
      name = kPolar ∧ (∀ rest, fieldsOf floatFieldOf ignore Value.kModulus Value.kArgument
        ('{' :: (strText k ++ ':' :: (x ++ ',' :: (strText k' ++ ':' :: (y ++ '}' :: rest))))) = none)) :
    ofJsonText ignore (variantText name k x k' y) = none := by
  have hs : ∀ n r, str ((n.flatMap escapeChar ++ '"' :: r).length + 1) (n.flatMap escapeChar ++ '"' :: r) = some (n, r) :=
    fun n r => str_complete (strText_chars n) (by simp) r
  have hc : ∀ r, colon (':' :: r) = some r := fun r => colon_complete blank_nil r
  have e : ∀ n r, strText n ++ r = '"' :: (n.flatMap escapeChar ++ '"' :: r) := fun n r => by simp [strText]
  unfold ofJsonText variantText
  rw [skip_cons (by decide)]
  simp only [if_true]
  have hv : variantOf ignore (strText name ++ ':' :: '{' :: (strText k ++ ':' :: (x ++ ',' :: (strText k' ++ ':' :: (y ++ ['}', '}'])))))
      = none := by
    unfold variantOf
    rw [e name, skip_cons (by decide)]
    simp only [if_true, hs, hc]
    rcases h with ⟨rfl, h⟩ | ⟨rfl, h⟩
    · simp only [if_true, h ['}'], Option.map_none]
    · simp only [show kPolar ≠ kCartesian by decide, if_false, if_true, h ['}'], Option.map_none]
  rw [hv]

/-- Digits of integers, as parts. -/
theorem intText_part {i : Integer} (hi : i.Native) :
    (-(2 ^ 63) ≤ i.value ∧ i.value < 2 ^ 64 → IntegerPart (intText i.value) i) ∧
    (¬ (-(2 ^ 63) ≤ i.value ∧ i.value < 2 ^ 64) → ∀ rest, Stops rest → intFieldOf (intText i.value ++ rest) = none) := by
  constructor
  · intro h
    refine ⟨hi, ?_⟩
    generalize i.value = z at *
    unfold intText
    have hv := (natText_spec z.natAbs).2.2
    split
    · rename_i h0
      have := JsonClose.negInt (whole_natText z.natAbs) (by rw [hv]; omega) (by rw [hv]; omega)
      rw [hv, show (-(z.natAbs : Int)) = z by omega] at this
      exact ⟨_, this, .neg z⟩
    · rename_i h0
      have := JsonClose.posInt (whole_natText z.natAbs) (by rw [hv]; omega)
      rw [hv] at this
      have hz := WholeNumber.pos z.natAbs
      rw [show ((z.natAbs : Nat) : Int) = z by omega] at hz
      exact ⟨_, this, hz⟩
  · intro h rest hrest
    generalize i.value = z at *
    have hv := (natText_spec z.natAbs).2.2
    obtain ⟨c, cs, he, hc, _⟩ := digits_cons (whole_natText z.natAbs).1
    have hreal : JsonReal (natText z.natAbs) (natText z.natAbs) [] 0 :=
      ⟨[], [], by simp, whole_natText _, .inl ⟨rfl, rfl⟩, .none⟩
    have fails : ∀ pos, (∃ o : Option (UInt64 × List Char), number pos (natText z.natAbs ++ rest) = o.map fun r => (.float r.1, r.2)) →
        (if pos then natText z.natAbs else '-' :: natText z.natAbs) = intText z → intFieldOf (intText z ++ rest) = none := by
      rintro pos ⟨o, ho⟩ ht
      unfold intFieldOf
      rw [← ht]
      have := numberField_reads (pos := pos) (cs := cs) hc blank_nil rest
      rw [List.nil_append] at this
      rw [he] at ho ⊢
      rw [this, ho]
      cases o with
      | none => rfl
      | some r => rfl
    have big : ∀ pos, 2 ^ 64 ≤ z.natAbs → ∃ o : Option (UInt64 × List Char),
        number pos (natText z.natAbs ++ rest) = o.map fun r => (.float r.1, r.2) := by
      intro pos hb
      obtain ⟨ex, _, sig, e, _, h3⟩ := number_real pos hreal (fun _ => by rw [hv]; exact hb)
      exact ⟨_, h3 rest hrest⟩
    by_cases h0 : z < 0
    · refine fails false ?_ (by unfold intText; rw [if_pos h0, if_neg (by decide)])
      rcases Nat.lt_or_ge z.natAbs (2 ^ 64) with hlt | hge
      · rw [number_integer (whole_natText _) hrest (by rw [hv]; exact hlt), hv]
        unfold integerEnd
        rw [if_neg (by decide), if_pos (.inr (by omega))]
        exact ⟨some (_, rest), rfl⟩
      · exact big false hge
    · exact fails true (big true (by omega)) (by unfold intText; rw [if_neg h0, if_pos rfl])

/-- **C98**, straight to text: a complex number with whole parts made from Rust integers is always written, as an object
with its form and its two parts, in digits. It is read back with the same parts exactly if they fit 64 bits; otherwise
reading is an error. -/
theorem C98_direct_cartesian_partial (ignore : List Char → Option (List Char)) {re im : Integer} (hre : re.Native) (him : im.Native) :
    ∃ s, toJsonText (.cartesian re im) = .ok s ∧
      NamedText "CartesianForm".toList (PairText (fun t (i : Integer) => JsonInt t i.value) (fun _ => False)
        "real".toList "imaginary".toList · re im) s ∧
      ((-(2 ^ 63) ≤ re.value ∧ re.value < 2 ^ 64) ∧ (-(2 ^ 63) ≤ im.value ∧ im.value < 2 ^ 64) →
        ∃ re' im', ofJsonText ignore s = some (.cartesian re' im') ∧ re'.value = re.value ∧ im'.value = im.value) ∧
      (¬ ((-(2 ^ 63) ≤ re.value ∧ re.value < 2 ^ 64) ∧ (-(2 ^ 63) ≤ im.value ∧ im.value < 2 ^ 64)) →
        ofJsonText ignore s = none) := by
  refine ⟨_, by simp only [toJsonText]; rw [toJsonText_eq hre, toJsonText_eq him]; rfl,
    variantText_named _ field_names.1 (intText_json _) (intText_json _), fun ⟨h1, h2⟩ => ?_, fun h => ?_⟩
  · exact C98_direct_cartesian (S := fun _ => False) (fun t h => h.elim)
      (.cartesian (variantText_named _ field_names.1 ((intText_part hre).1 h1) ((intText_part him).1 h2)))
  · refine ofJsonText_fails (.inl ⟨rfl, fun rest => variant_fails field_names.1 ?_ rest⟩)
    by_cases h1 : -(2 ^ 63) ≤ re.value ∧ re.value < 2 ^ 64
    · obtain ⟨i, ⟨_, hr⟩, _⟩ := integerPart_reads ((intText_part hre).1 h1)
      exact .inr ⟨⟨some i, fun rest hrest => hr [] rest blank_nil hrest⟩, (intText_part him).2 fun h2 => h ⟨h1, h2⟩⟩
    · exact .inl ((intText_part hre).2 h1)

theorem floatFieldText_eq (b : UInt64) : (F64Finite b → floatFieldText b = floatText b) ∧
    (¬ F64Finite b → floatFieldText b = ['n', 'u', 'l', 'l']) := by
  unfold floatFieldText SJValue.ofF64
  constructor
  · intro h; rw [if_pos (f64Finite_iff b |>.mpr h)]
  · intro h; rw [if_neg fun h' => h (f64Finite_iff b |>.mp h')]

theorem null_fails (rest : List Char) : floatFieldOf (['n', 'u', 'l', 'l'] ++ rest) = none := by
  unfold floatFieldOf numberField
  rw [List.cons_append, skip_cons (by decide)]
  rfl

theorem near_reads {b : UInt64} (h : F64Finite b ∧ |f64Value b| ≤ 17975 * 10 ^ 304) :
    ∃ b', FloatNear b b' ∧ ReadsPart floatFieldOf (floatText b) b' := by
  obtain ⟨b', h1, pos, c, cs, h2, h3, h4⟩ := floatText_near h.1 h.2
  refine ⟨b', h1, ⟨pos, c, cs, h2, h3⟩, fun w rest hw hr => ?_⟩
  unfold floatFieldOf
  rw [h2, numberField_reads h3 hw, h4 rest hr]
  rfl

theorem few_reads {b : UInt64} (h : F64Finite b) (hf : FewDigits b) : ReadsPart floatFieldOf (floatText b) b := by
  obtain ⟨pos, c, cs, h2, h3, h4⟩ := floatText_reads h hf
  refine ⟨⟨pos, c, cs, h2, h3⟩, fun w rest hw hr => ?_⟩
  unfold floatFieldOf
  rw [h2, numberField_reads h3 hw, h4 rest hr]
  rfl

theorem finite_same {b : UInt64} (h : F64Finite b) :
    ∃ o : Option UInt64, ∀ rest, Stops rest → floatFieldOf (floatText b ++ rest) = o.map (·, rest) := by
  have key : ∀ (pos : Bool) {t int frac : List Char} {e : Int}, JsonReal t int frac e →
      ∃ o : Option UInt64, ∀ rest, Stops rest → floatFieldOf ((if pos then t else '-' :: t) ++ rest) = o.map (·, rest) := by
    intro pos t int frac e h
    obtain ⟨o, ho⟩ := number_same pos h
    obtain ⟨fr, ex, rfl, hw, _⟩ := h
    obtain ⟨c, cs, rfl, hc, _⟩ := digits_cons hw.1
    refine ⟨o.bind fun n => readFloat (.number n), fun rest hr => ?_⟩
    have h1 := numberField_reads (pos := pos) (cs := cs ++ fr ++ ex) hc blank_nil rest
    have h2 := ho rest hr
    simp only [List.cons_append, List.nil_append] at h1 h2 ⊢
    unfold floatFieldOf
    rw [h1, h2]
    cases o <;> rfl
  have ht := floatText_right h
  generalize floatText b = t at ht
  generalize hn : SJNumber.float b = n at ht
  cases ht with
  | posInt => cases hn
  | negInt => cases hn
  | posFloat h => exact key true h
  | negFloat h => exact key false h

/-- **C98**, straight to text: a complex number in polar form is always written. If both parts are finite floats not at
the very end of the range, it is read back, off by at most two parts in 10¹⁵, and exactly if the parts have few digits. A
part that is not finite is written as `null`, and then reading is an error. -/
theorem C98_direct_polar_partial (ignore : List Char → Option (List Char)) (md ar : UInt64) :
    ∃ s, toJsonText (.polar md ar) = .ok s ∧
      (F64Finite md ∧ F64Finite ar → NamedText "PolarForm".toList (PairText (fun t b => JsonRight t (.float b)) (fun _ => False)
        "modulus".toList "argument".toList · md ar) s) ∧
      ((F64Finite md ∧ |f64Value md| ≤ 17975 * 10 ^ 304) ∧ (F64Finite ar ∧ |f64Value ar| ≤ 17975 * 10 ^ 304) →
        ∃ md' ar', ofJsonText ignore s = some (.polar md' ar') ∧ FloatNear md md' ∧ FloatNear ar ar') ∧
      (F64Finite md ∧ F64Finite ar → FewDigits md → FewDigits ar → ofJsonText ignore s = some (.polar md ar)) ∧
      (¬ (F64Finite md ∧ F64Finite ar) → ofJsonText ignore s = none) := by
  refine ⟨_, rfl, fun ⟨h1, h2⟩ => ?_, fun ⟨h1, h2⟩ => ?_, fun ⟨h1, h2⟩ f1 f2 => ?_, fun h => ?_⟩
  · rw [(floatFieldText_eq md).1 h1, (floatFieldText_eq ar).1 h2]
    exact variantText_named _ field_names.2 (floatText_right h1) (floatText_right h2)
  · obtain ⟨md', n1, r1⟩ := near_reads h1
    obtain ⟨ar', n2, r2⟩ := near_reads h2
    refine ⟨md', ar', polar_reads (S := fun _ => False) (fun t h => h.elim) ?_, n1, n2⟩
    rw [(floatFieldText_eq md).1 h1.1, (floatFieldText_eq ar).1 h2.1]
    exact variantText_named _ field_names.2 r1 r2
  · refine polar_reads (S := fun _ => False) (fun t h => h.elim) ?_
    rw [(floatFieldText_eq md).1 h1, (floatFieldText_eq ar).1 h2]
    exact variantText_named _ field_names.2 (few_reads h1 f1) (few_reads h2 f2)
  · refine ofJsonText_fails (.inr ⟨rfl, fun rest => variant_fails field_names.2 ?_ rest⟩)
    by_cases h1 : F64Finite md
    · rw [(floatFieldText_eq md).1 h1, (floatFieldText_eq ar).2 fun h2 => h ⟨h1, h2⟩]
      exact .inr ⟨finite_same h1, fun rest _ => null_fails rest⟩
    · rw [(floatFieldText_eq md).2 h1]
      exact .inl fun rest _ => null_fails rest

/-- A text by somebody else: another order, white space, another member, and the array form. -/
example : ComplexText (fun t => t = ['1']) " {\"CartesianForm\" : {\"imaginary\":-2, \"x\":1,\"real\": 7 } }\n".toList
      (.cartesian (Integer.ofUnsigned 1 7) (Integer.ofSigned 1 (-2))) ∧
    ComplexText (fun _ => False) "{\"CartesianForm\":[7,-2]}".toList
      (.cartesian (Integer.ofUnsigned 1 7) (Integer.ofSigned 1 (-2))) := by
  have hw : Width 1 := by unfold Width; decide
  have hu : IsUnsigned 1 7 := by unfold IsUnsigned; decide
  have hs : IsSigned 1 (-2) := by unfold IsSigned; decide
  have h7 : IntegerPart ['7'] (Integer.ofUnsigned 1 7) :=
    ⟨.unsigned hw hu, .posInt 7, .posInt (ds := ['7']) ⟨⟨by decide, by decide⟩, by decide⟩ (by decide), by
      rw [(C01_value hw).1 7 hu]; exact .pos 7⟩
  have h2 : IntegerPart ['-', '2'] (Integer.ofSigned 1 (-2)) :=
    ⟨.signed hw hs, .negInt (-2), .negInt (ds := ['2']) ⟨⟨by decide, by decide⟩, by decide⟩ (by decide) (by decide), by
      rw [(C01_value hw).2 (-2) hs]; exact .neg (-2)⟩
  have b0 : JsonBlank [] := blank_nil
  have b1 : JsonBlank [' '] := by intro c hc; simp at hc; subst hc; unfold JsonSpace; decide
  have b2 : JsonBlank ['\n'] := by intro c hc; simp at hc; subst hc; unfold JsonSpace; decide
  have name : ∀ s : List Char, s.flatMap escapeChar = s → JsonChars s s := fun s h => by
    have := strText_chars s
    rwa [h] at this
  constructor
  · refine .cartesian ⟨[' '], ⟨[], "CartesianForm".toList, "CartesianForm".toList, [' '], [' '], _, [' ']⟩, ['\n'], b1, b2,
      ⟨b0, name _ (by decide), b1, b1, b1⟩, rfl,
      .object (ms := [⟨[], "imaginary".toList, "imaginary".toList, [], [], ['-', '2'], []⟩,
        ⟨[' '], ['x'], ['x'], [], [], ['1'], []⟩, ⟨[], "real".toList, "real".toList, [], [' '], ['7'], [' ']⟩])
        ?_ ⟨[_, _], _, [], rfl, rfl, h7, ?_⟩ ⟨[], _, [_, _], rfl, rfl, h2, ?_⟩ ?_, ?_⟩
    · intro m hm
      simp only [List.mem_cons, List.not_mem_nil, or_false] at hm
      rcases hm with rfl | rfl | rfl
      · exact ⟨b0, name _ (by decide), b0, b0, b0⟩
      · exact ⟨b1, name _ (by decide), b0, b0, b0⟩
      · exact ⟨b0, name _ (by decide), b0, b1, b1⟩
    · decide
    · decide
    · intro m hm q1 q2
      simp only [List.mem_cons, List.not_mem_nil, or_false] at hm
      rcases hm with rfl | rfl | rfl
      · exact absurd rfl q2
      · rfl
      · exact absurd rfl q1
    · decide
  · refine .cartesian ⟨[], ⟨[], "CartesianForm".toList, "CartesianForm".toList, [], [], _, []⟩, [], b0, b0,
      ⟨b0, name _ (by decide), b0, b0, b0⟩, rfl, .array (w1 := []) (w2 := []) (w3 := []) (w4 := []) b0 b0 b0 b0 h7 h2, by decide⟩

/-- Both forms as text. -/
example : toJsonText (.cartesian (Integer.ofUnsigned 16 (2 ^ 64)) (Integer.ofSigned 1 (-2))) =
    .ok "{\"CartesianForm\":{\"real\":18446744073709551616,\"imaginary\":-2}}".toList ∧
    toJsonText (.polar 0x4004000000000000 0x7FF0000000000000) =
      .ok "{\"PolarForm\":{\"modulus\":2.5,\"argument\":null}}".toList := by
  constructor <;> decide +kernel

/-- **C98** is violated by parts outside 64 bits also as text: they are written but cannot be read. -/
theorem C98_refuted_direct_large (ignore : List Char → Option (List Char)) : ∃ (re im : Integer) (s : List Char), re.Native ∧ im.Native ∧
    toJsonText (.cartesian re im) = .ok s ∧ ofJsonText ignore s = none := by
  have hw : Width 16 := by unfold Width; decide
  have hu : IsUnsigned 16 (2 ^ 64) := by unfold IsUnsigned; decide
  obtain ⟨s, h1, _, _, h2⟩ := C98_direct_cartesian_partial ignore (.unsigned hw hu) (.unsigned hw hu)
  exact ⟨_, _, s, .unsigned hw hu, .unsigned hw hu, h1, h2 fun h => by
    rw [(C01_value hw).1 _ hu] at h; exact absurd h.1.2 (by decide)⟩

end Souris
