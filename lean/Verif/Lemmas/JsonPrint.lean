import Verif.Lemmas.JsonFloatText
import Verif.Lemmas.JsonValue

/-! # Printed values are JSON -/

namespace Souris

namespace SerdeJson

variable {N : List Char → SJNumber → Prop} {P : UInt64 → Prop}

/-! ## Nesting -/

theorem depth_mem {vs : List SJValue} {v : SJValue} (h : v ∈ vs) : v.depth ≤ SJValue.depthList vs := by
  induction vs with
  | nil => simp at h
  | cons x xs ih =>
    simp only [SJValue.depthList]
    rcases List.mem_cons.mp h with rfl | h
    · exact le_max_left _ _
    · exact le_trans (ih h) (le_max_right _ _)

theorem depth_mem_entries {es : List (List Char × SJValue)} {k : List Char} {v : SJValue} (h : (k, v) ∈ es) :
    v.depth ≤ SJValue.depthEntries es := by
  induction es with
  | nil => simp at h
  | cons x xs ih =>
    obtain ⟨k', v'⟩ := x
    simp only [SJValue.depthEntries]
    rcases List.mem_cons.mp h with h | h
    · cases h
      exact le_max_left _ _
    · exact le_trans (ih h) (le_max_right _ _)

theorem depthList_le {vs : List SJValue} {d : Nat} (h : ∀ v ∈ vs, v.depth ≤ d) : SJValue.depthList vs ≤ d := by
  induction vs with
  | nil => simp [SJValue.depthList]
  | cons x xs ih =>
    simp only [SJValue.depthList]
    exact max_le (h x (by simp)) (ih fun v hv => h v (by simp [hv]))

theorem depthEntries_le {es : List (List Char × SJValue)} {d : Nat} (h : ∀ k v, (k, v) ∈ es → v.depth ≤ d) :
    SJValue.depthEntries es ≤ d := by
  induction es with
  | nil => simp [SJValue.depthEntries]
  | cons x xs ih =>
    obtain ⟨k, v⟩ := x
    simp only [SJValue.depthEntries]
    exact max_le (h k v (by simp)) (ih fun k' v' hv => h k' v' (by simp [hv]))

/-- What a text stands for is not nested deeper. -/
theorem doc_depth {d : Nat} {t : List Char} {j : SJValue} (h : JsonDoc N d t j) : j.depth ≤ d := by
  induction h with
  | null | true | false | number | string => simp [SJValue.depth]
  | emptyArray => simp [SJValue.depth, SJValue.depthList]
  | emptyObject => simp [SJValue.depth, SJValue.depthEntries]
  | @array d es hne hw h ih =>
    have : SJValue.depthList (es.map JsonElement.value) ≤ d := by
      refine depthList_le fun v hv => ?_
      obtain ⟨e, he, rfl⟩ := List.mem_map.mp hv
      exact ih e he
    simp only [SJValue.depth]
    omega
  | @object d ms m hne hw hk h hm ih =>
    have : SJValue.depthEntries m ≤ d := by
      refine depthEntries_le fun k v hv => ?_
      obtain ⟨front, back, he, _⟩ := (hm.2 k v).mp hv
      have hmem : (k, v) ∈ ms.map fun x => (x.key, x.element.value) := by rw [he]; simp
      obtain ⟨x, hx, e⟩ := List.mem_map.mp hmem
      cases e
      exact ih x hx
    simp only [SJValue.depth]
    omega

/-! ## Lists -/

theorem printList_eq (vs : List SJValue) : printList vs = vs.map print := by
  induction vs with
  | nil => rfl
  | cons v vs ih => rw [printList, ih]; rfl

theorem printEntries_eq (es : List (List Char × SJValue)) :
    printEntries es = es.map fun e => strText e.1 ++ ':' :: print e.2 := by
  induction es with
  | nil => rfl
  | cons e es ih => obtain ⟨k, v⟩ := e; rw [printEntries, ih]; rfl

theorem prettyList_eq (l : Nat) (vs : List SJValue) : prettyList l vs = vs.map (pretty l) := by
  induction vs with
  | nil => rfl
  | cons v vs ih => rw [prettyList, ih]; rfl

theorem prettyEntries_eq (l : Nat) (es : List (List Char × SJValue)) :
    prettyEntries l es = es.map fun e => strText e.1 ++ ':' :: ' ' :: pretty l e.2 := by
  induction es with
  | nil => rfl
  | cons e es ih => obtain ⟨k, v⟩ := e; rw [prettyEntries, ih]; rfl

/-- Elements with the same white space in front of each, and some behind the last. -/
def elsOf (f : SJValue → List Char) (b a : List Char) : List SJValue → List JsonElement
  | [] => []
  | [v] => [⟨b, f v, a, v⟩]
  | v :: vs => ⟨b, f v, [], v⟩ :: elsOf f b a vs

/-- Members with the same white space in front of each, some behind each colon, and some behind the last. -/
def memsOf (f : SJValue → List Char) (b c a : List Char) : List (List Char × SJValue) → List JsonMember
  | [] => []
  | [e] => [⟨b, e.1.flatMap escapeChar, e.1, [], ⟨c, f e.2, a, e.2⟩⟩]
  | e :: es => ⟨b, e.1.flatMap escapeChar, e.1, [], ⟨c, f e.2, [], e.2⟩⟩ :: memsOf f b c a es

theorem elsOf_mem {f : SJValue → List Char} {b a : List Char} {vs : List SJValue} {e : JsonElement} (h : e ∈ elsOf f b a vs) :
    e.before = b ∧ (e.after = [] ∨ e.after = a) ∧ e.value ∈ vs ∧ e.text = f e.value := by
  induction vs with
  | nil => simp [elsOf] at h
  | cons v vs ih =>
    cases vs with
    | nil =>
      simp only [elsOf, List.mem_singleton] at h
      subst h
      simp
    | cons w ws =>
      simp only [elsOf, List.mem_cons] at h
      rcases h with rfl | h
      · simp
      · obtain ⟨h1, h2, h3, h4⟩ := ih (by simpa only [elsOf, List.mem_cons] using h)
        exact ⟨h1, h2, by simp [h3], h4⟩

theorem memsOf_mem {f : SJValue → List Char} {b c a : List Char} {es : List (List Char × SJValue)} {x : JsonMember}
    (h : x ∈ memsOf f b c a es) : x.before = b ∧ x.middle = [] ∧ x.element.before = c ∧
      (x.element.after = [] ∨ x.element.after = a) ∧ x.keyText = x.key.flatMap escapeChar ∧
      (x.key, x.element.value) ∈ es ∧ x.element.text = f x.element.value := by
  induction es with
  | nil => simp [memsOf] at h
  | cons v vs ih =>
    cases vs with
    | nil =>
      simp only [memsOf, List.mem_singleton] at h
      subst h
      simp
    | cons w ws =>
      simp only [memsOf, List.mem_cons] at h
      rcases h with rfl | h
      · simp
      · obtain ⟨h1, h2, h3, h4, h5, h6, h7⟩ := ih (by simpa only [memsOf, List.mem_cons] using h)
        exact ⟨h1, h2, h3, h4, h5, by simp [h6], h7⟩

theorem elsOf_value (f : SJValue → List Char) (b a : List Char) (vs : List SJValue) :
    (elsOf f b a vs).map JsonElement.value = vs := by
  induction vs with
  | nil => rfl
  | cons v vs ih =>
    cases vs with
    | nil => rfl
    | cons w ws =>
      rw [elsOf, List.map_cons, ih]
      simp

theorem memsOf_value (f : SJValue → List Char) (b c a : List Char) (es : List (List Char × SJValue)) :
    (memsOf f b c a es).map (fun x => (x.key, x.element.value)) = es := by
  induction es with
  | nil => rfl
  | cons v vs ih =>
    cases vs with
    | nil => rfl
    | cons w ws =>
      rw [memsOf, List.map_cons, ih]
      simp

theorem elsOf_ne {f : SJValue → List Char} {b a : List Char} {vs : List SJValue} (h : vs ≠ []) : elsOf f b a vs ≠ [] := by
  intro e
  have := elsOf_value f b a vs
  rw [e] at this
  exact h this.symm

theorem memsOf_ne {f : SJValue → List Char} {b c a : List Char} {es : List (List Char × SJValue)} (h : es ≠ []) :
    memsOf f b c a es ≠ [] := by
  intro e
  have := memsOf_value f b c a es
  rw [e] at this
  exact h this.symm

/-- Texts of a list with commas, white space in front of each. -/
def spread (b : List Char) : List (List Char) → List Char
  | [] => []
  | [x] => b ++ x
  | x :: xs => b ++ x ++ ',' :: spread b xs

theorem spread_cons (b x y : List Char) (ys : List (List Char)) :
    spread b (x :: y :: ys) = b ++ x ++ ',' :: spread b (y :: ys) := rfl

theorem commas_spread (xs : List (List Char)) : commas xs = spread [] xs := by
  induction xs with
  | nil => rfl
  | cons x xs ih =>
    cases xs with
    | nil => rfl
    | cons y ys =>
      rw [commas, spread, ih]
      · rfl
      · simp
      · simp

theorem lines_spread (l : Nat) (xs : List (List Char)) : lines l xs = spread (newLine l) xs := by
  induction xs with
  | nil => rfl
  | cons x xs ih =>
    cases xs with
    | nil => rfl
    | cons y ys =>
      rw [lines, spread, ih]
      · simp
      · simp

theorem elsOf_text (f : SJValue → List Char) (b a : List Char) {vs : List SJValue} (h : vs ≠ []) :
    [','].intercalate ((elsOf f b a vs).map JsonElement.whole) = spread b (vs.map f) ++ a := by
  induction vs with
  | nil => exact absurd rfl h
  | cons v vs ih =>
    cases vs with
    | nil => simp [elsOf, spread, JsonElement.whole]
    | cons w ws =>
      have := ih (by simp)
      obtain ⟨e, es, he⟩ := List.exists_cons_of_ne_nil (elsOf_ne (f := f) (b := b) (a := a) (vs := w :: ws) (by simp))
      rw [elsOf, List.map_cons, he]
      · rw [he] at this
        rw [List.map_cons, List.intercalate_cons_cons, ← List.map_cons, this]
        rw [List.map_cons, List.map_cons, List.map_cons, spread_cons]
        simp [JsonElement.whole]
      · simp

theorem memsOf_text (f : SJValue → List Char) (b c a : List Char) {es : List (List Char × SJValue)} (h : es ≠ []) :
    [','].intercalate ((memsOf f b c a es).map JsonMember.whole) =
      spread b (es.map fun e => strText e.1 ++ ':' :: (c ++ f e.2)) ++ a := by
  induction es with
  | nil => exact absurd rfl h
  | cons v vs ih =>
    cases vs with
    | nil => simp [memsOf, spread, JsonMember.whole, JsonElement.whole, strText]
    | cons w ws =>
      have := ih (by simp)
      obtain ⟨e, es, he⟩ := List.exists_cons_of_ne_nil (memsOf_ne (f := f) (b := b) (c := c) (a := a) (es := w :: ws) (by simp))
      rw [memsOf, List.map_cons, he]
      · rw [he] at this
        rw [List.map_cons, List.intercalate_cons_cons, ← List.map_cons, this]
        rw [List.map_cons, List.map_cons, List.map_cons, spread_cons]
        simp [JsonMember.whole, JsonElement.whole, strText]
      · simp

/-! ## Documents -/

theorem array_doc {f : SJValue → List Char} {b a : List Char} (hb : JsonBlank b) (ha : JsonBlank a) {d : Nat} {vs : List SJValue}
    (hne : vs ≠ []) (h : ∀ v ∈ vs, JsonDoc N d (f v) v) :
    JsonDoc N (d + 1) ('[' :: (spread b (vs.map f) ++ a ++ [']'])) (.array vs) := by
  have := JsonDoc.array (N := N) (d := d) (es := elsOf f b a vs) (elsOf_ne hne)
    (fun e he => by
      obtain ⟨h1, h2, _⟩ := elsOf_mem he
      refine ⟨by rw [h1]; exact hb, ?_⟩
      rcases h2 with h2 | h2 <;> rw [h2]
      · exact blank_nil
      · exact ha)
    (fun e he => by
      obtain ⟨_, _, h3, h4⟩ := elsOf_mem he
      rw [h4]
      exact h _ h3)
  rwa [elsOf_text f b a hne, elsOf_value] at this

theorem object_doc {f : SJValue → List Char} {b c a : List Char} (hb : JsonBlank b) (hc : JsonBlank c) (ha : JsonBlank a) {d : Nat}
    {m : List (List Char × SJValue)} (hne : m ≠ []) (ho : m.Pairwise (fun a b => SJValue.keyLt a.1 b.1 = true))
    (h : ∀ k v, (k, v) ∈ m → JsonDoc N d (f v) v) :
    JsonDoc N (d + 1) ('{' :: (spread b (m.map fun e => strText e.1 ++ ':' :: (c ++ f e.2)) ++ a ++ ['}'])) (.object m) := by
  have := JsonDoc.object (N := N) (d := d) (ms := memsOf f b c a m) (m := m) (memsOf_ne hne)
    (fun e he => by
      obtain ⟨h1, h2, h3, h4, _⟩ := memsOf_mem he
      refine ⟨by rw [h1]; exact hb, by rw [h2]; exact blank_nil, by rw [h3]; exact hc, ?_⟩
      rcases h4 with h4 | h4 <;> rw [h4]
      · exact blank_nil
      · exact ha)
    (fun e he => by
      obtain ⟨_, _, _, _, h5, _⟩ := memsOf_mem he
      rw [h5]
      exact strText_chars _)
    (fun e he => by
      obtain ⟨_, _, _, _, _, h6, h7⟩ := memsOf_mem he
      rw [h7]
      exact h _ _ h6)
    (by
      rw [memsOf_value]
      have := gathered_collect m
      rwa [collect_eq (sorted_iff.mp ho) (List.Perm.refl _)] at this)
  rwa [memsOf_text f b c a hne] at this

theorem print_doc (hN : ∀ n, SJValue.Made P (.number n) → N (numberText n) n) {j : SJValue} (h : j.Made P) {d : Nat}
    (hd : j.depth ≤ d) : JsonDoc N d (print j) j := by
  induction h generalizing d with
  | null => exact .null d
  | bool b => cases b <;> [exact .false d; exact .true d]
  | posInt h => exact .number d (hN _ (.posInt h))
  | negInt h h0 => exact .number d (hN _ (.negInt h h0))
  | float h hp => exact .number d (hN _ (.float h hp))
  | string s => exact .string d (strText_chars s)
  | @array a h ih =>
    simp only [SJValue.depth] at hd
    obtain ⟨d, rfl⟩ : ∃ d', d = d' + 1 := ⟨d - 1, by omega⟩
    rw [print, printList_eq, commas_spread]
    cases a with
    | nil => exact .emptyArray d blank_nil
    | cons v vs =>
      have := array_doc (N := N) (f := print) (d := d) blank_nil blank_nil (vs := v :: vs) (by simp)
        (fun x hx => ih x hx (by have := depth_mem hx; omega))
      rwa [List.append_nil] at this
  | @object m ho h ih =>
    simp only [SJValue.depth] at hd
    obtain ⟨d, rfl⟩ : ∃ d', d = d' + 1 := ⟨d - 1, by omega⟩
    rw [print, printEntries_eq, commas_spread]
    cases m with
    | nil => exact .emptyObject d blank_nil
    | cons e es =>
      have := object_doc (N := N) (f := print) (d := d) blank_nil blank_nil blank_nil (m := e :: es) (by simp) ho
        (fun k x hx => ih k x hx (by have := depth_mem_entries hx; omega))
      rwa [List.append_nil] at this

theorem newLine_blank (l : Nat) : JsonBlank (newLine l) := by
  intro c hc
  unfold newLine at hc
  rcases List.mem_cons.mp hc with rfl | hc
  · simp [JsonSpace]
  · rw [List.eq_of_mem_replicate hc]
    simp [JsonSpace]

theorem pretty_doc (hN : ∀ n, SJValue.Made P (.number n) → N (numberText n) n) {j : SJValue} (h : j.Made P) {d : Nat}
    (hd : j.depth ≤ d) (l : Nat) : JsonDoc N d (pretty l j) j := by
  induction h generalizing d l with
  | null => exact .null d
  | bool b => cases b <;> [exact .false d; exact .true d]
  | posInt h => exact .number d (hN _ (.posInt h))
  | negInt h h0 => exact .number d (hN _ (.negInt h h0))
  | float h hp => exact .number d (hN _ (.float h hp))
  | string s => exact .string d (strText_chars s)
  | @array a h ih =>
    simp only [SJValue.depth] at hd
    obtain ⟨d, rfl⟩ : ∃ d', d = d' + 1 := ⟨d - 1, by omega⟩
    cases a with
    | nil => exact .emptyArray d blank_nil
    | cons v vs =>
      rw [pretty, prettyList_eq, lines_spread]
      exact array_doc (newLine_blank _) (newLine_blank _) (by simp)
        (fun x hx => ih x hx (by have := depth_mem hx; omega) _)
  | @object m ho h ih =>
    simp only [SJValue.depth] at hd
    obtain ⟨d, rfl⟩ : ∃ d', d = d' + 1 := ⟨d - 1, by omega⟩
    cases m with
    | nil => exact .emptyObject d blank_nil
    | cons e es =>
      rw [pretty, prettyEntries_eq, lines_spread]
      have hsp : JsonBlank [' '] := by
        intro c hc
        rw [List.mem_singleton] at hc
        subst hc
        simp [JsonSpace]
      exact object_doc (newLine_blank _) hsp (newLine_blank _) (by simp) ho
        (fun k x hx => ih k x hx (by have := depth_mem_entries hx; omega) _)

/-! ## Numbers -/

/-- The texts of numbers whose floats are of the class `P`. -/
def Printed (P : UInt64 → Prop) (t : List Char) (n : SJNumber) : Prop := SJValue.Made P (.number n) ∧ t = numberText n

theorem whole_natText (n : Nat) : JsonWhole (natText n) :=
  ⟨⟨(natText_spec n).1, (natText_spec n).2.1⟩, natText_head n⟩

theorem printed_reads {Q : UInt64 → Prop} (hQ : ∀ b, F64Finite b → Q b → FewDigits b) : Reads (Printed Q) := by
  rintro t n ⟨hm, rfl⟩
  cases hm with
  | @posInt n h =>
    obtain ⟨c, cs, he, hc, _⟩ := digits_cons (whole_natText n).1
    refine ⟨true, c, cs, by rw [if_pos rfl]; exact he, hc, fun rest hr => ?_⟩
    rw [← he, number_integer (whole_natText n) hr (by rw [(natText_spec n).2.2]; exact h), (natText_spec n).2.2]
    rfl
  | @negInt n h h0 =>
    obtain ⟨c, cs, he, hc, _⟩ := digits_cons (whole_natText n.natAbs).1
    have hv := (natText_spec n.natAbs).2.2
    refine ⟨false, c, cs, ?_, hc, fun rest hr => ?_⟩
    · rw [numberText, intText, if_pos h0, he, if_neg (by decide)]
    · rw [← he, number_integer (whole_natText n.natAbs) hr (by rw [hv]; omega), hv]
      have : integerEnd false n.natAbs = .negInt n := by
        unfold integerEnd
        rw [if_neg (by decide), if_neg (by omega)]
        congr 1
        omega
      rw [this]
  | @float b hf hp => exact floatText_reads hf (hQ b hf hp)

end SerdeJson

end Souris
