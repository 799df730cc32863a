import Verif.Lemmas.JsonString
import Verif.Lemmas.JsonGather

/-! # Reading values in JSON text -/

namespace Souris

namespace SerdeJson

/-! ## White space -/

theorem skip_blank {w : List Char} (h : JsonBlank w) (r : List Char) : skip (w ++ r) = skip r := by
  induction w with
  | nil => rfl
  | cons c cs ih =>
    have hc : ws c = true := ws_iff.mpr (h c (by simp))
    simp only [skip, List.cons_append, List.dropWhile_cons, hc, if_true]
    exact ih (fun x hx => h x (by simp [hx]))

theorem skip_cons {c : Char} (h : ws c = false) (r : List Char) : skip (c :: r) = c :: r := by
  simp [skip, h]

theorem skip_split (cs : List Char) : ∃ w, JsonBlank w ∧ cs = w ++ skip cs :=
  ⟨cs.takeWhile ws, takeWs cs, List.takeWhile_append_dropWhile.symm⟩

theorem blank_nil : JsonBlank [] := by
  intro c hc
  simp at hc

theorem blank_append {a b : List Char} (ha : JsonBlank a) (hb : JsonBlank b) : JsonBlank (a ++ b) := by
  intro c hc
  rcases List.mem_append.mp hc with h | h
  · exact ha c h
  · exact hb c h

theorem skip_nil_iff {cs : List Char} : (skip cs).isEmpty = true ↔ JsonBlank cs := by
  constructor
  · intro h
    obtain ⟨w, hw, e⟩ := skip_split cs
    rw [List.isEmpty_iff.mp h, List.append_nil] at e
    rw [e]
    exact hw
  · intro h
    have := skip_blank h []
    rw [List.append_nil] at this
    rw [this]
    rfl

theorem space_stops {c : Char} (h : JsonSpace c) : c ∉ decimalDigits ∧ c ≠ '.' ∧ c ≠ 'e' ∧ c ≠ 'E' := by
  unfold JsonSpace at h
  simp only [List.mem_cons, List.not_mem_nil, or_false] at h
  rcases h with rfl | rfl | rfl | rfl <;> decide

theorem stops_nil : Stops [] := by
  intro c hc
  simp at hc

theorem stops_cons {c : Char} (h : c ∉ decimalDigits ∧ c ≠ '.' ∧ c ≠ 'e' ∧ c ≠ 'E') (r : List Char) : Stops (c :: r) := by
  intro x hx
  simp only [List.head?_cons, Option.some.injEq] at hx
  subst hx
  exact h

theorem stops_blank {w r : List Char} (hw : JsonBlank w) (hr : Stops r) : Stops (w ++ r) := by
  cases w with
  | nil => exact hr
  | cons c cs => exact stops_cons (space_stops (hw c (by simp))) _

/-! ## Lists with commas -/

theorem intercalate_cons (x : List Char) (xs : List (List Char)) :
    [','].intercalate (x :: xs) = x ++ xs.flatMap (fun y => ',' :: y) := by
  induction xs generalizing x with
  | nil => simp
  | cons y ys ih =>
    rw [List.intercalate_cons_cons, ih, List.flatMap_cons]
    simp

theorem ident_sound {x cs rest : List Char} (h : ident x cs = some rest) : cs = x ++ rest := by
  induction x generalizing cs with
  | nil => simpa [ident] using h
  | cons y ys ih =>
    cases cs with
    | nil => simp [ident] at h
    | cons c cs =>
      simp only [ident] at h
      split_ifs at h with hc
      subst hc
      rw [ih h]
      rfl

theorem ident_complete (x rest : List Char) : ident x (x ++ rest) = some rest := by
  induction x with
  | nil => cases rest <;> rfl
  | cons y ys ih => simp [ident, ih]

theorem colon_sound {cs rest : List Char} (h : colon cs = some rest) : ∃ w, JsonBlank w ∧ cs = w ++ ':' :: rest := by
  obtain ⟨w, hw, e⟩ := skip_split cs
  unfold colon at h
  split at h
  · cases h
  · rename_i c r hs
    split_ifs at h with hc
    subst hc
    simp only [Option.some.injEq] at h
    subst h
    rw [hs] at e
    exact ⟨w, hw, e⟩

theorem colon_complete {w : List Char} (hw : JsonBlank w) (rest : List Char) : colon (w ++ ':' :: rest) = some rest := by
  unfold colon
  rw [skip_blank hw, skip_cons (by decide)]
  rfl

/-! ## What is read is JSON -/

section sound

variable {N : List Char → SJNumber → Prop}

/-- Elements of an array, nested at most `d` deep. -/
def Els (N : List Char → SJNumber → Prop) (d : Nat) (es : List JsonElement) : Prop :=
  (∀ e ∈ es, JsonBlank e.before ∧ JsonBlank e.after) ∧ ∀ e ∈ es, JsonDoc N d e.text e.value

/-- Members of an object, nested at most `d` deep. -/
def Mems (N : List Char → SJNumber → Prop) (d : Nat) (ms : List JsonMember) : Prop :=
  (∀ x ∈ ms, JsonBlank x.before ∧ JsonBlank x.middle ∧ JsonBlank x.element.before ∧ JsonBlank x.element.after) ∧
  (∀ x ∈ ms, JsonChars x.keyText x.key) ∧ ∀ x ∈ ms, JsonDoc N d x.element.text x.element.value

theorem Els.cons {d : Nat} {e : JsonElement} {es : List JsonElement} (hb : JsonBlank e.before) (ha : JsonBlank e.after)
    (h : JsonDoc N d e.text e.value) (hs : Els N d es) : Els N d (e :: es) := by
  refine ⟨fun x hx => ?_, fun x hx => ?_⟩ <;> rcases List.mem_cons.mp hx with rfl | hx
  · exact ⟨hb, ha⟩
  · exact hs.1 x hx
  · exact h
  · exact hs.2 x hx

theorem Mems.cons {d : Nat} {x : JsonMember} {xs : List JsonMember}
    (hb : JsonBlank x.before ∧ JsonBlank x.middle ∧ JsonBlank x.element.before ∧ JsonBlank x.element.after)
    (hk : JsonChars x.keyText x.key) (h : JsonDoc N d x.element.text x.element.value) (hs : Mems N d xs) : Mems N d (x :: xs) := by
  refine ⟨fun y hy => ?_, fun y hy => ?_, fun y hy => ?_⟩ <;> rcases List.mem_cons.mp hy with rfl | hy
  · exact hb
  · exact hs.1 y hy
  · exact hk
  · exact hs.2.1 y hy
  · exact h
  · exact hs.2.2 y hy

/-- The text of further elements. -/
def moreEls (es : List JsonElement) : List Char := (es.map JsonElement.whole).flatMap (fun y => ',' :: y)

/-- The text of further members. -/
def moreMems (ms : List JsonMember) : List Char := (ms.map JsonMember.whole).flatMap (fun y => ',' :: y)

theorem moreEls_cons (e : JsonElement) (es : List JsonElement) : moreEls (e :: es) = ',' :: (e.whole ++ moreEls es) := by
  simp [moreEls]

theorem moreMems_cons (e : JsonMember) (es : List JsonMember) : moreMems (e :: es) = ',' :: (e.whole ++ moreMems es) := by
  simp [moreMems]

theorem elements_step {fuel D : Nat}
    (ihv : ∀ cs j rest, value fuel D cs = some (j, rest) → ∃ w t, JsonBlank w ∧ cs = w ++ (t ++ rest) ∧ JsonDoc N (D - 1) t j)
    (ihe : ∀ cs vs rest, elements fuel D false cs = some (vs, rest) → ∃ w es, JsonBlank w ∧
      cs = w ++ (moreEls es ++ ']' :: rest) ∧ vs = es.map JsonElement.value ∧ Els N (D - 1) es)
    {first : Bool} {cs : List Char} {vs : List SJValue} {rest : List Char}
    (h : elements (fuel + 1) D first cs = some (vs, rest)) :
    (vs = [] ∧ ∃ w, JsonBlank w ∧ cs = w ++ ']' :: rest) ∨
    ∃ w e es, JsonBlank w ∧ vs = (e :: es).map JsonElement.value ∧ Els N (D - 1) (e :: es) ∧
      cs = (if first then [] else w ++ [',']) ++ (e.whole ++ (moreEls es ++ ']' :: rest)) := by
  obtain ⟨w0, hw0, e0⟩ := skip_split cs
  rw [elements] at h
  split at h
  · cases h
  rename_i c rest1 hs
  rw [hs] at e0
  by_cases h1 : c = ']'
  · rw [if_pos h1] at h
    subst h1
    simp only [Option.some.injEq, Prod.mk.injEq] at h
    obtain ⟨rfl, rfl⟩ := h
    exact .inl ⟨rfl, w0, hw0, e0⟩
  · rw [if_neg h1] at h
    have finish : ∀ w' cs', JsonBlank w' →
        (match value fuel D cs' with
          | none => none
          | some (v, cs) => (elements fuel D false cs).map fun r => (v :: r.1, r.2)) = some (vs, rest) →
        ∃ e es, vs = (e :: es).map JsonElement.value ∧ Els N (D - 1) (e :: es) ∧
          w' ++ cs' = e.whole ++ (moreEls es ++ ']' :: rest) := by
      intro w' cs' hw' h
      split at h
      · cases h
      · rename_i v cs2 hv
        obtain ⟨w1, t, hw1, rfl, hd⟩ := ihv _ _ _ hv
        simp only [Option.map_eq_some_iff, Prod.mk.injEq] at h
        obtain ⟨⟨vs', rest'⟩, hr, rfl, rfl⟩ := h
        obtain ⟨w2, es, hw2, rfl, rfl, hes⟩ := ihe _ _ _ hr
        exact ⟨⟨w' ++ w1, t, w2, v⟩, es, rfl, Els.cons (blank_append hw' hw1) hw2 hd hes, by simp [JsonElement.whole]⟩
    cases first with
    | true =>
      obtain ⟨e, es, h2, h3, h4⟩ := finish w0 (c :: rest1) hw0 h
      exact .inr ⟨w0, e, es, hw0, h2, h3, by rw [e0, h4]; rfl⟩
    | false =>
      simp only [Bool.false_eq_true, if_false] at h
      by_cases hc : c = ','
      · subst hc
        obtain ⟨w1, hw1, e1⟩ := skip_split rest1
        rw [if_pos rfl] at h
        cases hs1 : skip rest1 with
        | nil => rw [hs1] at h; cases h
        | cons c' rest' =>
          rw [hs1] at h e1
          by_cases hc' : c' = ']'
          · simp only [hc', if_true] at h
            cases h
          · simp only [hc', if_false] at h
            obtain ⟨e, es, h2, h3, h4⟩ := finish w1 (c' :: rest') hw1 h
            refine .inr ⟨w0, e, es, hw0, h2, h3, ?_⟩
            rw [e0, e1, h4]
            simp
      · rw [if_neg hc] at h
        cases h

theorem entries_step {fuel D : Nat}
    (ihv : ∀ cs j rest, value fuel D cs = some (j, rest) → ∃ w t, JsonBlank w ∧ cs = w ++ (t ++ rest) ∧ JsonDoc N (D - 1) t j)
    (iho : ∀ cs vs rest, entries fuel D false cs = some (vs, rest) → ∃ w ms, JsonBlank w ∧
      cs = w ++ (moreMems ms ++ '}' :: rest) ∧ vs = ms.map (fun x => (x.key, x.element.value)) ∧ Mems N (D - 1) ms)
    {first : Bool} {cs : List Char} {vs : List (List Char × SJValue)} {rest : List Char}
    (h : entries (fuel + 1) D first cs = some (vs, rest)) :
    (vs = [] ∧ ∃ w, JsonBlank w ∧ cs = w ++ '}' :: rest) ∨
    ∃ w x xs, JsonBlank w ∧ vs = (x :: xs).map (fun x : JsonMember => (x.key, x.element.value)) ∧ Mems N (D - 1) (x :: xs) ∧
      cs = (if first then [] else w ++ [',']) ++ (x.whole ++ (moreMems xs ++ '}' :: rest)) := by
  obtain ⟨w0, hw0, e0⟩ := skip_split cs
  rw [entries] at h
  split at h
  · cases h
  rename_i c rest1 hs
  rw [hs] at e0
  by_cases h1 : c = '}'
  · rw [if_pos h1] at h
    subst h1
    simp only [Option.some.injEq, Prod.mk.injEq] at h
    obtain ⟨rfl, rfl⟩ := h
    exact .inl ⟨rfl, w0, hw0, e0⟩
  · rw [if_neg h1] at h
    have finish : ∀ w' c cs', JsonBlank w' →
        (if c = '"' then
          match str (cs'.length + 1) cs' with
          | none => none
          | some (k, cs) =>
            match colon cs with
            | none => none
            | some cs =>
              match value fuel D cs with
              | none => none
              | some (v, cs) => (entries fuel D false cs).map fun r => ((k, v) :: r.1, r.2)
          else none) = some (vs, rest) →
        ∃ x xs, vs = (x :: xs).map (fun x : JsonMember => (x.key, x.element.value)) ∧ Mems N (D - 1) (x :: xs) ∧
          w' ++ c :: cs' = x.whole ++ (moreMems xs ++ '}' :: rest) := by
      intro w' c cs' hw' h
      split_ifs at h with hc
      subst hc
      split at h
      · cases h
      · rename_i k cs1 hk
        obtain ⟨kt, rfl, hkt⟩ := str_sound hk
        split at h
        · cases h
        · rename_i cs2 hcol
          obtain ⟨wm, hwm, rfl⟩ := colon_sound hcol
          split at h
          · cases h
          · rename_i v cs3 hv
            obtain ⟨w1, t, hw1, rfl, hd⟩ := ihv _ _ _ hv
            simp only [Option.map_eq_some_iff, Prod.mk.injEq] at h
            obtain ⟨⟨vs', rest'⟩, hr, rfl, rfl⟩ := h
            obtain ⟨w2, xs, hw2, rfl, rfl, hxs⟩ := iho _ _ _ hr
            refine ⟨⟨w', kt, k, wm, ⟨w1, t, w2, v⟩⟩, xs, rfl, Mems.cons ⟨hw', hwm, hw1, hw2⟩ hkt hd hxs, ?_⟩
            simp [JsonMember.whole, JsonElement.whole]
    cases first with
    | true =>
      obtain ⟨x, xs, h2, h3, h4⟩ := finish w0 c rest1 hw0 h
      exact .inr ⟨w0, x, xs, hw0, h2, h3, by rw [e0, h4]; rfl⟩
    | false =>
      simp only [Bool.false_eq_true, if_false] at h
      by_cases hc : c = ','
      · subst hc
        obtain ⟨w1, hw1, e1⟩ := skip_split rest1
        rw [if_pos rfl] at h
        cases hs1 : skip rest1 with
        | nil => rw [hs1] at h; cases h
        | cons c' rest' =>
          rw [hs1] at h e1
          obtain ⟨x, xs, h2, h3, h4⟩ := finish w1 c' rest' hw1 h
          refine .inr ⟨w0, x, xs, hw0, h2, h3, ?_⟩
          rw [e0, e1, h4]
          simp
      · rw [if_neg hc] at h
        cases h

/-- What `elements` reads. -/
def ElementsRead (N : List Char → SJNumber → Prop) (D : Nat) (first : Bool) (cs : List Char) (vs : List SJValue)
    (rest : List Char) : Prop :=
  (vs = [] ∧ ∃ w, JsonBlank w ∧ cs = w ++ ']' :: rest) ∨
  ∃ w e es, JsonBlank w ∧ vs = (e :: es).map JsonElement.value ∧ Els N (D - 1) (e :: es) ∧
    cs = (if first then [] else w ++ [',']) ++ (e.whole ++ (moreEls es ++ ']' :: rest))

/-- What `entries` reads. -/
def EntriesRead (N : List Char → SJNumber → Prop) (D : Nat) (first : Bool) (cs : List Char) (vs : List (List Char × SJValue))
    (rest : List Char) : Prop :=
  (vs = [] ∧ ∃ w, JsonBlank w ∧ cs = w ++ '}' :: rest) ∨
  ∃ w x xs, JsonBlank w ∧ vs = (x :: xs).map (fun x : JsonMember => (x.key, x.element.value)) ∧ Mems N (D - 1) (x :: xs) ∧
    cs = (if first then [] else w ++ [',']) ++ (x.whole ++ (moreMems xs ++ '}' :: rest))

theorem value_sound (hN : ∀ pos cs n rest, number pos cs = some (n, rest) → ∃ t, cs = t ++ rest ∧ N (if pos then t else '-' :: t) n)
    (fuel : Nat) :
    (∀ D cs j rest, value fuel D cs = some (j, rest) → ∃ w t, JsonBlank w ∧ cs = w ++ (t ++ rest) ∧ JsonDoc N (D - 1) t j) ∧
    (∀ D first cs vs rest, elements fuel D first cs = some (vs, rest) → ElementsRead N D first cs vs rest) ∧
    (∀ D first cs vs rest, entries fuel D first cs = some (vs, rest) → EntriesRead N D first cs vs rest) := by
  induction fuel with
  | zero =>
    refine ⟨fun _ _ _ _ h => ?_, fun _ _ _ _ _ h => ?_, fun _ _ _ _ _ h => ?_⟩
    · rw [value] at h; cases h
    · rw [elements] at h; cases h
    · rw [entries] at h; cases h
  | succ fuel ih =>
    obtain ⟨ihv, ihe, iho⟩ := ih
    refine ⟨fun D cs j rest h => ?_, fun D first cs vs rest h => ?_, fun D first cs vs rest h => ?_⟩
    · obtain ⟨w, hw, e⟩ := skip_split cs
      rw [value] at h
      split at h
      · cases h
      rename_i c r hs
      rw [hs] at e
      have word : ∀ (x : List Char) (v : SJValue), (ident x r).map (v, ·) = some (j, rest) → j = v ∧ r = x ++ rest := by
        intro x v h
        simp only [Option.map_eq_some_iff, Prod.mk.injEq] at h
        obtain ⟨a, h1, rfl, rfl⟩ := h
        exact ⟨rfl, ident_sound h1⟩
      split_ifs at h with c1 c2 c3 c4 c5 c6 c7 c8 c9 c10
      · obtain ⟨rfl, rfl⟩ := word _ _ h
        subst c1
        exact ⟨w, "null".toList, hw, e, .null _⟩
      · obtain ⟨rfl, rfl⟩ := word _ _ h
        subst c2
        exact ⟨w, "true".toList, hw, e, .true _⟩
      · obtain ⟨rfl, rfl⟩ := word _ _ h
        subst c3
        exact ⟨w, "false".toList, hw, e, .false _⟩
      · simp only [Option.map_eq_some_iff, Prod.mk.injEq] at h
        obtain ⟨⟨n, r'⟩, h1, rfl, rfl⟩ := h
        obtain ⟨t, rfl, ht⟩ := hN _ _ _ _ h1
        subst c4
        exact ⟨w, '-' :: t, hw, e, .number _ ht⟩
      · simp only [Option.map_eq_some_iff, Prod.mk.injEq] at h
        obtain ⟨⟨n, r'⟩, h1, rfl, rfl⟩ := h
        obtain ⟨t, et, ht⟩ := hN _ _ _ _ h1
        rw [et] at e
        exact ⟨w, t, hw, e, .number _ ht⟩
      · simp only [Option.map_eq_some_iff, Prod.mk.injEq] at h
        obtain ⟨⟨s, r'⟩, h1, rfl, rfl⟩ := h
        obtain ⟨t, rfl, ht⟩ := str_sound h1
        subst c6
        exact ⟨w, '"' :: (t ++ ['"']), hw, by rw [e]; simp, .string _ ht⟩
      · simp only [Option.map_eq_some_iff, Prod.mk.injEq] at h
        obtain ⟨⟨vs, r'⟩, h1, rfl, rfl⟩ := h
        subst c7
        obtain ⟨d, rfl⟩ : ∃ d, D = d + 2 := ⟨D - 2, by omega⟩
        rcases ihe _ _ _ _ _ h1 with ⟨rfl, w', hw', rfl⟩ | ⟨_, x, es, _, rfl, hes, rfl⟩
        · exact ⟨w, '[' :: (w' ++ [']']), hw, by rw [e]; simp, .emptyArray _ hw'⟩
        · refine ⟨w, _, hw, ?_, .array (es := x :: es) (by simp) hes.1 hes.2⟩
          rw [e, List.map_cons, intercalate_cons]
          simp [moreEls]
      · simp only [Option.map_eq_some_iff, Prod.mk.injEq] at h
        obtain ⟨⟨vs, r'⟩, h1, rfl, rfl⟩ := h
        subst c9
        obtain ⟨d, rfl⟩ : ∃ d, D = d + 2 := ⟨D - 2, by omega⟩
        rcases iho _ _ _ _ _ h1 with ⟨rfl, w', hw', rfl⟩ | ⟨_, x, xs, _, rfl, hxs, rfl⟩
        · exact ⟨w, '{' :: (w' ++ ['}']), hw, by rw [e]; simp, .emptyObject _ hw'⟩
        · refine ⟨w, _, hw, ?_, .object (ms := x :: xs) (by simp) hxs.1 hxs.2.1 hxs.2.2 (gathered_collect _)⟩
          rw [e, List.map_cons, intercalate_cons]
          simp [moreMems]
    · refine elements_step (ihv D) (fun cs vs rest h => ?_) h
      rcases ihe _ _ _ _ _ h with ⟨rfl, w, hw, rfl⟩ | ⟨w, e, es, hw, rfl, hes, rfl⟩
      · exact ⟨w, [], hw, rfl, rfl, by simp [Els]⟩
      · exact ⟨w, e :: es, hw, by rw [moreEls_cons]; simp, rfl, hes⟩
    · refine entries_step (ihv D) (fun cs vs rest h => ?_) h
      rcases iho _ _ _ _ _ h with ⟨rfl, w, hw, rfl⟩ | ⟨w, e, es, hw, rfl, hes, rfl⟩
      · exact ⟨w, [], hw, rfl, rfl, by simp [Mems]⟩
      · exact ⟨w, e :: es, hw, by rw [moreMems_cons]; simp, rfl, hes⟩

theorem parse_sound (hN : ∀ pos cs n rest, number pos cs = some (n, rest) → ∃ t, cs = t ++ rest ∧ N (if pos then t else '-' :: t) n)
    {s : List Char} {j : SJValue} (h : parse s = some j) : JsonText N 127 s j := by
  unfold parse at h
  split at h
  · cases h
  · rename_i v rest hv
    split_ifs at h with hb
    simp only [Option.some.injEq] at h
    subst h
    obtain ⟨w, t, hw, rfl, hd⟩ := (value_sound hN _).1 _ _ _ _ hv
    exact ⟨w, t, rest, by simp, hw, skip_nil_iff.mp hb, hd⟩

end sound

/-! ## JSON is read -/

section complete

variable {N : List Char → SJNumber → Prop}

/-- Texts that are numbers by `N` are read as such. -/
def Reads (N : List Char → SJNumber → Prop) : Prop :=
  ∀ t n, N t n → ∃ pos c cs, t = (if pos then c :: cs else '-' :: c :: cs) ∧ c ∈ decimalDigits ∧
    ∀ rest, Stops rest → number pos (c :: cs ++ rest) = some (n, rest)

theorem digit_head {c : Char} (h : c ∈ decimalDigits) : ws c = false ∧ c ≠ ']' ∧ c ≠ '}' ∧ c ≠ ',' ∧ c ≠ 'n' ∧ c ≠ 't' ∧
    c ≠ 'f' ∧ c ≠ '-' := by
  have : ∀ c ∈ decimalDigits, ws c = false ∧ c ≠ ']' ∧ c ≠ '}' ∧ c ≠ ',' ∧ c ≠ 'n' ∧ c ≠ 't' ∧ c ≠ 'f' ∧ c ≠ '-' := by decide
  exact this c h

theorem doc_head (hN : Reads N) {d : Nat} {t : List Char} {j : SJValue} (h : JsonDoc N d t j) :
    ∃ c cs, t = c :: cs ∧ ws c = false ∧ c ≠ ']' := by
  cases h with
  | number d h =>
    obtain ⟨pos, c, cs, rfl, hc, _⟩ := hN _ _ h
    cases pos with
    | true => exact ⟨c, cs, rfl, (digit_head hc).1, (digit_head hc).2.1⟩
    | false => exact ⟨'-', c :: cs, rfl, by decide, by decide⟩
  | null | true | false | string | emptyArray | array | emptyObject | object => exact ⟨_, _, rfl, by decide, by decide⟩

/-- A text is read as a value at `D`, wherever it stands. -/
def ReadAs (D : Nat) (t : List Char) (j : SJValue) : Prop :=
  ∀ fuel w rest, 2 * t.length ≤ fuel → JsonBlank w → Stops rest → value fuel D (w ++ (t ++ rest)) = some (j, rest)

theorem elements_complete {D : Nat} {es : List JsonElement} (hb : ∀ e ∈ es, JsonBlank e.before ∧ JsonBlank e.after)
    (hh : ∀ e ∈ es, ∃ c cs, e.text = c :: cs ∧ ws c = false ∧ c ≠ ']') (hv : ∀ e ∈ es, ReadAs D e.text e.value)
    {w : List Char} (hw : JsonBlank w) {fuel : Nat} (hf : 2 * (moreEls es).length + 1 ≤ fuel) (rest : List Char) :
    elements fuel D false (w ++ (moreEls es ++ ']' :: rest)) = some (es.map JsonElement.value, rest) := by
  induction es generalizing w fuel with
  | nil =>
    obtain ⟨f, rfl⟩ : ∃ f, fuel = f + 1 := ⟨fuel - 1, by omega⟩
    rw [elements, skip_blank hw]
    simp [moreEls, skip_cons (c := ']') (by decide)]
  | cons e es ih =>
    obtain ⟨f, rfl⟩ : ∃ f, fuel = f + 1 := ⟨fuel - 1, by omega⟩
    obtain ⟨hb1, hb2⟩ := hb e (by simp)
    obtain ⟨c, cs, ht, hc1, hc2⟩ := hh e (by simp)
    have hlen : e.text.length = cs.length + 1 := by rw [ht]; rfl
    rw [moreEls_cons] at hf ⊢
    simp only [JsonElement.whole, List.length_cons, List.length_append] at hf
    have hval := hv e (by simp) f [] (e.after ++ (moreEls es ++ ']' :: rest)) (by omega) blank_nil
      (stops_blank hb2 (by
        cases es with
        | nil => exact stops_cons (by decide) _
        | cons x xs => rw [moreEls_cons]; exact stops_cons (by decide) _))
    rw [elements, skip_blank hw, List.cons_append, skip_cons (by decide)]
    simp only [JsonElement.whole, List.append_assoc]
    rw [skip_blank hb1, ht, List.cons_append, skip_cons hc1]
    rw [ht, List.nil_append, List.cons_append] at hval
    simp only [hc2, if_false, Bool.false_eq_true, if_true, show (',' : Char) ≠ ']' by decide, hval]
    rw [ih (fun x hx => hb x (by simp [hx])) (fun x hx => hh x (by simp [hx])) (fun x hx => hv x (by simp [hx])) hb2 (by omega)]
    rfl

theorem elements_first {D : Nat} {e : JsonElement} {es : List JsonElement}
    (hb : ∀ x ∈ e :: es, JsonBlank x.before ∧ JsonBlank x.after)
    (hh : ∀ x ∈ e :: es, ∃ c cs, x.text = c :: cs ∧ ws c = false ∧ c ≠ ']') (hv : ∀ x ∈ e :: es, ReadAs D x.text x.value)
    {fuel : Nat} (hf : 2 * (e.whole.length + (moreEls es).length) + 1 ≤ fuel) (rest : List Char) :
    elements fuel D true (e.whole ++ (moreEls es ++ ']' :: rest)) = some ((e :: es).map JsonElement.value, rest) := by
  obtain ⟨f, rfl⟩ : ∃ f, fuel = f + 1 := ⟨fuel - 1, by omega⟩
  obtain ⟨hb1, hb2⟩ := hb e (by simp)
  obtain ⟨c, cs, ht, hc1, hc2⟩ := hh e (by simp)
  have hlen : e.text.length = cs.length + 1 := by rw [ht]; rfl
  simp only [JsonElement.whole, List.length_append] at hf
  have hval := hv e (by simp) f [] (e.after ++ (moreEls es ++ ']' :: rest)) (by omega) blank_nil
    (stops_blank hb2 (by
      cases es with
      | nil => exact stops_cons (by decide) _
      | cons x xs => rw [moreEls_cons]; exact stops_cons (by decide) _))
  rw [elements]
  simp only [JsonElement.whole, List.append_assoc]
  rw [skip_blank hb1, ht, List.cons_append, skip_cons hc1]
  rw [ht, List.nil_append, List.cons_append] at hval
  simp only [hc2, if_false, if_true, hval]
  rw [elements_complete (fun x hx => hb x (by simp [hx])) (fun x hx => hh x (by simp [hx])) (fun x hx => hv x (by simp [hx])) hb2
    (by omega)]
  rfl

/-- What `entries` reads for a member, from the quote on. -/
theorem member_reads {D fuel : Nat} {m : JsonMember}
    (hb : JsonBlank m.before ∧ JsonBlank m.middle ∧ JsonBlank m.element.before ∧ JsonBlank m.element.after)
    (hk : JsonChars m.keyText m.key) (hv : ReadAs D m.element.text m.element.value) (hf : 2 * m.element.text.length ≤ fuel)
    {tail : List Char} (ht : Stops tail) :
    str ((m.keyText ++ '"' :: (m.middle ++ ':' :: (m.element.whole ++ tail))).length + 1)
      (m.keyText ++ '"' :: (m.middle ++ ':' :: (m.element.whole ++ tail))) =
        some (m.key, m.middle ++ ':' :: (m.element.whole ++ tail)) ∧
    colon (m.middle ++ ':' :: (m.element.whole ++ tail)) = some (m.element.whole ++ tail) ∧
    value fuel D (m.element.whole ++ tail) = some (m.element.value, m.element.after ++ tail) := by
  refine ⟨str_complete hk (by simp) _, colon_complete hb.2.1 _, ?_⟩
  have := hv fuel m.element.before (m.element.after ++ tail) hf hb.2.2.1 (stops_blank hb.2.2.2 ht)
  simpa [JsonElement.whole] using this

theorem entries_complete {D : Nat} {ms : List JsonMember}
    (hb : ∀ x ∈ ms, JsonBlank x.before ∧ JsonBlank x.middle ∧ JsonBlank x.element.before ∧ JsonBlank x.element.after)
    (hk : ∀ x ∈ ms, JsonChars x.keyText x.key) (hv : ∀ x ∈ ms, ReadAs D x.element.text x.element.value)
    {w : List Char} (hw : JsonBlank w) {fuel : Nat} (hf : 2 * (moreMems ms).length + 1 ≤ fuel) (rest : List Char) :
    entries fuel D false (w ++ (moreMems ms ++ '}' :: rest)) = some (ms.map (fun x => (x.key, x.element.value)), rest) := by
  induction ms generalizing w fuel with
  | nil =>
    obtain ⟨f, rfl⟩ : ∃ f, fuel = f + 1 := ⟨fuel - 1, by omega⟩
    rw [entries, skip_blank hw]
    simp [moreMems, skip_cons (c := '}') (by decide)]
  | cons m ms ih =>
    obtain ⟨f, rfl⟩ : ∃ f, fuel = f + 1 := ⟨fuel - 1, by omega⟩
    rw [moreMems_cons] at hf ⊢
    simp only [JsonMember.whole, JsonElement.whole, List.length_cons, List.length_append] at hf
    have hs : Stops (moreMems ms ++ '}' :: rest) := by
      cases ms with
      | nil => exact stops_cons (by decide) _
      | cons x xs => rw [moreMems_cons]; exact stops_cons (by decide) _
    obtain ⟨h1, h2, h3⟩ := member_reads (fuel := f) (hb m (by simp)) (hk m (by simp)) (hv m (by simp)) (by omega) hs
    rw [entries, skip_blank hw, List.cons_append, skip_cons (by decide)]
    simp only [JsonMember.whole, List.append_assoc, List.cons_append]
    rw [skip_blank (hb m (by simp)).1, skip_cons (by decide)]
    simp only [if_false, Bool.false_eq_true, if_true, show (',' : Char) ≠ '}' by decide, h1, h2, h3]
    rw [ih (fun x hx => hb x (by simp [hx])) (fun x hx => hk x (by simp [hx])) (fun x hx => hv x (by simp [hx]))
      (hb m (by simp)).2.2.2 (by omega)]
    rfl

theorem entries_first {D : Nat} {m : JsonMember} {ms : List JsonMember}
    (hb : ∀ x ∈ m :: ms, JsonBlank x.before ∧ JsonBlank x.middle ∧ JsonBlank x.element.before ∧ JsonBlank x.element.after)
    (hk : ∀ x ∈ m :: ms, JsonChars x.keyText x.key) (hv : ∀ x ∈ m :: ms, ReadAs D x.element.text x.element.value)
    {fuel : Nat} (hf : 2 * (m.whole.length + (moreMems ms).length) + 1 ≤ fuel) (rest : List Char) :
    entries fuel D true (m.whole ++ (moreMems ms ++ '}' :: rest)) =
      some ((m :: ms).map (fun x => (x.key, x.element.value)), rest) := by
  obtain ⟨f, rfl⟩ : ∃ f, fuel = f + 1 := ⟨fuel - 1, by omega⟩
  simp only [JsonMember.whole, JsonElement.whole, List.length_cons, List.length_append] at hf
  have hs : Stops (moreMems ms ++ '}' :: rest) := by
    cases ms with
    | nil => exact stops_cons (by decide) _
    | cons x xs => rw [moreMems_cons]; exact stops_cons (by decide) _
  obtain ⟨h1, h2, h3⟩ := member_reads (fuel := f) (hb m (by simp)) (hk m (by simp)) (hv m (by simp)) (by omega) hs
  rw [entries]
  simp only [JsonMember.whole, List.append_assoc, List.cons_append]
  rw [skip_blank (hb m (by simp)).1, skip_cons (by decide)]
  simp only [if_false, if_true, show ('"' : Char) ≠ '}' by decide, h1, h2, h3]
  rw [entries_complete (fun x hx => hb x (by simp [hx])) (fun x hx => hk x (by simp [hx])) (fun x hx => hv x (by simp [hx]))
    (hb m (by simp)).2.2.2 (by omega)]
  rfl

/-- JSON is read, with fuel of twice its length. -/
theorem value_complete (hN : Reads N) {d : Nat} {t : List Char} {j : SJValue} (h : JsonDoc N d t j) {D : Nat} (hD : d < D) :
    ReadAs D t j := by
  induction h generalizing D with
  | null d => 
    intro fuel w rest hf hw hr
    obtain ⟨f, rfl⟩ : ∃ f, fuel = f + 1 := ⟨fuel - 1, by simp at hf; omega⟩
    rw [value, skip_blank hw]
    simp [skip_cons (c := 'n') (by decide), ident]
  | true d => 
    intro fuel w rest hf hw hr
    obtain ⟨f, rfl⟩ : ∃ f, fuel = f + 1 := ⟨fuel - 1, by simp at hf; omega⟩
    rw [value, skip_blank hw]
    simp [skip_cons (c := 't') (by decide), ident]
  | false d => 
    intro fuel w rest hf hw hr
    obtain ⟨f, rfl⟩ : ∃ f, fuel = f + 1 := ⟨fuel - 1, by simp at hf; omega⟩
    rw [value, skip_blank hw]
    simp [skip_cons (c := 'f') (by decide), ident]
  | number d h =>
    intro fuel w rest hf hw hr
    obtain ⟨pos, c, cs, rfl, hc, hread⟩ := hN _ _ h
    obtain ⟨g1, g2, g3, g4, g5, g6, g7, g8⟩ := digit_head hc
    cases pos with
    | true =>
      obtain ⟨f, rfl⟩ : ∃ f, fuel = f + 1 := ⟨fuel - 1, by simp at hf; omega⟩
      have := hread rest hr
      rw [List.cons_append] at this
      rw [value, skip_blank hw]
      simp only [if_true, List.cons_append]
      rw [skip_cons g1]
      simp [g5, g6, g7, g8, digitOf_of_mem hc, this]
    | false =>
      obtain ⟨f, rfl⟩ : ∃ f, fuel = f + 1 := ⟨fuel - 1, by simp at hf; omega⟩
      have := hread rest hr
      rw [List.cons_append] at this
      rw [value, skip_blank hw]
      simp [skip_cons (c := '-') (by decide), this]
  | @string d t s h =>
    intro fuel w rest hf hw hr
    obtain ⟨f, rfl⟩ : ∃ f, fuel = f + 1 := ⟨fuel - 1, by simp at hf; omega⟩
    rw [value, skip_blank hw, List.cons_append, skip_cons (by decide)]
    have := str_complete h (fuel := (t ++ ['"'] ++ rest).length + 1) (by simp) rest
    rw [List.append_assoc] at this ⊢
    simp [show digitOf '"' = none by decide] at this ⊢
    rw [this]
  | @emptyArray d w' hw' =>
    intro fuel w rest hf hw hr
    obtain ⟨f, rfl⟩ : ∃ f, fuel = f + 2 := ⟨fuel - 2, by simp at hf; omega⟩
    rw [value, skip_blank hw, List.cons_append, skip_cons (by decide)]
    simp only [show ('[' : Char) ≠ 'n' by decide, show ('[' : Char) ≠ 't' by decide, show ('[' : Char) ≠ 'f' by decide,
      show ('[' : Char) ≠ '-' by decide, show (digitOf '[').isSome = false by decide, show ('[' : Char) ≠ '"' by decide,
      if_false, if_true, Bool.false_eq_true]
    rw [if_neg (by omega), elements, List.append_assoc, skip_blank hw']
    simp [skip_cons (c := ']') (by decide)]
  | @array d es hne hw' h ih =>
    intro fuel w rest hf hw hr
    cases es with
    | nil => exact absurd rfl hne
    | cons e es =>
      rw [List.map_cons, intercalate_cons] at hf ⊢
      have hinside : (es.map JsonElement.whole).flatMap (fun y => ',' :: y) = moreEls es := rfl
      rw [hinside] at hf ⊢
      simp only [List.length_cons, List.length_append, List.length_nil] at hf
      obtain ⟨f, rfl⟩ : ∃ f, fuel = f + 1 := ⟨fuel - 1, by omega⟩
      rw [value, skip_blank hw, List.cons_append, skip_cons (by decide)]
      simp only [show ('[' : Char) ≠ 'n' by decide, show ('[' : Char) ≠ 't' by decide, show ('[' : Char) ≠ 'f' by decide,
        show ('[' : Char) ≠ '-' by decide, show (digitOf '[').isSome = false by decide, show ('[' : Char) ≠ '"' by decide,
        if_false, if_true, Bool.false_eq_true]
      rw [if_neg (by omega)]
      have := elements_first (D := D - 1) hw' (fun x hx => doc_head hN (h x hx)) (fun x hx => ih x hx (by omega)) (fuel := f) (by omega) rest
      simp only [List.append_assoc, List.cons_append, List.nil_append]
      rw [this]
      rfl
  | @emptyObject d w' hw' =>
    intro fuel w rest hf hw hr
    obtain ⟨f, rfl⟩ : ∃ f, fuel = f + 2 := ⟨fuel - 2, by simp at hf; omega⟩
    rw [value, skip_blank hw, List.cons_append, skip_cons (by decide)]
    simp only [show ('{' : Char) ≠ 'n' by decide, show ('{' : Char) ≠ 't' by decide, show ('{' : Char) ≠ 'f' by decide,
      show ('{' : Char) ≠ '-' by decide, show (digitOf '{').isSome = false by decide, show ('{' : Char) ≠ '"' by decide,
      show ('{' : Char) ≠ '[' by decide, if_false, if_true, Bool.false_eq_true]
    rw [if_neg (by omega), entries, List.append_assoc, skip_blank hw']
    simp [skip_cons (c := '}') (by decide)]
  | @object d ms m hne hw' hk h hm ih =>
    intro fuel w rest hf hw hr
    cases ms with
    | nil => exact absurd rfl hne
    | cons x xs =>
      rw [List.map_cons, intercalate_cons] at hf ⊢
      have hinside : (xs.map JsonMember.whole).flatMap (fun y => ',' :: y) = moreMems xs := rfl
      rw [hinside] at hf ⊢
      simp only [List.length_cons, List.length_append, List.length_nil] at hf
      obtain ⟨f, rfl⟩ : ∃ f, fuel = f + 1 := ⟨fuel - 1, by omega⟩
      rw [value, skip_blank hw, List.cons_append, skip_cons (by decide)]
      simp only [show ('{' : Char) ≠ 'n' by decide, show ('{' : Char) ≠ 't' by decide, show ('{' : Char) ≠ 'f' by decide,
        show ('{' : Char) ≠ '-' by decide, show (digitOf '{').isSome = false by decide, show ('{' : Char) ≠ '"' by decide,
        show ('{' : Char) ≠ '[' by decide, if_false, if_true, Bool.false_eq_true]
      rw [if_neg (by omega)]
      have := entries_first (D := D - 1) hw' hk (fun x hx => ih x hx (by omega)) (fuel := f) (by omega) rest
      simp only [List.append_assoc, List.cons_append, List.nil_append]
      rw [this]
      have hg := gathered_eq hm
      unfold SJValue.collect at hg
      simp only [Option.map_some, hg]

theorem parse_complete (hN : Reads N) {s : List Char} {j : SJValue} (h : JsonText N 127 s j) : parse s = some j := by
  obtain ⟨w, t, w', rfl, hw, hw', hd⟩ := h
  have := value_complete hN hd (D := 128) (by decide) (2 * (w ++ t ++ w').length + 1) w w' (by simp; omega) hw
    (by have := stops_blank hw' stops_nil; simpa using this)
  unfold parse
  rw [List.append_assoc] at this ⊢
  rw [this]
  simp [skip_nil_iff.mpr hw']

end complete

end SerdeJson

end Souris
