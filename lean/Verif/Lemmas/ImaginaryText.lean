import Verif.Model.ImaginaryText
import Verif.Spec.ImaginaryText
import Verif.Lemmas.JsonValue

/-! # Reading two parts from JSON text -/

namespace Souris.Imaginary

open SerdeJson

variable {α : Type} {read : List Char → Option (α × List Char)} {ignore : List Char → Option (List Char)}
  {N : List Char → α → Prop} {S : List Char → Prop} {k k' : List Char}

/-- Members behind the first one. -/
def moreTexts (ms : List MemberText) : List Char := ms.flatMap fun m => ',' :: m.whole

theorem moreTexts_cons (m : MemberText) (ms : List MemberText) : moreTexts (m :: ms) = ',' :: (m.whole ++ moreTexts ms) := by
  simp [moreTexts]

/-- There is no member of this name, as the part is known; or there is one, with the part. -/
def Given (N : List Char → α → Prop) (ms : List MemberText) (k : List Char) (x : Option α) (a : α) : Prop :=
  (x = some a ∧ ∀ m ∈ ms, m.key ≠ k) ∨ (x = none ∧ OneMember ms k (N · a))

theorem Given.other {ms : List MemberText} {x : Option α} {a : α} (h : Given N ms k x a) {m : MemberText} (hm : m.key ≠ k) :
    Given N (m :: ms) k x a := by
  rcases h with ⟨h1, h2⟩ | ⟨h1, front, y, back, rfl, h3, h4, h5⟩
  · exact .inl ⟨h1, fun y hy => by rcases List.mem_cons.mp hy with rfl | hy; exact hm; exact h2 y hy⟩
  · refine .inr ⟨h1, m :: front, y, back, rfl, h3, h4, fun z hz => ?_⟩
    rcases List.mem_cons.mp hz with rfl | hz
    · exact hm
    · exact h5 z hz

theorem Given.this {ms : List MemberText} {a a' : α} (h : Given N ms k (some a) a') {m : MemberText} (hm : m.key = k)
    (hn : N m.value a) : Given N (m :: ms) k none a' := by
  rcases h with ⟨h1, h2⟩ | ⟨h1, _⟩
  · cases h1
    exact .inr ⟨rfl, [], m, ms, rfl, hm, hn, by simpa using h2⟩
  · cases h1

/-- What is read for the members of an object. -/
theorem members_sound (hk : k ≠ k')
    (hr : ∀ cs a rest, read cs = some (a, rest) → ∃ w t, JsonBlank w ∧ cs = w ++ (t ++ rest) ∧ N t a)
    (hi : ∀ cs rest, ignore cs = some rest → ∃ w t, JsonBlank w ∧ cs = w ++ (t ++ rest) ∧ S t) (fuel : Nat) :
    ∀ first x y cs a b rest, members read ignore k k' fuel first x y cs = some ((a, b), rest) →
      ∃ w ms, JsonBlank w ∧ (∀ m ∈ ms, m.Right) ∧ Given N ms k x a ∧ Given N ms k' y b ∧
        (∀ m ∈ ms, m.key ≠ k → m.key ≠ k' → S m.value) ∧
        if first then cs = (if ms = [] then w else []) ++ ([','].intercalate (ms.map MemberText.whole) ++ '}' :: rest)
        else cs = w ++ (moreTexts ms ++ '}' :: rest) := by
  induction fuel with
  | zero => intro first x y cs a b rest h; rw [members] at h; cases h
  | succ fuel ih =>
    intro first x y cs a b rest h
    obtain ⟨w0, hw0, e0⟩ := skip_split cs
    rw [members] at h
    split at h
    · cases h
    rename_i c rest1 hs
    rw [hs] at e0
    by_cases h1 : c = '}'
    · rw [if_pos h1] at h
      subst h1
      split at h
      · rename_i a' b'
        simp only [Option.some.injEq, Prod.mk.injEq] at h
        obtain ⟨⟨rfl, rfl⟩, rfl⟩ := h
        refine ⟨w0, [], hw0, by simp, .inl ⟨rfl, by simp⟩, .inl ⟨rfl, by simp⟩, by simp, ?_⟩
        cases first <;> simp [e0, moreTexts]
      · cases h
    · rw [if_neg h1] at h
      have finish : ∀ w' c cs', JsonBlank w' →
          (if c = '"' then
            match str (cs'.length + 1) cs' with
            | none => none
            | some (name, cs) =>
              match colon cs with
              | none => none
              | some cs =>
                if name = k then
                  match (generalizing := false) x with
                  | some _ => none
                  | none =>
                    match read cs with
                    | none => none
                    | some (a, cs) => members read ignore k k' fuel false (some a) y cs
                else if name = k' then
                  match (generalizing := false) y with
                  | some _ => none
                  | none =>
                    match read cs with
                    | none => none
                    | some (b, cs) => members read ignore k k' fuel false x (some b) cs
                else
                  match ignore cs with
                  | none => none
                  | some cs => members read ignore k k' fuel false x y cs
            else none) = some ((a, b), rest) →
          ∃ m ms, (∀ m' ∈ m :: ms, MemberText.Right m') ∧ Given N (m :: ms) k x a ∧ Given N (m :: ms) k' y b ∧
            (∀ m' ∈ m :: ms, m'.key ≠ k → m'.key ≠ k' → S m'.value) ∧
            w' ++ c :: cs' = m.whole ++ (moreTexts ms ++ '}' :: rest) := by
        intro w' c cs' hw' h
        split_ifs at h with hc
        subst hc
        split at h
        · cases h
        rename_i name cs1 hname
        obtain ⟨kt, rfl, hkt⟩ := str_sound hname
        split at h
        · cases h
        rename_i cs2 hcol
        obtain ⟨wm, hwm, rfl⟩ := colon_sound hcol
        have wrap : ∀ {w1 t w2 : List Char} {ms : List MemberText}, JsonBlank w1 → JsonBlank w2 → (∀ m ∈ ms, MemberText.Right m) →
            (∀ m ∈ ms, m.key ≠ k → m.key ≠ k' → S m.value) → (name ≠ k → name ≠ k' → S t) →
            let m : MemberText := ⟨w', kt, name, wm, w1, t, w2⟩
            (∀ m' ∈ m :: ms, MemberText.Right m') ∧ (∀ m' ∈ m :: ms, m'.key ≠ k → m'.key ≠ k' → S m'.value) := by
          intro w1 t w2 ms h1 h2 h3 h4 h5 m
          constructor
          · intro m' hm
            rcases List.mem_cons.mp hm with rfl | hm
            · exact ⟨hw', hkt, hwm, h1, h2⟩
            · exact h3 m' hm
          · intro m' hm
            rcases List.mem_cons.mp hm with rfl | hm
            · exact h5
            · exact h4 m' hm
        split_ifs at h with hn hn'
        · split at h
          · cases h
          split at h
          · cases h
          rename_i a1 cs3 ha
          obtain ⟨w1, t, hw1, rfl, ht⟩ := hr _ _ _ ha
          obtain ⟨w2, ms, hw2, g1, g2, g3, g4, g5⟩ := ih _ _ _ _ _ _ _ h
          simp only [Bool.false_eq_true, if_false] at g5
          subst g5
          obtain ⟨q1, q2⟩ := wrap (w1 := w1) (t := t) (w2 := w2) (ms := ms) hw1 hw2 g1 g4 (fun h => absurd hn h)
          exact ⟨_, ms, q1, g2.this hn ht, g3.other (by rw [hn]; exact hk), q2, by simp [MemberText.whole]⟩
        · split at h
          · cases h
          split at h
          · cases h
          rename_i a1 cs3 ha
          obtain ⟨w1, t, hw1, rfl, ht⟩ := hr _ _ _ ha
          obtain ⟨w2, ms, hw2, g1, g2, g3, g4, g5⟩ := ih _ _ _ _ _ _ _ h
          simp only [Bool.false_eq_true, if_false] at g5
          subst g5
          obtain ⟨q1, q2⟩ := wrap (w1 := w1) (t := t) (w2 := w2) (ms := ms) hw1 hw2 g1 g4 (fun _ h => absurd hn' h)
          exact ⟨_, ms, q1, g2.other hn, g3.this hn' ht, q2, by simp [MemberText.whole]⟩
        · split at h
          · cases h
          rename_i cs3 ha
          obtain ⟨w1, t, hw1, rfl, ht⟩ := hi _ _ ha
          obtain ⟨w2, ms, hw2, g1, g2, g3, g4, g5⟩ := ih _ _ _ _ _ _ _ h
          simp only [Bool.false_eq_true, if_false] at g5
          subst g5
          obtain ⟨q1, q2⟩ := wrap (w1 := w1) (t := t) (w2 := w2) (ms := ms) hw1 hw2 g1 g4 (fun _ _ => ht)
          exact ⟨_, ms, q1, g2.other hn, g3.other hn', q2, by simp [MemberText.whole]⟩
      cases first with
      | true =>
        obtain ⟨m, ms, g1, g2, g3, g4, g5⟩ := finish w0 c rest1 hw0 h
        refine ⟨w0, m :: ms, hw0, g1, g2, g3, g4, ?_⟩
        rw [if_pos rfl, if_neg (by simp), List.map_cons, intercalate_cons, e0, g5]
        simp [moreTexts, List.flatMap_map]
      | false =>
        simp only [Bool.false_eq_true, if_false] at h
        by_cases hc : c = ','
        · subst hc
          obtain ⟨w1, hw1, e1⟩ := skip_split rest1
          rw [if_pos rfl] at h
          cases hs1 : skip rest1 with
          | nil => rw [hs1] at h; cases h
          | cons c' rest' =>
            rw [hs1] at h e1
            obtain ⟨m, ms, g1, g2, g3, g4, g5⟩ := finish w1 c' rest' hw1 h
            refine ⟨w0, m :: ms, hw0, g1, g2, g3, g4, ?_⟩
            rw [if_neg (by simp), moreTexts_cons, e0, e1, g5]
            simp
        · rw [if_neg hc] at h
          cases h

/-- What is read for two fields. -/
theorem fields_sound (hk : k ≠ k')
    (hr : ∀ cs a rest, read cs = some (a, rest) → ∃ w t, JsonBlank w ∧ cs = w ++ (t ++ rest) ∧ N t a)
    (hi : ∀ cs rest, ignore cs = some rest → ∃ w t, JsonBlank w ∧ cs = w ++ (t ++ rest) ∧ S t)
    {cs : List Char} {a b : α} {rest : List Char} (h : fieldsOf read ignore k k' cs = some ((a, b), rest)) :
    ∃ w t, JsonBlank w ∧ cs = w ++ (t ++ rest) ∧ PairText N S k k' t a b := by
  obtain ⟨w0, hw0, e0⟩ := skip_split cs
  unfold fieldsOf at h
  split at h
  · cases h
  rename_i c rest1 hs
  rw [hs] at e0
  split_ifs at h with h1 h2
  · subst h1
    unfold two at h
    obtain ⟨w1, hw1, e1⟩ := skip_split rest1
    split at h
    · cases h
    rename_i c1 r1 hs1
    rw [hs1] at e1
    split_ifs at h
    split at h
    · cases h
    rename_i a1 cs1 ha
    obtain ⟨w2, t, hw2, e2, ht⟩ := hr _ _ _ ha
    rw [e2] at e1
    obtain ⟨w3, hw3, e3⟩ := skip_split cs1
    split at h
    · cases h
    rename_i c2 r2 hs2
    rw [hs2] at e3
    split_ifs at h with hc2
    subst hc2
    obtain ⟨w4, hw4, e4⟩ := skip_split r2
    split at h
    · cases h
    rename_i c3 r3 hs3
    rw [hs3] at e4
    split_ifs at h
    split at h
    · cases h
    rename_i b1 cs2 hb
    obtain ⟨w5, t', hw5, e5, ht'⟩ := hr _ _ _ hb
    rw [e5] at e4
    obtain ⟨w6, hw6, e6⟩ := skip_split cs2
    split at h
    · cases h
    rename_i c4 r4 hs4
    rw [hs4] at e6
    split_ifs at h with hc4
    subst hc4
    simp only [Option.some.injEq, Prod.mk.injEq] at h
    obtain ⟨⟨rfl, rfl⟩, rfl⟩ := h
    refine ⟨w0, _, hw0, ?_, .array (blank_append hw1 hw2) hw3 (blank_append hw4 hw5) hw6 ht ht'⟩
    rw [e0, e1, e3, e4, e6]
    simp
  · subst h2
    obtain ⟨w, ms, hw, g1, g2, g3, g4, g5⟩ := members_sound hk hr hi _ _ _ _ _ _ _ _ h
    have one : ∀ {k : List Char} {a : α}, Given N ms k none a → OneMember ms k (N · a) := by
      rintro k a (⟨h, _⟩ | ⟨_, h⟩)
      · cases h
      · exact h
    have hne : ms ≠ [] := by
      rintro rfl
      obtain ⟨f, x, b, hx, _⟩ := one g2
      simp at hx
    refine ⟨w0, _, hw0, ?_, .object g1 (one g2) (one g3) g4⟩
    rw [if_pos rfl, if_neg hne] at g5
    rw [e0, g5]
    simp

/-! ## All that is such a text is read -/

theorem moreTexts_stops (ms : List MemberText) (rest : List Char) : Stops (moreTexts ms ++ '}' :: rest) := by
  cases ms with
  | nil => exact stops_cons (by decide) _
  | cons x xs => rw [moreTexts_cons]; exact stops_cons (by decide) _

theorem Given.tail_other {ms : List MemberText} {m : MemberText} {x : Option α} {a : α} (h : Given N (m :: ms) k x a)
    (hm : m.key ≠ k) : Given N ms k x a := by
  rcases h with ⟨h1, h2⟩ | ⟨h1, front, y, back, e, h3, h4, h5⟩
  · exact .inl ⟨h1, fun y hy => h2 y (List.mem_cons_of_mem _ hy)⟩
  · cases front with
    | nil =>
      simp only [List.nil_append, List.cons.injEq] at e
      exact absurd (e.1 ▸ h3) hm
    | cons f front =>
      simp only [List.cons_append, List.cons.injEq] at e
      exact .inr ⟨h1, front, y, back, e.2, h3, h4, fun z hz => h5 z (List.mem_cons_of_mem _ hz)⟩

theorem Given.tail_this {ms : List MemberText} {m : MemberText} {x : Option α} {a : α} (h : Given N (m :: ms) k x a)
    (hm : m.key = k) : x = none ∧ N m.value a ∧ Given N ms k (some a) a := by
  rcases h with ⟨_, h2⟩ | ⟨h1, front, y, back, e, h3, h4, h5⟩
  · exact absurd hm (h2 m (List.mem_cons_self ..))
  · cases front with
    | nil =>
      simp only [List.nil_append, List.cons.injEq] at e
      obtain ⟨rfl, rfl⟩ := e
      exact ⟨h1, h4, .inl ⟨rfl, by simpa using h5⟩⟩
    | cons f front =>
      simp only [List.cons_append, List.cons.injEq] at e
      exact absurd (e.1 ▸ hm) (h5 f (by simp))

/-- The loop from the key of a member on, whatever came before. -/
theorem members_complete (hk : k ≠ k')
    (hr : ∀ t a, N t a → ∀ w rest, JsonBlank w → Stops rest → read (w ++ (t ++ rest)) = some (a, rest))
    (hi : ∀ t, S t → ∀ w rest, JsonBlank w → Stops rest → ignore (w ++ (t ++ rest)) = some rest)
    {ms : List MemberText} (hm : ∀ m ∈ ms, m.Right) {x y : Option α} {a b : α} (hx : Given N ms k x a) (hy : Given N ms k' y b)
    (hs : ∀ m ∈ ms, m.key ≠ k → m.key ≠ k' → S m.value) (rest : List Char) :
    (∀ w fuel, JsonBlank w → ms.length < fuel →
      members read ignore k k' fuel false x y (w ++ (moreTexts ms ++ '}' :: rest)) = some ((a, b), rest)) ∧
    (∀ m ms' fuel, ms = m :: ms' → ms.length < fuel →
      members read ignore k k' fuel true x y (m.whole ++ (moreTexts ms' ++ '}' :: rest)) = some ((a, b), rest)) := by
  induction ms generalizing x y with
  | nil =>
    refine ⟨fun w fuel hw hf => ?_, fun m ms' fuel h => by cases h⟩
    obtain ⟨f, rfl⟩ : ∃ f, fuel = f + 1 := ⟨fuel - 1, by omega⟩
    have h1 : x = some a := by
      rcases hx with ⟨h, _⟩ | ⟨_, fr, z, bk, h, _⟩
      · exact h
      · simp at h
    have h2 : y = some b := by
      rcases hy with ⟨h, _⟩ | ⟨_, fr, z, bk, h, _⟩
      · exact h
      · simp at h
    subst h1 h2
    rw [members, skip_blank hw]
    simp [moreTexts, skip_cons (c := '}') (by decide)]
  | cons m ms ih =>
    obtain ⟨hb, hc, hmid, hin, haf⟩ := hm m (List.mem_cons_self ..)
    have hm' : ∀ m' ∈ ms, m'.Right := fun m' h => hm m' (List.mem_cons_of_mem _ h)
    have hs' : ∀ m' ∈ ms, m'.key ≠ k → m'.key ≠ k' → S m'.value := fun m' h => hs m' (List.mem_cons_of_mem _ h)
    let tail := m.after ++ (moreTexts ms ++ '}' :: rest)
    have htail : Stops tail := stops_blank haf (moreTexts_stops ms rest)
    let body := m.keyText ++ '"' :: (m.middle ++ ':' :: (m.inner ++ (m.value ++ tail)))
    have hwhole : m.whole ++ (moreTexts ms ++ '}' :: rest) = m.before ++ '"' :: body := by
      simp [MemberText.whole, body, tail]
    have hstr : str (body.length + 1) body = some (m.key, m.middle ++ ':' :: (m.inner ++ (m.value ++ tail))) :=
      str_complete hc (by simp [body]) _
    have hcol : colon (m.middle ++ ':' :: (m.inner ++ (m.value ++ tail))) = some (m.inner ++ (m.value ++ tail)) :=
      colon_complete hmid _
    have step : ∀ f, ms.length < f →
        (if m.key = k then
          match (generalizing := false) x with
          | some _ => none
          | none =>
            match read (m.inner ++ (m.value ++ tail)) with
            | none => none
            | some (a, cs) => members read ignore k k' f false (some a) y cs
        else if m.key = k' then
          match (generalizing := false) y with
          | some _ => none
          | none =>
            match read (m.inner ++ (m.value ++ tail)) with
            | none => none
            | some (b, cs) => members read ignore k k' f false x (some b) cs
        else
          match ignore (m.inner ++ (m.value ++ tail)) with
          | none => none
          | some cs => members read ignore k k' f false x y cs) = some ((a, b), rest) := by
      intro f hf
      split_ifs with h1 h2
      · obtain ⟨rfl, hn, hg⟩ := hx.tail_this h1
        simp only [hr _ _ hn _ _ hin htail]
        exact (ih hm' hg (hy.tail_other (by rw [h1]; exact hk)) hs').1 _ _ haf hf
      · obtain ⟨rfl, hn, hg⟩ := hy.tail_this h2
        simp only [hr _ _ hn _ _ hin htail]
        exact (ih hm' (hx.tail_other h1) hg hs').1 _ _ haf hf
      · simp only [hi _ (hs m (List.mem_cons_self ..) h1 h2) _ _ hin htail]
        exact (ih hm' (hx.tail_other h1) (hy.tail_other h2) hs').1 _ _ haf hf
    constructor
    · intro w fuel hw hf
      obtain ⟨f, rfl⟩ : ∃ f, fuel = f + 1 := ⟨fuel - 1, by omega⟩
      rw [moreTexts_cons, List.cons_append, List.append_assoc, hwhole, members, skip_blank hw, skip_cons (by decide)]
      simp only [Bool.false_eq_true, if_false, if_true, show (',' : Char) ≠ '}' by decide]
      rw [skip_blank hb, skip_cons (by decide)]
      simp only [if_true, hstr, hcol]
      exact step f (by simp only [List.length_cons] at hf; omega)
    · intro m1 ms1 fuel h hf
      simp only [List.cons.injEq] at h
      obtain ⟨rfl, rfl⟩ := h
      obtain ⟨f, rfl⟩ : ∃ f, fuel = f + 1 := ⟨fuel - 1, by omega⟩
      rw [hwhole, members, skip_blank hb, skip_cons (by decide)]
      simp only [if_true, if_false, hstr, hcol, show ('"' : Char) ≠ '}' by decide]
      exact step f (by simp only [List.length_cons] at hf; omega)

theorem length_moreTexts (ms : List MemberText) : ms.length ≤ (moreTexts ms).length := by
  induction ms with
  | nil => simp
  | cons m ms ih => rw [moreTexts_cons]; simp; omega

/-- Two parts are read. -/
theorem fields_complete (hk : k ≠ k')
    (hr : ∀ t a, N t a → ∀ w rest, JsonBlank w → Stops rest → read (w ++ (t ++ rest)) = some (a, rest))
    (hh : ∀ t a, N t a → ∃ c cs, t = c :: cs ∧ ws c = false ∧ c ≠ ']')
    (hi : ∀ t, S t → ∀ w rest, JsonBlank w → Stops rest → ignore (w ++ (t ++ rest)) = some rest)
    {t : List Char} {a b : α} (h : PairText N S k k' t a b) {w : List Char} (hw : JsonBlank w) (rest : List Char) :
    fieldsOf read ignore k k' (w ++ (t ++ rest)) = some ((a, b), rest) := by
  cases h with
  | @object ms _ _ hm ha hb hs =>
    have hne : ms ≠ [] := by
      rintro rfl
      obtain ⟨f, x, b, hx, _⟩ := ha
      simp at hx
    obtain ⟨m, ms', rfl⟩ := List.exists_cons_of_ne_nil hne
    unfold fieldsOf
    rw [skip_blank hw, List.cons_append, skip_cons (by decide)]
    simp only [show ('{' : Char) ≠ '[' by decide, if_false, if_true]
    have e : [','].intercalate ((m :: ms').map MemberText.whole) ++ ['}'] ++ rest = m.whole ++ (moreTexts ms' ++ '}' :: rest) := by
      rw [List.map_cons, intercalate_cons]
      simp [moreTexts, List.flatMap_map]
    rw [e]
    refine (members_complete hk hr hi hm (.inr ⟨rfl, ha⟩) (.inr ⟨rfl, hb⟩) hs rest).2 m ms' _ rfl ?_
    have := length_moreTexts ms'
    simp only [List.length_cons, List.length_append]
    omega
  | @array w1 t w2 w3 t' w4 _ _ h1 h2 h3 h4 ha hb =>
    obtain ⟨c, cs, rfl, hc1, hc2⟩ := hh _ _ ha
    obtain ⟨c', cs', rfl, hc1', hc2'⟩ := hh _ _ hb
    have e1 := hr _ _ ha [] (w2 ++ ',' :: (w3 ++ (c' :: cs' ++ (w4 ++ ']' :: rest)))) blank_nil
      (stops_blank h2 (stops_cons (by decide) _))
    have e2 := hr _ _ hb [] (w4 ++ ']' :: rest) blank_nil (stops_blank h4 (stops_cons (by decide) _))
    simp only [List.nil_append, List.cons_append] at e1 e2
    unfold fieldsOf
    rw [skip_blank hw, List.cons_append, skip_cons (by decide)]
    simp only [if_true, two, List.append_assoc, List.cons_append, List.nil_append]
    rw [skip_blank h1, skip_cons hc1]
    simp only [hc2, if_false, e1]
    rw [skip_blank h2, skip_cons (by decide)]
    simp only [if_true]
    rw [skip_blank h3, skip_cons hc1']
    simp only [hc2', if_false, e2]
    rw [skip_blank h4, skip_cons (by decide)]
    simp

end Souris.Imaginary
