import Verif.Lemmas.JsonPrint
import Verif.Lemmas.JsonShortest
import Verif.Spec.Size

/-! # Printed JSON is not much longer than what was read -/

namespace Souris

namespace SerdeJson

theorem escapeChar_length (c : Char) : (escapeChar c).length ≤ 6 := by
  unfold escapeChar
  split_ifs <;> simp

theorem strText_length (s : List Char) : (strText s).length ≤ 2 + 6 * s.length := by
  have : (s.flatMap escapeChar).length ≤ 6 * s.length := by
    induction s with
    | nil => simp
    | cons c s ih =>
      have := escapeChar_length c
      rw [List.flatMap_cons, List.length_append, List.length_cons]
      omega
  simp only [strText, List.length_cons, List.length_append, List.length_nil]
  omega

theorem chars_length {t s : List Char} (h : JsonChars t s) : s.length ≤ t.length := by
  induction h with
  | nil => simp
  | plain _ _ _ _ ih => simpa using ih
  | short _ _ ih => simp only [List.length_cons]; omega
  | unit _ _ ih => simp only [List.length_cons, List.length_append]; omega
  | pair _ _ _ _ _ _ ih => simp only [List.length_cons, List.length_append]; omega

theorem spread_length (b : List Char) {xs : List (List Char)} (h : xs ≠ []) :
    (spread b xs).length + 1 = (xs.map fun x => b.length + x.length + 1).sum := by
  induction xs with
  | nil => exact absurd rfl h
  | cons x xs ih =>
    cases xs with
    | nil => simp [spread]
    | cons y ys =>
      have := ih (by simp)
      rw [spread_cons, List.map_cons, List.sum_cons, ← this]
      simp only [List.length_append, List.length_cons]
      omega

theorem intercalate_length {xs : List (List Char)} (h : xs ≠ []) :
    ([','].intercalate xs).length + 1 = (xs.map fun x => x.length + 1).sum := by
  induction xs with
  | nil => exact absurd rfl h
  | cons x xs ih =>
    cases xs with
    | nil => simp
    | cons y ys =>
      have := ih (by simp)
      rw [List.intercalate_cons_cons, List.map_cons, List.sum_cons, ← this]
      simp only [List.length_append, List.length_cons, List.length_nil]
      omega

theorem insert_sum (f : List Char × SJValue → Nat) (k : List Char) (v : SJValue) (m : List (List Char × SJValue)) :
    ((SJValue.insert k v m).map f).sum ≤ (m.map f).sum + f (k, v) := by
  induction m with
  | nil => simp [SJValue.insert]
  | cons x m ih =>
    obtain ⟨a, b⟩ := x
    simp only [SJValue.insert]
    split_ifs with h1
    · subst h1; simp only [List.map_cons, List.sum_cons]; omega
    · simp only [List.map_cons, List.sum_cons]; omega
    · simp only [List.map_cons, List.sum_cons]; omega

theorem collect_sum (f : List Char × SJValue → Nat) (es : List (List Char × SJValue)) :
    ((SJValue.collect es).map f).sum ≤ (es.map f).sum := by
  induction es using List.reverseRecOn with
  | nil => simp [SJValue.collect]
  | append_singleton es e ih =>
    have : SJValue.collect (es ++ [e]) = SJValue.insert e.1 e.2 (SJValue.collect es) := by
      simp [SJValue.collect, List.foldl_append]
    rw [this, List.map_append, List.sum_append]
    have := insert_sum f e.1 e.2 (SJValue.collect es)
    simp only [List.map_cons, List.map_nil, List.sum_cons, List.sum_nil, Prod.mk.eta] at this ⊢
    omega

theorem sum_le {α : Type} {f g : α → Nat} {l : List α} (h : ∀ x ∈ l, f x ≤ 31 * g x) : (l.map f).sum ≤ 31 * (l.map g).sum := by
  induction l with
  | nil => simp
  | cons x l ih =>
    have := h x (by simp)
    have := ih fun y hy => h y (by simp [hy])
    simp only [List.map_cons, List.sum_cons]
    omega

theorem num_length {t : List Char} {n : SJNumber} (h : JsonNum t n) : (numberText n).length ≤ 31 * t.length := by
  have real : ∀ {t int frac : List Char} {e : Int}, JsonReal t int frac e → 1 ≤ t.length := by
    rintro t int frac e ⟨fr, ex, rfl, hw, _⟩
    have := List.length_pos_of_ne_nil hw.1.1
    simp only [List.length_append]
    omega
  cases h with
  | posInt h hv =>
    have h1 := natText_length (d := digitsValue t) (n := 20) (by decide) (by omega)
    have h2 := List.length_pos_of_ne_nil h.1.1
    simp only [numberText]
    omega
  | @negInt ds h h0 hv =>
    have h1 := natText_length (d := digitsValue ds) (n := 20) (by decide) (by omega)
    have h2 := List.length_pos_of_ne_nil h.1.1
    simp only [numberText, intText]
    rw [if_pos (by omega), Int.natAbs_neg, Int.natAbs_natCast]
    simp only [List.length_cons]
    omega
  | posFloat h hint hb hs hv =>
    have h1 := floatText_length hb
    have h2 := real h
    simp only [numberText]
    omega
  | negFloat h hint hb hs hv =>
    have h1 := floatText_length hb
    have h2 := real h
    simp only [numberText, List.length_cons]
    omega

theorem print_length {d : Nat} {t : List Char} {j : SJValue} (h : JsonDoc JsonNum d t j) : (print j).length ≤ 31 * t.length := by
  induction h with
  | null | true | false => simp [print]
  | number d h => exact num_length h
  | string d h =>
    have h1 := chars_length h
    have h2 := strText_length ‹_›
    simp only [print, List.length_cons, List.length_append, List.length_nil]
    omega
  | emptyArray d hw => simp [print, printList, commas]; omega
  | emptyObject d hw => simp [print, printEntries, commas]; omega
  | @array d es hne hw h ih =>
    rw [print, printList_eq, commas_spread]
    have h1 := intercalate_length (xs := es.map JsonElement.whole) (by simpa using hne)
    have h2 := spread_length [] (xs := (es.map JsonElement.value).map print) (by simpa using hne)
    simp only [List.map_map] at h1 h2
    have h3 : (es.map ((fun x => ([] : List Char).length + x.length + 1) ∘ print ∘ JsonElement.value)).sum ≤
        31 * (es.map ((fun x => x.length + 1) ∘ JsonElement.whole)).sum := by
      refine sum_le fun e he => ?_
      have := ih e he
      simp only [Function.comp, JsonElement.whole, List.length_append, List.length_nil]
      omega
    simp only [List.length_cons, List.length_append, List.length_nil, List.map_map]
    omega
  | @object d ms m hne hw hk h hm ih =>
    rw [print, printEntries_eq, commas_spread]
    have hc := gathered_eq hm
    by_cases hm0 : m = []
    · subst hm0
      simp [spread]
      omega
    have h1 := intercalate_length (xs := ms.map JsonMember.whole) (by simpa using hne)
    have h2 := spread_length [] (xs := m.map fun e => strText e.1 ++ ':' :: print e.2) (by simpa using hm0)
    simp only [List.map_map] at h1 h2
    have h4 := collect_sum ((fun x => ([] : List Char).length + x.length + 1) ∘ fun e => strText e.1 ++ ':' :: print e.2)
      (ms.map fun x => (x.key, x.element.value))
    rw [hc] at h4
    have h3 : ((ms.map fun x => (x.key, x.element.value)).map ((fun x => ([] : List Char).length + x.length + 1) ∘
        fun e => strText e.1 ++ ':' :: print e.2)).sum ≤ 31 * (ms.map ((fun x => x.length + 1) ∘ JsonMember.whole)).sum := by
      rw [List.map_map]
      refine sum_le fun e he => ?_
      have := ih e he
      have h5 := chars_length (hk e he)
      have h6 := strText_length e.key
      simp only [Function.comp, JsonMember.whole, JsonElement.whole, List.length_append, List.length_cons, List.length_nil]
      omega
    simp only [List.length_cons, List.length_append, List.length_nil]
    omega

end SerdeJson

end Souris
