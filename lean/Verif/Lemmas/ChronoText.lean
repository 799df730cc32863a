import Verif.Spec.ChronoText
import Verif.Lemmas.Display
import Verif.Lemmas.IntegerSerde
import Mathlib.Data.List.TakeWhile
import Mathlib.Data.List.Induction

/-! # Lemmas about timestamps as text -/

namespace Souris

namespace Chrono

/-! ## White space -/

theorem isWhite_iff {c : Char} : isWhite c = true ↔ c.toNat ∈ whiteSpace := by
  simp only [isWhite, whiteSpace, decide_eq_true_eq, List.mem_cons, List.not_mem_nil, or_false]
  omega

theorem trim_blank {w r : List Char} (hw : BlankText w) (hr : ∀ c t, r = c :: t → c.toNat ∉ whiteSpace) :
    trim (w ++ r) = r := by
  unfold trim
  induction w with
  | nil =>
    cases r with
    | nil => rfl
    | cons c t =>
      have := hr c t rfl
      rw [← isWhite_iff] at this
      simp [List.dropWhile_cons, this]
  | cons c w ih =>
    have h1 := isWhite_iff.mpr (hw c (by simp))
    rw [List.cons_append, List.dropWhile_cons, if_pos h1]
    exact ih fun x hx => hw x (by simp [hx])

theorem trim_split (s : List Char) : ∃ w, BlankText w ∧ s = w ++ trim s := by
  refine ⟨s.takeWhile isWhite, fun c hc => isWhite_iff.mp ?_, (List.takeWhile_append_dropWhile).symm⟩
  exact List.mem_takeWhile_imp hc

theorem digit_not_white {c : Char} (h : c ∈ decimalDigits) : c.toNat ∉ whiteSpace := by
  have : ∀ c ∈ decimalDigits, c.toNat ∉ whiteSpace := by decide
  exact this c h

theorem blank_noDigit {w : List Char} {x : Char} {r : List Char} (hw : BlankText w) (hx : x ∉ decimalDigits) :
    NoDigit (w ++ x :: r) := by
  intro c t e
  cases w with
  | nil => cases e; exact hx
  | cons y w =>
    cases e
    exact fun h => digit_not_white h (hw c (by simp))

theorem blank_noDigit' {w : List Char} (hw : BlankText w) : NoDigit w := by
  intro c t e
  subst e
  exact fun h => digit_not_white h (hw c (by simp))

/-! ## Numbers -/

theorem digitsValue_append (a b : List Char) : digitsValue (a ++ b) = digitsValue a * 10 ^ b.length + digitsValue b := by
  unfold digitsValue
  rw [List.foldl_append]
  generalize List.foldl (fun acc c => acc * 10 + decimalDigits.idxOf c) 0 a = x
  induction b using List.reverseRecOn with
  | nil => simp
  | append_singleton b c ih =>
    rw [List.foldl_append, List.foldl_append, ih]
    simp only [List.foldl_cons, List.foldl_nil, List.length_append, List.length_cons, List.length_nil, Nat.pow_succ,
      zero_add]
    ring

theorem digitsValue_lt {s : List Char} (h : ∀ c ∈ s, c ∈ decimalDigits) : digitsValue s < 10 ^ s.length := by
  induction s using List.reverseRecOn with
  | nil => simp [digitsValue]
  | append_singleton s c ih =>
    have h1 := ih fun x hx => h x (by simp [hx])
    have h2 : decimalDigits.idxOf c < 10 := List.idxOf_lt_length_of_mem (h c (by simp))
    rw [digitsValue_append, List.length_append, List.length_singleton, Nat.pow_succ]
    have h3 : digitsValue [c] = decimalDigits.idxOf c := by simp [digitsValue]
    rw [h3]
    omega

theorem number_sound {max n : Nat} {s r : List Char} (h : number max s = some (n, r)) :
    ∃ ds, s = ds ++ r ∧ DigitsText 1 max n ds := by
  unfold number at h
  simp only at h
  split at h
  · cases h
  · rename_i hne
    rw [Option.map_eq_some_iff] at h
    obtain ⟨v, hv, e⟩ := h
    obtain ⟨rfl, rfl⟩ := Prod.mk.inj e
    obtain ⟨h1, h2, h3⟩ := parseDigits_iff.mp hv
    set ds := (s.take max).takeWhile fun c => (digitOf c).isSome with hds
    have hp : ds <+: s := (List.takeWhile_prefix _).trans (List.take_prefix _ _)
    obtain ⟨t, ht⟩ := hp
    refine ⟨ds, ?_, List.length_pos_iff.mpr hne, ?_, h1, h2.symm⟩
    · rw [← ht, List.drop_left]
    · exact ((List.takeWhile_prefix _).length_le).trans (List.length_take_le _ _)

theorem number_of {max n : Nat} {ds r : List Char} (h : DigitsText 1 max n ds) (hn : n < 2 ^ 63)
    (hr : ds.length = max ∨ NoDigit r) : number max (ds ++ r) = some (n, r) := by
  obtain ⟨h1, h2, h3, h4⟩ := h
  have hall : ∀ c ∈ ds, (digitOf c).isSome = true := fun c hc => digitOf_isSome.mpr (h3 c hc)
  have e : ((ds ++ r).take max).takeWhile (fun c => (digitOf c).isSome) = ds := by
    rw [List.take_append, List.take_of_length_le h2, List.takeWhile_append_of_pos hall]
    have : (r.take (max - ds.length)).takeWhile (fun c => (digitOf c).isSome) = [] := by
      rcases hr with hr | hr
      · simp [hr]
      · cases r with
        | nil => simp
        | cons c t =>
          cases hk : max - ds.length with
          | zero => simp
          | succ k =>
            have hc := hr c t rfl
            rw [← digitOf_isSome] at hc
            simp [List.takeWhile_cons, hc]
    rw [this, List.append_nil]
  unfold number
  simp only [e]
  rw [if_neg (List.length_pos_iff.mp h1), parseDigits_iff.mpr ⟨h3, h4.symm, by omega⟩, List.drop_left]
  rfl

theorem number_of' {max n : Nat} {ds r : List Char} (h : DigitsText 1 max n ds) (hm : max ≤ 18)
    (hr : ds.length = max ∨ NoDigit r) : number max (ds ++ r) = some (n, r) := by
  refine number_of h ?_ hr
  obtain ⟨h1, h2, h3, h4⟩ := h
  have := digitsValue_lt h3
  have h5 : (10 : Nat) ^ ds.length ≤ 10 ^ 18 := Nat.pow_le_pow_right (by decide) (by omega)
  rw [← h4]
  omega

theorem digits_head {lo hi n : Nat} {ds : List Char} (h : DigitsText (lo + 1) hi n ds) (r : List Char) :
    ∀ c t, ds ++ r = c :: t → c ∈ decimalDigits := by
  intro c t e
  obtain ⟨h1, _, h3, _⟩ := h
  cases ds with
  | nil => simp at h1
  | cons x ds => cases e; exact h3 c (by simp)

/-- White space, digits and something else. -/
theorem step_number {max n : Nat} {w ds r : List Char} (hw : BlankText w) (h : DigitsText 1 max n ds) (hm : max ≤ 18)
    (hr : NoDigit r) : number max (trim (w ++ (ds ++ r))) = some (n, r) := by
  rw [trim_blank hw fun c t e => digit_not_white (digits_head h r c t e)]
  exact number_of' h hm (.inr hr)

theorem step_lit {x : Char} {w r : List Char} (hw : BlankText w) (hx : x.toNat ∉ whiteSpace) :
    lit x (trim (w ++ x :: r)) = some r := by
  rw [trim_blank hw fun c t e => by cases e; exact hx]
  simp [lit]

theorem number_trim_sound {max n : Nat} {s r : List Char} (h : number max (trim s) = some (n, r)) :
    ∃ w ds, s = w ++ ds ++ r ∧ BlankText w ∧ DigitsText 1 max n ds := by
  obtain ⟨w, hw, e⟩ := trim_split s
  obtain ⟨ds, e2, hd⟩ := number_sound h
  exact ⟨w, ds, by rw [e, e2, List.append_assoc], hw, hd⟩

theorem lit_trim_sound {x : Char} {s r : List Char} (h : lit x (trim s) = some r) :
    ∃ w, s = w ++ x :: r ∧ BlankText w := by
  obtain ⟨w, hw, e⟩ := trim_split s
  refine ⟨w, ?_, hw⟩
  rw [e]
  cases ht : trim s with
  | nil => rw [ht] at h; cases h
  | cons c t =>
    rw [ht] at h
    simp only [lit] at h
    split at h
    · rename_i hc
      cases h
      rw [hc]
    · cases h

/-! ## Years -/

theorem year_sound {y : Int} {s r : List Char} (h : year s = some (y, r)) : ∃ yt, s = yt ++ r ∧ YearText y yt := by
  unfold year at h
  simp only at h
  split at h
  · rename_i y' r' e
    split at h
    · cases h
      have fin : ∀ {max n : Nat} {ds : List Char}, DigitsText 1 max n ds → DigitsText 1 ds.length n ds :=
        fun h => ⟨h.1, Nat.le_refl _, h.2.2⟩
      split at e
      · rw [Option.map_eq_some_iff] at e
        obtain ⟨⟨n, r⟩, e, e2⟩ := e
        obtain ⟨rfl, rfl⟩ := Prod.mk.inj e2
        obtain ⟨ds, rfl, hd⟩ := number_sound e
        exact ⟨'-' :: ds, rfl, .minus (fin hd)⟩
      · rw [Option.map_eq_some_iff] at e
        obtain ⟨⟨n, r⟩, e, e2⟩ := e
        obtain ⟨rfl, rfl⟩ := Prod.mk.inj e2
        obtain ⟨ds, rfl, hd⟩ := number_sound e
        exact ⟨'+' :: ds, rfl, .plus (fin hd)⟩
      · rw [Option.map_eq_some_iff] at e
        obtain ⟨⟨n, r⟩, e, e2⟩ := e
        obtain ⟨rfl, rfl⟩ := Prod.mk.inj e2
        obtain ⟨ds, rfl, hd⟩ := number_sound e
        exact ⟨ds, rfl, .plain hd⟩
    · cases h
  · cases h

theorem year_of {y : Int} {yt r : List Char} (h : YearText y yt) (h1 : -(2 ^ 31) ≤ y) (h2 : y < 2 ^ 31)
    (hr : NoDigit r) : year (yt ++ r) = some (y, r) := by
  have wide : ∀ {n : Nat} {ds : List Char}, DigitsText 1 ds.length n ds → n < 2 ^ 63 →
      number (ds ++ r).length (ds ++ r) = some (n, r) := by
    intro n ds h hn
    exact number_of ⟨h.1, by simp, h.2.2⟩ hn (.inr hr)
  unfold year
  cases h with
  | @plain n s h =>
    have e := number_of' h (by decide) (.inr hr)
    have hd := digits_head h r
    cases hl : yt ++ r with
    | nil =>
      rw [hl] at e
      cases e
    | cons c t =>
      rw [hl] at e
      have hc := hd c t hl
      have n1 : c ≠ '-' := fun x => absurd (x ▸ hc) (by decide)
      have n2 : c ≠ '+' := fun x => absurd (x ▸ hc) (by decide)
      dsimp only
      split
      · rename_i y' s' he
        split at he
        · rename_i hx; cases hx; exact absurd rfl n1
        · rename_i hx; cases hx; exact absurd rfl n2
        · rw [e, Option.map_some] at he
          cases he
          rw [if_pos ⟨h1, h2⟩]
      · rename_i he
        split at he
        · rename_i hx; cases hx; exact absurd rfl n1
        · rename_i hx; cases hx; exact absurd rfl n2
        · rw [e, Option.map_some] at he
          cases he
  | @plus n s h =>
    simp only [List.cons_append, wide h (by omega), Option.map_some]
    rw [if_pos ⟨h1, h2⟩]
  | @minus n s h =>
    simp only [List.cons_append, wide h (by omega), Option.map_some]
    rw [if_pos ⟨h1, h2⟩]

theorem year_head {y : Int} {yt : List Char} (h : YearText y yt) (r : List Char) :
    ∀ c t, yt ++ r = c :: t → c.toNat ∉ whiteSpace := by
  intro c t e
  cases h with
  | plain h => exact digit_not_white (digits_head h r c t e)
  | plus h => cases e; decide
  | minus h => cases e; decide

/-! ## Fractions -/

theorem fraction_sound {n : Nat} {s r : List Char} (h : fraction s = some (n, r)) :
    ∃ fr, s = fr ++ r ∧ FractionText n fr := by
  unfold fraction at h
  split at h
  · rename_i s
    rw [Option.map_eq_some_iff] at h
    obtain ⟨⟨v, r'⟩, e, e2⟩ := h
    obtain ⟨rfl, rfl⟩ := Prod.mk.inj e2
    obtain ⟨ds, rfl, hd⟩ := number_sound e
    simp only
    set more := r'.takeWhile fun c => (digitOf c).isSome with hm
    have hr' : r' = more ++ r'.dropWhile fun c => (digitOf c).isSome := (List.takeWhile_append_dropWhile).symm
    have hmd : ∀ c ∈ more, c ∈ decimalDigits := fun c hc =>
      digitOf_isSome.mp (List.mem_takeWhile_imp (p := fun c => (digitOf c).isSome) hc)
    obtain ⟨h1, h2, h3, h4⟩ := hd
    -- at most nine digits are read; if there are more, nine were
    have hlen : more = [] ∨ ds.length = 9 := by
      by_cases h9 : ds.length = 9
      · exact .inr h9
      · left
        have hex := number_of (max := 9) (n := digitsValue (ds ++ more.take 1)) (ds := ds ++ more.take 1)
          (r := r'.drop (more.take 1).length)
        cases hmc : more with
        | nil => rfl
        | cons c t =>
          exfalso
          have hrc : r' = c :: (t ++ r'.dropWhile fun c => (digitOf c).isSome) := by
            rw [hmc] at hr'; exact hr'
          have hcd : c ∈ decimalDigits := hmd c (by simp [hmc])
          unfold number at e
          simp only at e
          have htake : (ds ++ r').take 9 = ds ++ r'.take (9 - ds.length) := by
            rw [List.take_append, List.take_of_length_le (by omega)]
          have htw : ((ds ++ r').take 9).takeWhile (fun c => (digitOf c).isSome) =
              ds ++ (r'.take (9 - ds.length)).takeWhile (fun c => (digitOf c).isSome) := by
            rw [htake, List.takeWhile_append_of_pos fun c hc => digitOf_isSome.mpr (h3 c hc)]
          have hpos : 0 < ((r'.take (9 - ds.length)).takeWhile fun c => (digitOf c).isSome).length := by
            obtain ⟨k, hk⟩ : ∃ k, 9 - ds.length = k + 1 := ⟨8 - ds.length, by omega⟩
            rw [hk, hrc, List.take_succ_cons, List.takeWhile_cons, if_pos (digitOf_isSome.mpr hcd)]
            simp
          split at e
          · cases e
          · rw [Option.map_eq_some_iff] at e
            obtain ⟨x, _, ex⟩ := e
            have hdrop := (Prod.mk.inj ex).2
            have := congrArg List.length hdrop
            rw [htw, List.length_drop, List.length_append, List.length_append] at this
            rw [hrc] at this hpos
            simp only [List.length_cons] at this
            omega
    have hall : ∀ c ∈ ds ++ more, c ∈ decimalDigits := by
      intro c hc
      rcases List.mem_append.mp hc with hc | hc
      · exact h3 c hc
      · exact hmd c hc
    refine ⟨'.' :: (ds ++ more), ?_, ?_⟩
    · rw [List.cons_append, List.append_assoc, ← hr']
    · have hs := FractionText.some (v := digitsValue (ds ++ more)) (s := ds ++ more)
        ⟨by simp; omega, Nat.le_refl _, hall, rfl⟩
      have hlen2 : (ds ++ r').length - r'.length = ds.length := by simp
      rw [hlen2]
      have key : v * 10 ^ (9 - ds.length) = digitsValue (ds ++ more) * 10 ^ 9 / 10 ^ (ds ++ more).length := by
        rw [digitsValue_append, List.length_append, h4]
        have hlt := digitsValue_lt hmd
        rcases hlen with hm0 | h9
        · rw [hm0]
          simp only [List.length_nil, Nat.pow_zero, Nat.mul_one, Nat.add_zero, digitsValue, List.foldl_nil]
          symm
          refine Nat.div_eq_of_eq_mul_left (Nat.pow_pos (by decide)) ?_
          rw [Nat.mul_assoc, ← Nat.pow_add]
          congr 2
          omega
        · rw [h9]
          simp only [Nat.sub_self, Nat.pow_zero, Nat.mul_one]
          symm
          rw [Nat.pow_add, Nat.mul_comm (10 ^ 9) (10 ^ more.length),
            Nat.mul_div_mul_right _ _ (Nat.pow_pos (by decide)), Nat.add_comm,
            Nat.add_mul_div_right _ _ (Nat.pow_pos (by decide)), Nat.div_eq_of_lt hlt, Nat.zero_add]
      rw [key]
      exact hs
  · cases h
    exact ⟨[], rfl, .none⟩

theorem fraction_of {n : Nat} {fr w : List Char} (h : FractionText n fr) (hw : BlankText w) :
    fraction (fr ++ w) = some (n, w) := by
  cases h with
  | none =>
    unfold fraction
    simp only [List.nil_append]
    split
    · exact absurd (hw '.' (by simp)) (by decide)
    · rfl
  | @some v s h =>
    obtain ⟨h1, h2, h3, h4⟩ := h
    have hsp : s = s.take 9 ++ s.drop 9 := (List.take_append_drop 9 s).symm
    have hd1 : ∀ c ∈ s.take 9, c ∈ decimalDigits := fun c hc => h3 c (List.mem_of_mem_take hc)
    have hd2 : ∀ c ∈ s.drop 9, c ∈ decimalDigits := fun c hc => h3 c (List.mem_of_mem_drop hc)
    have hnum : number 9 (s.take 9 ++ (s.drop 9 ++ w)) = .some (digitsValue (s.take 9), s.drop 9 ++ w) := by
      refine number_of' ⟨by rw [List.length_take]; omega, List.length_take_le _ _, hd1, rfl⟩ (by decide) ?_
      by_cases h9 : 9 ≤ s.length
      · left; rw [List.length_take]; omega
      · right
        rw [List.drop_eq_nil_of_le (by omega), List.nil_append]
        exact blank_noDigit' hw
    have hdrop : (s.drop 9 ++ w).dropWhile (fun c => (digitOf c).isSome) = w := by
      rw [List.dropWhile_append_of_pos fun c hc => digitOf_isSome.mpr (hd2 c hc)]
      cases w with
      | nil => rfl
      | cons c t =>
        have : ¬ (digitOf c).isSome = true := fun hh => blank_noDigit' hw c t rfl (digitOf_isSome.mp hh)
        rw [List.dropWhile_cons, if_neg this]
    have hval : digitsValue (s.take 9) * 10 ^ (9 - ((s ++ w).length - (s.drop 9 ++ w).length)) =
        v * 10 ^ 9 / 10 ^ s.length := by
      have e1 : (s ++ w).length - (s.drop 9 ++ w).length = (s.take 9).length := by
        simp only [List.length_append, List.length_drop, List.length_take]; omega
      rw [e1, ← h4]
      by_cases h9 : 9 ≤ s.length
      · have e2 : (s.take 9).length = 9 := by rw [List.length_take]; omega
        have e3 : s.length = 9 + (s.drop 9).length := by rw [List.length_drop]; omega
        have hlt := digitsValue_lt hd2
        have e4 : digitsValue s = digitsValue (s.take 9) * 10 ^ (s.drop 9).length + digitsValue (s.drop 9) := by
          rw [← digitsValue_append, List.take_append_drop]
        rw [e2, e3, e4, Nat.pow_add, Nat.mul_comm (10 ^ 9) (10 ^ (s.drop 9).length),
          Nat.mul_div_mul_right _ _ (Nat.pow_pos (by decide)), Nat.add_comm,
          Nat.add_mul_div_right _ _ (Nat.pow_pos (by decide)), Nat.div_eq_of_lt hlt]
        simp
      · rw [List.take_of_length_le (by omega)]
        symm
        refine Nat.div_eq_of_eq_mul_left (Nat.pow_pos (by decide)) ?_
        rw [Nat.mul_assoc, ← Nat.pow_add]
        congr 2
        omega
    have hnum' : number 9 (s ++ w) = .some (digitsValue (s.take 9), s.drop 9 ++ w) := by
      rw [← hnum, ← List.append_assoc, List.take_append_drop]
    unfold fraction
    simp only [List.cons_append, hnum', Option.map_some, hdrop]
    rw [hval]

end Chrono

end Souris
