import Verif.Lemmas.ChronoText
import Verif.Lemmas.JsonFloatText

/-! # C86: timestamps as text -/

namespace Souris

namespace Chrono

theorem build_iff {y : Int} {mo d h mi s n : Nat} {t : Timestamp} :
    build y mo d h mi s n = some t ↔ t.year = y ∧ t.month = mo ∧ t.day = d ∧ t.hour = h ∧ t.minute = mi ∧
      n < 1000000000 ∧ SecondIs s n t.sec t.nano ∧ IsDate t.year t.month t.day ∧
      IsTime t.hour t.minute t.sec t.nano := by
  unfold build
  simp only [dateOk_iff, timeOk_iff]
  by_cases hs : s = 60
  · subst hs
    simp only [if_true]
    constructor
    · intro h
      split at h
      · rename_i hc
        cases h
        exact ⟨rfl, rfl, rfl, rfl, rfl, hc.2.1, .leap _, hc.2.2.1, hc.2.2.2⟩
      · cases h
    · rintro ⟨rfl, rfl, rfl, rfl, rfl, hn, hs, hd, ht⟩
      generalize hsec : t.sec = sec at hs ht
      generalize hna : t.nano = na at hs ht
      cases hs with
      | plain h => omega
      | leap f =>
        rw [if_pos ⟨by omega, hn, hd, ht⟩, ← hsec, ← hna]
  · simp only [if_neg hs]
    constructor
    · intro h
      split at h
      · rename_i hc
        cases h
        exact ⟨rfl, rfl, rfl, rfl, rfl, hc.2.1, .plain (by omega), hc.2.2.1, hc.2.2.2⟩
      · cases h
    · rintro ⟨rfl, rfl, rfl, rfl, rfl, hn, hs, hd, ht⟩
      generalize hsec : t.sec = sec at hs ht
      generalize hna : t.nano = na at hs ht
      cases hs with
      | plain h => rw [if_pos ⟨by omega, hn, hd, ht⟩, ← hsec, ← hna]
      | leap f => exact absurd rfl hs

theorem frac_lt {n : Nat} {s : List Char} (h : FractionText n s) : n < 1000000000 := by
  cases h with
  | none => decide
  | @some v s h =>
    obtain ⟨_, _, h3, h4⟩ := h
    have := digitsValue_lt h3
    rw [h4] at this
    rw [Nat.div_lt_iff_lt_mul (Nat.pow_pos (by decide))]
    calc v * 10 ^ 9 < 10 ^ s.length * 10 ^ 9 := Nat.mul_lt_mul_of_pos_right this (by decide)
      _ = 1000000000 * 10 ^ s.length := by rw [Nat.mul_comm]; congr 1

theorem frac_noDigit {n : Nat} {s w : List Char} (h : FractionText n s) (hw : BlankText w) : NoDigit (s ++ w) := by
  cases h with
  | none => exact blank_noDigit' hw
  | some h => intro c t e; cases e; decide

theorem trim_nil {s : List Char} : trim s = [] ↔ BlankText s := by
  constructor
  · intro h
    obtain ⟨w, hw, e⟩ := trim_split s
    rw [h, List.append_nil] at e
    rw [e]; exact hw
  · intro h
    have := trim_blank h (r := []) (fun c t e => by cases e)
    rwa [List.append_nil] at this

end Chrono

open Chrono

/-- C86: a text is read as a timestamp exactly if it is a text of this timestamp. -/
theorem C86_reads {s : List Char} {t : Timestamp} : Chrono.parse s = some t ↔ StampText t s := by
  constructor
  · intro h
    unfold Chrono.parse at h
    simp only [Option.bind_eq_bind, Option.bind_eq_some_iff, Prod.exists] at h
    obtain ⟨y, s1, h1, s2, h2, mo, s3, h3, s4, h4, d, s5, h5, s6, h6, hh, s7, h7, s8, h8, mi, s9, h9, s10, h10, sec,
      s11, h11, n, s12, h12, h13⟩ := h
    split at h13
    · rename_i hblank
      obtain ⟨rfl, rfl, rfl, rfl, rfl, hn, hsec, hd, ht⟩ := build_iff.mp h13
      obtain ⟨w0, hw0, e0⟩ := trim_split s
      obtain ⟨yt, e1, hy⟩ := year_sound h1
      obtain ⟨w1, rfl, hw1⟩ := lit_trim_sound h2
      obtain ⟨w2, mt, rfl, hw2, hmt⟩ := number_trim_sound h3
      obtain ⟨w3, rfl, hw3⟩ := lit_trim_sound h4
      obtain ⟨w4, dt, rfl, hw4, hdt⟩ := number_trim_sound h5
      obtain ⟨w5, rfl, hw5⟩ := lit_trim_sound h6
      obtain ⟨w6, ht', rfl, hw6, hht⟩ := number_trim_sound h7
      obtain ⟨w7, rfl, hw7⟩ := lit_trim_sound h8
      obtain ⟨w8, mit, rfl, hw8, hmit⟩ := number_trim_sound h9
      obtain ⟨w9, rfl, hw9⟩ := lit_trim_sound h10
      obtain ⟨w10, st, rfl, hw10, hst⟩ := number_trim_sound h11
      obtain ⟨fr, rfl, hfr⟩ := fraction_sound h12
      refine ⟨w0 ++ yt ++ w1 ++ '-' :: (w2 ++ mt ++ w3 ++ '-' :: (w4 ++ dt)), w5,
        w6 ++ ht' ++ w7 ++ ':' :: (w8 ++ mit ++ w9 ++ ':' :: (w10 ++ st ++ fr ++ s12)), ?_, ⟨⟨w0, yt, w1, w2, mt, w3,
        w4, dt, rfl, hw0, hw1, hw2, hw3, hw4, hy, hmt, hdt⟩, hd⟩, hw5, ⟨⟨w6, ht', w7, w8, mit, w9, w10, st, sec, fr, n,
        s12, rfl, hw6, hw7, hw8, hw9, hw10, trim_nil.mp hblank, hht, hmit, hst, hfr, hsec⟩, ht⟩⟩
      rw [e0, e1]
      simp only [List.append_assoc, List.cons_append]
    · cases h13
  · rintro ⟨a, w, b, rfl, ⟨⟨w0, yt, w1, w2, mt, w3, w4, dt, rfl, hw0, hw1, hw2, hw3, hw4, hy, hmt, hdt⟩, hd⟩, hw,
      ⟨⟨w6, ht', w7, w8, mit, w9, w10, st, sec, fr, n, w11, rfl, hw6, hw7, hw8, hw9, hw10, hw11, hht, hmit, hst, hfr,
        hsec⟩, ht⟩⟩
    have e : w0 ++ yt ++ w1 ++ '-' :: (w2 ++ mt ++ w3 ++ '-' :: (w4 ++ dt)) ++ w ++ 'T' ::
        (w6 ++ ht' ++ w7 ++ ':' :: (w8 ++ mit ++ w9 ++ ':' :: (w10 ++ st ++ fr ++ w11))) =
        w0 ++ (yt ++ (w1 ++ '-' :: (w2 ++ (mt ++ (w3 ++ '-' :: (w4 ++ (dt ++ (w ++ 'T' ::
        (w6 ++ (ht' ++ (w7 ++ ':' :: (w8 ++ (mit ++ (w9 ++ ':' :: (w10 ++ (st ++ (fr ++ w11))))))))))))))))) := by
      simp only [List.append_assoc, List.cons_append]
    rw [e]
    unfold Chrono.parse
    have hy1 := hd.1.1
    have hy2 := hd.1.2
    rw [trim_blank hw0 (year_head hy _), year_of hy (by omega) (by omega) (blank_noDigit hw1 (by decide))]
    simp only [Option.bind_eq_bind, Option.bind_some]
    rw [step_lit hw1 (by decide), Option.bind_some,
      step_number hw2 hmt (by decide) (blank_noDigit hw3 (by decide)), Option.bind_some]
    simp only
    rw [step_lit hw3 (by decide), Option.bind_some,
      step_number hw4 hdt (by decide) (blank_noDigit hw (by decide)), Option.bind_some]
    simp only
    rw [step_lit hw (by decide), Option.bind_some,
      step_number hw6 hht (by decide) (blank_noDigit hw7 (by decide)), Option.bind_some]
    simp only
    rw [step_lit hw7 (by decide), Option.bind_some,
      step_number hw8 hmit (by decide) (blank_noDigit hw9 (by decide)), Option.bind_some]
    simp only
    rw [step_lit hw9 (by decide), Option.bind_some,
      step_number hw10 hst (by decide) (frac_noDigit hfr hw11), Option.bind_some]
    simp only
    rw [fraction_of hfr hw11, Option.bind_some]
    simp only
    rw [if_pos (trim_nil.mpr hw11)]
    exact build_iff.mpr ⟨rfl, rfl, rfl, rfl, rfl, frac_lt hfr, hsec, hd, ht⟩

/-! ## Printing -/

namespace Chrono

theorem two_spec {n : Nat} (h : n < 100) : DigitsText 2 2 n (two n) := by
  have h1 := digitChar_mem (d := n / 10) (by omega)
  have h2 := digitChar_mem (d := n % 10) (by omega)
  refine ⟨by simp [two], by simp [two], ?_, ?_⟩
  · intro c hc
    simp only [two, List.mem_cons, List.not_mem_nil, or_false] at hc
    rcases hc with rfl | rfl
    · exact h1.1
    · exact h2.1
  · simp only [two, digitsValue, List.foldl_cons, List.foldl_nil, h1.2, h2.2]
    omega

theorem zeros_value (k : Nat) : digitsValue (List.replicate k '0') = 0 := by
  induction k with
  | zero => rfl
  | succ k ih =>
    rw [List.replicate_succ', digitsValue_append, ih]
    decide

theorem pad_spec (w n : Nat) : DigitsText w (pad w n).length n (pad w n) := by
  obtain ⟨h1, h2, h3⟩ := natText_spec n
  refine ⟨?_, Nat.le_refl _, ?_, ?_⟩
  · simp only [pad, List.length_append, List.length_replicate]; omega
  · intro c hc
    rcases List.mem_append.mp hc with hc | hc
    · rw [(List.mem_replicate.mp hc).2]; decide
    · exact h2 c hc
  · rw [pad, digitsValue_append, zeros_value, h3]; simp

theorem pad_length {w n : Nat} (hw : 0 < w) (h : n < 10 ^ w) : (pad w n).length = w := by
  have := SerdeJson.natText_length hw h
  simp only [pad, List.length_append, List.length_replicate]; omega

theorem pad_head (w n : Nat) : (pad w n).length = w ∨ (0 < n → (pad w n).head? ≠ some '0') := by
  by_cases h : (natText n).length ≤ w
  · left
    simp only [pad, List.length_append, List.length_replicate]; omega
  · right
    intro h0 hh
    rw [pad, Nat.sub_eq_zero_of_le (by omega), List.replicate_zero, List.nil_append] at hh
    have e := natText_head n hh
    have := (natText_spec n).2.2
    rw [e] at this
    have : (0 : Nat) = n := this
    omega

/-- Digits of the same number with the same length are the same. -/
theorem digits_unique {a b : List Char} (ha : ∀ c ∈ a, c ∈ decimalDigits) (hb : ∀ c ∈ b, c ∈ decimalDigits)
    (hl : a.length = b.length) (hv : digitsValue a = digitsValue b) : a = b := by
  induction a using List.reverseRecOn generalizing b with
  | nil => exact (List.length_eq_zero_iff.mp hl.symm).symm
  | append_singleton a c ih =>
    rcases List.eq_nil_or_concat b with rfl | ⟨b, d, rfl⟩
    · simp at hl
    · rw [List.concat_eq_append] at hb hl hv ⊢
      rw [digitsValue_append, digitsValue_append] at hv
      have e : ∀ x : Char, digitsValue [x] = decimalDigits.idxOf x := fun x => by simp [digitsValue]
      rw [e, e] at hv
      simp only [List.length_singleton, Nat.pow_one] at hv
      have hc := List.idxOf_lt_length_of_mem (ha c (by simp))
      have hd := List.idxOf_lt_length_of_mem (hb d (by simp))
      have l10 : decimalDigits.length = 10 := rfl
      rw [l10] at hc hd
      have e1 : decimalDigits.idxOf c = decimalDigits.idxOf d := by omega
      have e2 : c = d := (List.idxOf_inj (ha c (by simp))).mp e1
      rw [ih (b := b) (fun x hx => ha x (by simp [hx])) (fun x hx => hb x (by simp [hx])) (by simpa using hl) (by rw [← e1] at hv; omega), e2]

theorem digits_same {k n : Nat} {a b : List Char} (ha : DigitsText k k n a) (hb : DigitsText k k n b) : a = b :=
  digits_unique ha.2.2.1 hb.2.2.1 (by have := ha.1; have := ha.2.1; have := hb.1; have := hb.2.1; omega)
    (ha.2.2.2.trans hb.2.2.2.symm)

/-- A number without leading zero is as large as its length allows. -/
theorem digits_ge {a : List Char} (ha : ∀ c ∈ a, c ∈ decimalDigits) (hne : a ≠ []) (h0 : a.head? ≠ some '0') :
    10 ^ (a.length - 1) ≤ digitsValue a := by
  cases a with
  | nil => exact absurd rfl hne
  | cons c a =>
    have e : digitsValue (c :: a) = digitsValue [c] * 10 ^ a.length + digitsValue a := digitsValue_append [c] a
    have hc : c ≠ '0' := fun h => h0 (by rw [h]; rfl)
    have hv : 0 < digitsValue [c] := by
      have : ∀ c ∈ decimalDigits, c ≠ '0' → 0 < digitsValue [c] := by decide
      exact this c (ha c (by simp)) hc
    rw [e]
    have : 10 ^ a.length * 1 ≤ digitsValue [c] * 10 ^ a.length := by
      rw [Nat.mul_comm]; exact Nat.mul_le_mul_right _ hv
    simp only [List.length_cons, Nat.add_sub_cancel]
    omega

theorem padded_same {k n : Nat} {a b : List Char} (ha : DigitsText k a.length n a) (hb : DigitsText k b.length n b)
    (ha' : a.length = k ∨ a.head? ≠ some '0') (hb' : b.length = k ∨ b.head? ≠ some '0') : a = b := by
  have half : ∀ {a b : List Char}, DigitsText k a.length n a → DigitsText k b.length n b →
      (b.length = k ∨ b.head? ≠ some '0') → ¬ a.length < b.length := by
    intro a b ha hb hb' hl
    obtain ⟨a1, _, a3, a4⟩ := ha
    obtain ⟨b1, _, b3, b4⟩ := hb
    have hb0 : b.head? ≠ some '0' := by
      rcases hb' with h | h
      · omega
      · exact h
    have h1 := digits_ge b3 (by intro h; rw [h] at hl; simp at hl) hb0
    have h2 := digitsValue_lt a3
    have h3 : 10 ^ a.length ≤ 10 ^ (b.length - 1) := Nat.pow_le_pow_right (by decide) (by omega)
    omega
  have h1 := half ha hb hb'
  have h2 := half hb ha ha'
  exact digits_unique ha.2.2.1 hb.2.2.1 (by omega) (ha.2.2.2.trans hb.2.2.2.symm)

theorem yearText_spec {y : Int} (h : -1000000 < y ∧ y < 1000000) : PrintedYear y (yearText y) := by
  unfold yearText
  split
  · rename_i hy
    refine ⟨two (y.toNat / 100) ++ two (y.toNat % 100), ?_, ?_, .inl (by simp [two])⟩
    · rw [if_neg (by omega), if_pos hy.2]; rfl
    · have a := two_spec (n := y.toNat / 100) (by omega)
      have b := two_spec (n := y.toNat % 100) (by omega)
      refine ⟨by simp [two], Nat.le_refl _, ?_, ?_⟩
      · intro c hc
        rcases List.mem_append.mp hc with hc | hc
        · exact a.2.2.1 c hc
        · exact b.2.2.1 c hc
      · rw [digitsValue_append, a.2.2.2, b.2.2.2]
        simp only [two, List.length_cons, List.length_nil]
        omega
  · rename_i hy
    refine ⟨pad 4 y.natAbs, ?_, pad_spec 4 _, ?_⟩
    · by_cases hn : y < 0
      · rw [if_pos hn, if_pos hn]; rfl
      · rw [if_neg hn, if_neg hn, if_neg (by omega)]; rfl
    · rcases pad_head 4 y.natAbs with h | h
      · exact .inl h
      · exact .inr (h (by omega))

theorem dateText_spec {y : Int} {m d : Nat} (h : IsDate y m d) : PrintedDate y m d (dateText y m d) := by
  obtain ⟨h1, h2, h3⟩ := h
  have := monthDays_le y m
  exact ⟨yearText y, two m, two d, rfl, yearText_spec (by omega), two_spec (by omega), two_spec (by omega)⟩

theorem frac_exact {n k : Nat} {s : List Char} (h : FractionText n s) (hl : s.length = k + 1) (hk : k ≤ 9) :
    n % 10 ^ (9 - k) = 0 := by
  cases h with
  | none => simp
  | @some v s h =>
    have hl : s.length = k := by simpa using hl
    rw [hl]
    have : v * 10 ^ 9 = v * 10 ^ (9 - k) * 10 ^ k := by
      rw [Nat.mul_assoc, ← Nat.pow_add]; congr 2; omega
    rw [this, Nat.mul_div_cancel _ (Nat.pow_pos (by decide)), Nat.mul_mod_left]

theorem fractionText_spec {n : Nat} (h : n < 1000000000) : PrintedFraction n (fractionText n) := by
  have mk : ∀ k v, 0 < k → k ≤ 9 → v < 10 ^ k → v * 10 ^ (9 - k) = n →
      FractionText n ('.' :: pad k v) ∧ ('.' :: pad k v).length = k + 1 := by
    intro k v h0 hk hv hn
    have hl := pad_length h0 hv
    have hp := pad_spec k v
    have := FractionText.some (v := v) (s := pad k v) ⟨by omega, Nat.le_refl _, hp.2.2.1, hp.2.2.2⟩
    rw [hl] at this
    have e : v * 10 ^ 9 / 10 ^ k = n := by
      rw [← hn]
      refine Nat.div_eq_of_eq_mul_left (Nat.pow_pos (by decide)) ?_
      rw [Nat.mul_assoc, ← Nat.pow_add]; congr 2; omega
    rw [e] at this
    exact ⟨this, by simp [hl]⟩
  have zero : ∀ s', FractionText n s' → s'.length = 0 → n = 0 := by
    intro s' hs' hl
    cases hs' with
    | none => rfl
    | some h => simp at hl
  unfold fractionText
  split
  · rename_i h0
    subst h0
    exact ⟨.none, by simp, by simp⟩
  · rename_i h0
    split
    · rename_i h6
      obtain ⟨a, b⟩ := mk 3 (n / 1000000) (by decide) (by decide) (by omega) (by omega)
      refine ⟨a, by rw [b]; decide, ?_⟩
      intro s' hs' hl
      simp only [List.mem_cons, List.not_mem_nil, or_false] at hl
      rcases hl with hl | hl | hl | hl
      · exact absurd (zero s' hs' hl) h0
      all_goals omega
    · rename_i h6
      split
      · rename_i h3
        obtain ⟨a, b⟩ := mk 6 (n / 1000) (by decide) (by decide) (by omega) (by omega)
        refine ⟨a, by rw [b]; decide, ?_⟩
        intro s' hs' hl
        simp only [List.mem_cons, List.not_mem_nil, or_false] at hl
        rcases hl with hl | hl | hl | hl
        · exact absurd (zero s' hs' hl) h0
        · exact absurd (frac_exact (k := 3) hs' hl (by decide)) h6
        all_goals omega
      · rename_i h3
        obtain ⟨a, b⟩ := mk 9 n (by decide) (by decide) (by omega) (by omega)
        refine ⟨a, by rw [b]; decide, ?_⟩
        intro s' hs' hl
        simp only [List.mem_cons, List.not_mem_nil, or_false] at hl
        rcases hl with hl | hl | hl | hl
        · exact absurd (zero s' hs' hl) h0
        · exact absurd (frac_exact (k := 3) hs' hl (by decide)) h6
        · exact absurd (frac_exact (k := 6) hs' hl (by decide)) h3
        · omega

theorem timeText_spec {h m s n : Nat} (ht : IsTime h m s n) : PrintedTime h m s n (timeText h m s n) := by
  obtain ⟨h1, h2, h3, h4⟩ := ht
  unfold timeText
  by_cases hn : 1000000000 ≤ n
  · simp only [if_pos hn]
    refine ⟨two h, two m, two (s + 1), s + 1, _, n - 1000000000, rfl, two_spec (by omega), two_spec (by omega),
      two_spec (by omega), fractionText_spec (by omega), ?_⟩
    have hs : s = 59 := by omega
    subst hs
    have := SecondIs.leap (n - 1000000000)
    rwa [show 1000000000 + (n - 1000000000) = n by omega] at this
  · simp only [if_neg hn]
    exact ⟨two h, two m, two s, s, _, n, rfl, two_spec (by omega), two_spec (by omega), two_spec (by omega),
      fractionText_spec (by omega), .plain h3⟩

theorem stamp_ok {t : Timestamp} (hv : t.Valid) (hl : t.LeapAt59) :
    IsDate t.year t.month t.day ∧ IsTime t.hour t.minute t.sec t.nano := by
  obtain ⟨h1, h2, h3, h4, h5⟩ := hv
  refine ⟨h1, h2, h3, h4, ?_⟩
  unfold Timestamp.LeapAt59 at hl
  omega

theorem frac_same {n : Nat} {a b : List Char} (ha : PrintedFraction n a) (hb : PrintedFraction n b) : a = b := by
  have h1 := ha.shortest b hb.value hb.digits
  have h2 := hb.shortest a ha.value ha.digits
  have hl : a.length = b.length := by omega
  obtain ⟨av, ad, _⟩ := ha
  obtain ⟨bv, _, _⟩ := hb
  clear h1 h2
  generalize hn : n = n' at bv
  cases av with
  | none =>
    cases bv with
    | none => rfl
    | some h => simp at hl
  | @some v s hs =>
    cases bv with
    | none => simp at hl
    | @some v' s' hs' =>
      have hl : s.length = s'.length := by simpa using hl
      have hk : s.length ≤ 9 := by
        simp only [List.length_cons, List.mem_cons, List.not_mem_nil, or_false] at ad
        omega
      have e : ∀ v, v * 10 ^ 9 / 10 ^ s.length = v * 10 ^ (9 - s.length) := by
        intro v
        refine Nat.div_eq_of_eq_mul_left (Nat.pow_pos (by decide)) ?_
        rw [Nat.mul_assoc, ← Nat.pow_add]; congr 2; omega
      rw [← hl, e, e] at hn
      have hv : v = v' := Nat.eq_of_mul_eq_mul_right (Nat.pow_pos (by decide)) hn
      rw [digits_unique hs.2.2.1 hs'.2.2.1 hl (by rw [hs.2.2.2, hs'.2.2.2, hv])]

theorem second_same {s f s' f' x y : Nat} (h : SecondIs s f x y) (h' : SecondIs s' f' x y) (hf : f < 1000000000)
    (hf' : f' < 1000000000) : s = s' ∧ f = f' := by
  cases h with
  | plain h =>
    generalize hx : s = x' at h'
    generalize hy : f = y' at h'
    cases h' with
    | plain h' => exact ⟨rfl, rfl⟩
    | leap => omega
  | leap =>
    generalize hy : 1000000000 + f = y' at h'
    cases h' with
    | plain h' => omega
    | leap => exact ⟨rfl, by omega⟩

theorem printed_same {t : Timestamp} {s s' : List Char} (h : PrintedStamp t s) (h' : PrintedStamp t s') : s = s' := by
  obtain ⟨a, b, rfl, ⟨yt, mt, dt, rfl, ⟨ds, rfl, hy, hz⟩, hm, hd⟩, ⟨ht, mit, st, sec, fr, frac, rfl, hh, hmi, hs, hfr, hsec⟩⟩ := h
  obtain ⟨a', b', rfl, ⟨yt', mt', dt', rfl, ⟨ds', rfl, hy', hz'⟩, hm', hd'⟩,
    ⟨ht', mit', st', sec', fr', frac', rfl, hh', hmi', hs', hfr', hsec'⟩⟩ := h'
  obtain ⟨rfl, rfl⟩ := second_same hsec hsec' (frac_lt hfr.value) (frac_lt hfr'.value)
  rw [padded_same hy hy' hz hz', digits_same hm hm', digits_same hd hd', digits_same hh hh', digits_same hmi hmi',
    digits_same hs hs', frac_same hfr hfr']

end Chrono

/-- C86: what is printed for a timestamp is exactly its date and time in the documented format. -/
theorem C86_print {t : Timestamp} {s : List Char} (hv : t.Valid) (hl : t.LeapAt59) :
    Chrono.print t = s ↔ PrintedStamp t s := by
  have h : PrintedStamp t (Chrono.print t) :=
    ⟨_, _, rfl, dateText_spec (stamp_ok hv hl).1, timeText_spec (stamp_ok hv hl).2⟩
  exact ⟨fun e => e ▸ h, fun h' => printed_same h h'⟩

namespace Chrono

theorem digits_ge1 {k n : Nat} {s : List Char} (h : DigitsText (k + 1) s.length n s) : DigitsText 1 s.length n s :=
  ⟨by have := h.1; omega, h.2.1, h.2.2⟩

theorem digits_12 {n : Nat} {s : List Char} (h : DigitsText 2 2 n s) : DigitsText 1 2 n s :=
  ⟨by have := h.1; omega, h.2.1, h.2.2⟩

theorem printedYear_reads {y : Int} {s : List Char} (h : PrintedYear y s) : YearText y s := by
  obtain ⟨ds, rfl, hd, hz⟩ := h
  by_cases hn : y < 0
  · rw [if_pos hn]
    have := YearText.minus (digits_ge1 hd)
    rwa [show -(y.natAbs : Int) = y by omega] at this
  · rw [if_neg hn]
    have e : (y.natAbs : Int) = y := by omega
    by_cases h9 : y ≤ 9999
    · rw [if_pos h9]
      have h4 : ds.length ≤ 4 := by
        by_contra hlt
        have h0 : ds.head? ≠ some '0' := by
          rcases hz with h | h
          · omega
          · exact h
        have h1 := digits_ge hd.2.2.1 (by rintro rfl; simp at hlt) h0
        have h2 : 10 ^ 4 ≤ 10 ^ (ds.length - 1) := Nat.pow_le_pow_right (by decide) (by omega)
        rw [hd.2.2.2] at h1
        omega
      have := YearText.plain (n := y.natAbs) (s := ds) ⟨by have := hd.1; omega, h4, hd.2.2⟩
      rwa [e] at this
    · rw [if_neg h9]
      have := YearText.plus (digits_ge1 hd)
      rwa [e] at this

theorem blank_nil : BlankText [] := fun c h => by simp at h

theorem printed_reads {t : Timestamp} {a b : List Char} (hv : t.Valid) (hl : t.LeapAt59)
    (ha : PrintedDate t.year t.month t.day a) (hb : PrintedTime t.hour t.minute t.sec t.nano b) :
    StampText t (a ++ 'T' :: b) := by
  obtain ⟨hd, ht⟩ := stamp_ok hv hl
  refine ⟨a, [], b, by simp, ⟨?_, hd⟩, blank_nil, ⟨?_, ht⟩⟩
  · obtain ⟨yt, mt, dt, rfl, hy, hm, hd⟩ := ha
    exact ⟨[], yt, [], [], mt, [], [], dt, by simp, blank_nil, blank_nil, blank_nil, blank_nil, blank_nil,
      printedYear_reads hy, digits_12 hm, digits_12 hd⟩
  · obtain ⟨ht, mt, st, sec, fr, frac, rfl, hh, hm, hs, hf, hsec⟩ := hb
    exact ⟨[], ht, [], [], mt, [], [], st, sec, fr, frac, [], by simp, blank_nil, blank_nil, blank_nil, blank_nil,
      blank_nil, blank_nil, digits_12 hh, digits_12 hm, digits_12 hs, hf.value, hsec⟩

/-- The characters of printed dates and times. -/
def stampChars : List Char := '-' :: '+' :: ':' :: '.' :: decimalDigits

theorem digits_chars {lo hi n : Nat} {s : List Char} (h : DigitsText lo hi n s) : ∀ c ∈ s, c ∈ stampChars :=
  fun c hc => by
    have := h.2.2.1 c hc
    simp only [stampChars, List.mem_cons]
    tauto

theorem date_chars {y : Int} {m d : Nat} {s : List Char} (h : PrintedDate y m d s) : ∀ c ∈ s, c ∈ stampChars := by
  obtain ⟨yt, mt, dt, rfl, ⟨ds, rfl, hy, _⟩, hm, hd⟩ := h
  intro c hc
  simp only [List.mem_append, List.mem_cons] at hc
  rcases hc with (hc | hc) | rfl | hc | rfl | hc
  · split at hc
    · simp at hc; subst hc; decide
    · split at hc
      · simp at hc
      · simp at hc; subst hc; decide
  · exact digits_chars hy c hc
  · decide
  · exact digits_chars hm c hc
  · decide
  · exact digits_chars hd c hc

theorem frac_chars {n : Nat} {s : List Char} (h : FractionText n s) : ∀ c ∈ s, c ∈ stampChars := by
  intro c hc
  cases h with
  | none => simp at hc
  | some h =>
    rcases List.mem_cons.mp hc with rfl | hc
    · decide
    · exact digits_chars h c hc

theorem time_chars {h m s n : Nat} {t : List Char} (h : PrintedTime h m s n t) : ∀ c ∈ t, c ∈ stampChars := by
  obtain ⟨ht, mt, st, sec, fr, frac, rfl, hh, hm, hs, hf, _⟩ := h
  intro c hc
  simp only [List.mem_append, List.mem_cons] at hc
  rcases hc with hc | rfl | hc | rfl | hc | hc
  · exact digits_chars hh c hc
  · decide
  · exact digits_chars hm c hc
  · decide
  · exact digits_chars hs c hc
  · exact frac_chars hf.value c hc

theorem map_id {s : List Char} (h : ∀ c ∈ s, c ∈ stampChars) : s.map (fun c => if c = ' ' then 'T' else c) = s := by
  rw [List.map_congr_left (g := id), List.map_id]
  intro c hc
  have : ∀ c ∈ stampChars, c ≠ ' ' := by decide
  simp [this c (h c hc)]

end Chrono

/-- C86, partial: with the `T` of the documented format in place of the space, what is printed is read back.
Missing: with the space (`C86_refuted_reread`). -/
theorem C86_iso_partial {t : Timestamp} (hv : t.Valid) (hl : t.LeapAt59) :
    Chrono.parse ((Chrono.print t).map fun c => if c = ' ' then 'T' else c) = some t := by
  obtain ⟨a, b, e, ha, hb⟩ := (C86_print hv hl).mp rfl
  rw [e, List.map_append, List.map_cons, map_id (date_chars ha), map_id (time_chars hb)]
  exact C86_reads.mpr (printed_reads hv hl ha hb)

/-- C86, partial: different timestamps are printed differently. Missing: leap seconds elsewhere than in second 59
(`C86_refuted_leap`). -/
theorem C86_different_partial {t u : Timestamp} (ht : t.Valid) (ht' : t.LeapAt59) (hu : u.Valid) (hu' : u.LeapAt59)
    (h : Chrono.print t = Chrono.print u) : t = u := by
  have h1 := C86_iso_partial ht ht'
  rw [h, C86_iso_partial hu hu'] at h1
  exact (Option.some.inj h1).symm

/-- C86 is violated: nothing that is printed is accepted. -/
theorem C86_refuted_reread {t : Timestamp} (hv : t.Valid) (hl : t.LeapAt59) : Chrono.parse (Chrono.print t) = none := by
  cases h : Chrono.parse (Chrono.print t) with
  | none => rfl
  | some u =>
    obtain ⟨a', w, b', e', _⟩ := C86_reads.mp h
    obtain ⟨a, b, e, ha, hb⟩ := (C86_print hv hl).mp rfl
    have hT : 'T' ∈ a ++ ' ' :: b := by rw [← e, e']; simp
    have nT : 'T' ∉ stampChars := by decide
    simp only [List.mem_append, List.mem_cons] at hT
    rcases hT with hT | hT | hT
    · exact absurd (date_chars ha _ hT) nT
    · exact absurd hT (by decide)
    · exact absurd (time_chars hb _ hT) nT

/-- C86 is violated: a leap second behind second 58 is printed like second 59. -/
theorem C86_refuted_leap : ∃ t u : Timestamp, t.Valid ∧ u.Valid ∧ t ≠ u ∧ Chrono.print t = Chrono.print u :=
  ⟨⟨2024, 2, 29, 12, 0, 58, 1500000000⟩, ⟨2024, 2, 29, 12, 0, 59, 500000000⟩, by
    unfold Timestamp.Valid; decide, by unfold Timestamp.Valid; decide, by decide, by
    simp [Chrono.print, timeText]⟩

/-! ## Examples -/

/-- The last leap second so far, in the middle. -/
def leapSecond : Timestamp := ⟨2016, 12, 31, 23, 59, 59, 1500000000⟩

example : leapSecond.Valid ∧ leapSecond.LeapAt59 := by
  unfold Timestamp.Valid Timestamp.LeapAt59; decide

example : Chrono.print leapSecond = "2016-12-31 23:59:60.500".toList := by decide +kernel

example : Chrono.print ⟨-44, 3, 15, 12, 0, 0, 1⟩ = "-0044-03-15 12:00:00.000000001".toList := by decide +kernel

example : Chrono.print ⟨12345, 3, 15, 12, 0, 0, 0⟩ = "+12345-03-15 12:00:00".toList := by decide +kernel

example : Chrono.parse "2016-12-31T23:59:60.5".toList = some leapSecond := by decide +kernel

example : Chrono.parse " +02016 - 12 - 31 T 23 : 59 : 60.5000000009 ".toList = some leapSecond := by decide +kernel

example : Chrono.parse "2015-2-29T0:0:0".toList = none := by decide +kernel

example : Chrono.parse "2016-2-29T0:0:0".toList = some ⟨2016, 2, 29, 0, 0, 0, 0⟩ := by decide +kernel

example : Chrono.parse "2016-12-31T23:58:60.5".toList = some ⟨2016, 12, 31, 23, 58, 59, 1500000000⟩ := by decide +kernel

end Souris
