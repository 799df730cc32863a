import Verif.Lemmas.StdFloatText

/-! # Floats as they are printed, and printed floats read again -/

namespace Souris

namespace StdText

open FloatFormat

/-! ## The layout -/

theorem natText_last (d : Nat) : (natText d).getLast? = some (digitChar (d % 10)) := by
  unfold natText
  split
  · rename_i h
    rw [Nat.mod_eq_of_lt h]
    rfl
  · simp

theorem natText_last_ne {d : Nat} (h : d % 10 ≠ 0) : (natText d).getLast? ≠ some '0' := by
  rw [natText_last]
  intro e
  have h1 := (digitChar_mem (d := d % 10) (by omega)).2
  rw [Option.some.inj e] at h1
  have : decimalDigits.idxOf '0' = 0 := by decide
  omega

theorem layout_plain {d : Nat} {k : Int} (hd : d % 10 ≠ 0) : PlainDecimal (layout d k) (d * 10 ^ k) := by
  have hds := SerdeJson.digits_natText (d := d) (by omega)
  have hlast := natText_last_ne hd
  unfold layout
  generalize natText d = ds at hds hlast ⊢
  have hlen : 0 < ds.length := List.length_pos_of_ne_nil hds.ne
  have h9 := hds.value
  rw [SerdeJson.digitsValue_eq] at h9
  simp only
  split_ifs with h1 h2
  · obtain ⟨n, hn⟩ : ∃ n : Nat, (ds.length : Int) + k = -n := ⟨(ds.length + k).natAbs, by omega⟩
    rw [hn, Int.natAbs_neg, Int.natAbs_natCast]
    refine ⟨['0'], List.replicate n '0' ++ ds, ⟨⟨by simp, by decide⟩, fun _ => rfl⟩, ?_, ?_, ?_, ?_⟩
    · intro x hx
      rcases List.mem_append.mp hx with h | h
      · exact SerdeJson.zeros_digits _ x h
      · exact hds.mem x h
    · rw [List.getLast?_append]
      cases hl : ds.getLast? with
      | none => exact absurd (List.getLast?_eq_none_iff.mp hl) hds.ne
      | some c => rw [hl] at hlast; simpa using hlast
    · rw [if_neg (by simp [hds.ne])]
      rfl
    · have h0 : decimalDigits.idxOf '0' = 0 := by decide
      unfold realValue
      rw [SerdeJson.digitsValue_eq, List.singleton_append, SerdeJson.dig_cons, h0, SerdeJson.dig_append, SerdeJson.dig_zeros]
      have : (0 : Int) - ((List.replicate n '0' ++ ds).length : Nat) = k := by
        simp only [List.length_append, List.length_replicate]
        omega
      rw [this]
      simp [h9]
  · obtain ⟨n, hn⟩ : ∃ n : Nat, (ds.length : Int) + k = n := ⟨(ds.length + k).natAbs, by omega⟩
    rw [hn, Int.natAbs_natCast]
    have hdrop : ds.drop n ≠ [] := by
      intro h
      have := congrArg List.length h
      rw [List.length_drop, List.length_nil] at this
      omega
    refine ⟨ds.take n, ds.drop n, SerdeJson.take_whole hds (by omega), fun x hx => hds.mem x (List.mem_of_mem_drop hx), ?_, ?_, ?_⟩
    · rw [List.getLast?_drop, if_neg (by omega)]
      exact hlast
    · rw [if_neg hdrop]
    · unfold realValue
      rw [List.take_append_drop, hds.value]
      congr 2
      rw [List.length_drop]
      omega
  · refine ⟨ds ++ List.replicate k.natAbs '0', [], ?_, by simp, by simp, by simp, ?_⟩
    · obtain ⟨c, cs, rfl⟩ := List.exists_cons_of_ne_nil hds.ne
      refine ⟨⟨by simp, fun x hx => ?_⟩, fun h0 => absurd h0 hds.head⟩
      rcases List.mem_append.mp hx with h | h
      · exact hds.mem x h
      · exact SerdeJson.zeros_digits _ x h
    · unfold realValue
      rw [List.append_nil, SerdeJson.digitsValue_eq, SerdeJson.dig_append, SerdeJson.dig_zeros, h9]
      obtain ⟨n, rfl⟩ : ∃ n : Nat, k = n := ⟨k.natAbs, by omega⟩
      simp

/-! ## What is printed -/

section

variable {D : Decimals} {K : FloatKind}

theorem shortest_last (hR : Right D) {b : Nat} (hb : b < D.fmt.inf) (h0 : 0 < b) : (shortest D b).1 % 10 ≠ 0 := by
  intro hz
  obtain ⟨n, hn, hlt, hbest⟩ := shortest_best hR hb h0
  have hpos := shortest_pos hR hb h0
  have hround := shortest_round hR hb h0
  generalize (shortest D b).1 = d at *
  generalize (shortest D b).2 = k at *
  obtain ⟨d', rfl⟩ : ∃ d', d = 10 * d' := ⟨d / 10, by omega⟩
  have hn1 : 1 < n := by
    rcases Nat.lt_or_ge 1 n with h | h
    · exact h
    · have : n = 1 := by omega
      subst this
      omega
  obtain ⟨m, rfl⟩ : ∃ m, n = m + 1 := ⟨n - 1, by omega⟩
  have he : roundTo D.fmt d' (k + 1) = b := by
    rw [← hround]
    refine roundTo_congr ?_
    rw [zpow_add₀ (by norm_num)]
    push_cast
    ring
  have := (hbest d' m (k + 1) (by omega) (by rw [pow_succ] at hlt; omega) he).1
  omega

theorem shortest_spec (hR : Right D) (L : Link K D.fmt) {b : Nat} (hb : b < D.fmt.inf) (h0 : 0 < b) :
    K.Shortest b ((shortest D b).1 * 10 ^ (shortest D b).2) := by
  obtain ⟨n, hn, hlt, hbest⟩ := shortest_best hR hb h0
  refine ⟨(rounds_iff L _ _ _).mpr (shortest_round hR hb h0), n, ⟨_, _, hn, hlt, rfl⟩, ?_⟩
  rintro m q' ⟨d', k', hm, hd', rfl⟩ hq
  have hr := (rounds_iff L _ _ _).mp hq
  rw [L.value b hb]
  exact hbest d' m k' hm hd' hr

theorem inf_lt (F : FloatFormat) : F.inf < 2 ^ (F.mant + F.expo) := by
  have h := inf_eq F
  have h3 := Nat.two_pow_pos F.mant
  rw [show 2 ^ (F.mant + F.expo) = 2 ^ F.expo * 2 ^ F.mant by rw [pow_add, Nat.mul_comm]]
  omega

theorem floatText_printed (hR : Right D) (L : Link K D.fmt) {x : Nat} (hx : x < 2 * 2 ^ (D.fmt.mant + D.fmt.expo)) :
    K.Printed x (floatText D x) := by
  have hs := L.sign
  have hi := L.inf
  have hlt := inf_lt D.fmt
  unfold floatText
  simp only
  rw [← hs] at hx hlt ⊢
  split
  · rename_i h
    exact .nan (by rw [hi]; exact h)
  rename_i hfin
  have hcase : x = x % K.sign ∧ ¬ K.sign ≤ x ∨ x = K.sign + x % K.sign ∧ K.sign ≤ x := by
    rcases Nat.lt_or_ge x K.sign with h | h
    · exact .inl ⟨(Nat.mod_eq_of_lt h).symm, by omega⟩
    · right
      rw [Nat.mod_eq_sub_mod h, Nat.mod_eq_of_lt (by omega)]
      omega
  generalize x % K.sign = b at *
  have hneg : K.sign ≤ x → x = K.sign + b := fun h => (hcase.resolve_left fun h' => h'.2 h).1
  have hpos : ¬ K.sign ≤ x → x = b := fun h => (hcase.resolve_right fun h' => h h'.2).1
  by_cases h1 : b = D.fmt.inf
  · rw [if_pos h1]
    split
    · rename_i h
      rw [hneg h, h1, ← hi]
      exact .negInfinite
    · rename_i h
      rw [hpos h, h1, ← hi]
      exact .infinite
  rw [if_neg h1]
  by_cases h2 : b = 0
  · rw [if_pos h2]
    split
    · rename_i h
      rw [hneg h, h2]
      exact .negZero
    · rename_i h
      rw [hpos h, h2]
      exact .zero
  rw [if_neg h2]
  have hs := shortest_spec hR L (b := b) (by omega) (by omega)
  have hp := layout_plain (k := (shortest D b).2) (shortest_last hR (b := b) (by omega) (by omega))
  split
  · rename_i h
    rw [hneg h]
    exact .negative (by omega) (by omega) hs hp
  · rename_i h
    rw [hpos h]
    exact .positive (by omega) (by omega) hs hp

/-! ## Reading a printed float -/

theorem plain_real {t : List Char} {q : ℚ} (h : PlainDecimal t q) : ∃ int frac, StdReal t int frac 0 ∧ q = realValue int frac 0 := by
  obtain ⟨int, frac, h1, h2, _, rfl, hq⟩ := h
  refine ⟨int, frac, ⟨if frac = [] then [] else '.' :: frac, [], by simp, ⟨by simp [h1.1.1], ?_⟩, ?_, .none⟩, hq⟩
  · intro c hc
    rcases List.mem_append.mp hc with h | h
    · exact h1.1.2 c h
    · exact h2 c h
  · split
    · rename_i h; exact .inl ⟨rfl, h⟩
    · exact .inr rfl

theorem plain_parse (L : Link K D.fmt) {t : List Char} {q : ℚ} {b : Nat} (h : PlainDecimal t q) (hb : K.Rounds b q) :
    parseUnsigned D.fmt t = some b := by
  obtain ⟨int, frac, h1, rfl⟩ := plain_real h
  obtain ⟨x, hx, he⟩ := parseNumber_complete h1
  have : x = 0 := by have := hx.same; omega
  subst this
  unfold parseUnsigned
  rw [he]
  simp only
  rw [(rounds_iff L b _ _).mp hb]

theorem plain_head {t : List Char} {q : ℚ} (h : PlainDecimal t q) : ∃ c cs, t = c :: cs ∧ c ∈ decimalDigits := by
  obtain ⟨int, frac, h1, h2, _, rfl, hq⟩ := h
  obtain ⟨c, cs, rfl, hc, _⟩ := SerdeJson.digits_cons h1.1
  exact ⟨c, _, rfl, hc⟩

theorem parseFloat_digit {F : FloatFormat} {c : Char} {cs : List Char} (h : c ∈ decimalDigits) :
    parseFloat F (c :: cs) = parseUnsigned F (c :: cs) := by
  unfold parseFloat
  split
  · rename_i e; cases e; exact absurd h (by decide)
  · rename_i e; cases e; exact absurd h (by decide)
  · rfl

theorem parseUnsigned_inf (F : FloatFormat) : parseUnsigned F ['i', 'n', 'f'] = some F.inf := rfl

theorem parseUnsigned_nan (F : FloatFormat) : parseUnsigned F ['N', 'a', 'N'] = some (F.inf + 2 ^ (F.mant - 1)) := rfl

/-- A printed float is read as it was. -/
theorem printed_parse (L : Link K D.fmt) {x : Nat} {t : List Char} (h : K.Printed x t) :
    (K.inf < x % K.sign ∧ parseFloat D.fmt t = some (D.fmt.inf + 2 ^ (D.fmt.mant - 1))) ∨ (x % K.sign ≤ K.inf ∧ parseFloat D.fmt t = some x) := by
  have hlt := inf_lt D.fmt
  have hs := L.sign
  rw [← L.inf, ← hs] at hlt
  have hi0 : 0 < D.fmt.inf := by
    have h1 := inf_eq D.fmt
    have h2 : 2 ^ D.fmt.mant * 2 ^ 2 ≤ 2 ^ (D.fmt.mant + D.fmt.expo) := by
      rw [← pow_add]
      exact Nat.pow_le_pow_right (by decide) (by have := L.e2; omega)
    have := Nat.two_pow_pos D.fmt.mant
    rw [show 2 ^ (D.fmt.mant + D.fmt.expo) = 2 ^ D.fmt.mant * 2 ^ D.fmt.expo from pow_add _ _ _] at h2
    have h3 : 2 ^ D.fmt.expo * 2 ^ D.fmt.mant = 2 ^ D.fmt.mant * 2 ^ D.fmt.expo := Nat.mul_comm _ _
    have h4 : 2 ^ (D.fmt.mant + D.fmt.expo) = 2 ^ D.fmt.mant * 2 ^ D.fmt.expo := pow_add _ _ _
    omega
  have hz : K.Rounds 0 0 := by
    have := (rounds_iff L 0 0 0).mpr (by
      have h := roundTo_le (F := D.fmt) (b := 0) (d := 0) (k := 0) hi0 (by rw [Nat.cast_zero, zero_mul]; exact val_nonneg 0)
      omega)
    simpa using this
  have h0 : PlainDecimal ['0'] 0 := ⟨['0'], [], ⟨⟨by simp, by decide⟩, fun _ => rfl⟩, by simp, by simp, by simp, by
    unfold realValue
    have : digitsValue (['0'] ++ []) = 0 := by decide
    rw [this]
    simp⟩
  cases h with
  | nan h => exact .inl ⟨h, rfl⟩
  | infinite =>
    refine .inr ⟨by rw [Nat.mod_eq_of_lt hlt], ?_⟩
    rw [L.inf]
    rfl
  | negInfinite =>
    refine .inr ⟨by rw [Nat.add_mod_left, Nat.mod_eq_of_lt hlt], ?_⟩
    rw [L.inf, hs]
    rfl
  | zero =>
    refine .inr ⟨by simp, ?_⟩
    rw [parseFloat_digit (by decide)]
    exact plain_parse L h0 hz
  | negZero =>
    refine .inr ⟨by simp, ?_⟩
    show (parseUnsigned D.fmt ['0']).map _ = _
    rw [plain_parse L h0 hz, hs]
    rfl
  | positive h0 hb hs' ht =>
    refine .inr ⟨by rw [Nat.mod_eq_of_lt (by omega)]; omega, ?_⟩
    have hp := plain_parse L ht hs'.1
    obtain ⟨c, cs, rfl, hc⟩ := plain_head ht
    rw [parseFloat_digit hc, hp]
  | negative h0 hb hs' ht =>
    refine .inr ⟨by rw [Nat.add_mod_left, Nat.mod_eq_of_lt (by omega)]; omega, ?_⟩
    have hp := plain_parse L ht hs'.1
    show (parseUnsigned D.fmt _).map _ = _
    rw [hp, hs]
    rfl

theorem plain_chars {t : List Char} {q : ℚ} (h : PlainDecimal t q) : ∀ c ∈ t, c ∈ decimalDigits ∨ c = '.' := by
  obtain ⟨int, frac, h1, h2, _, rfl, hq⟩ := h
  intro c hc
  rcases List.mem_append.mp hc with h | h
  · exact .inl (h1.1.2 c h)
  · split at h
    · cases h
    · rcases List.mem_cons.mp h with h | h
      · exact .inr h
      · exact .inl (h2 c h)

theorem printed_chars {x : Nat} {t : List Char} (h : K.Printed x t) :
    ∀ c ∈ t, c ∈ decimalDigits ∨ c = '.' ∨ c = '-' ∨ c ∈ ['N', 'a', 'i', 'n', 'f'] := by
  intro c hc
  cases h with
  | nan => right; right; right; revert c; decide
  | infinite => right; right; right; revert c; decide
  | negInfinite => right; right; revert c; decide
  | zero => left; revert c; decide
  | negZero => simp at hc; rcases hc with rfl | rfl <;> decide
  | positive _ _ _ ht =>
    rcases plain_chars ht c hc with h | h
    · exact .inl h
    · exact .inr (.inl h)
  | negative _ _ _ ht =>
    rcases List.mem_cons.mp hc with h | h
    · exact .inr (.inr (.inl h))
    · rcases plain_chars ht c h with h | h
      · exact .inl h
      · exact .inr (.inl h)

end

/-! ## Any text read -/

theorem roundTo_expRead {int frac : List Char} {x e : Int} (hd : JsonDigits (int ++ frac)) (hl : (int ++ frac).length ≤ 65000)
    (hx : ExpRead x e) : roundTo f64Format (digitsValue (int ++ frac)) (x - frac.length) =
      roundTo f64Format (digitsValue (int ++ frac)) (e - frac.length) := by
  have hval : digitsValue (int ++ frac) < 10 ^ (int ++ frac).length := Chrono.digitsValue_lt hd.2
  rw [List.length_append] at hl hval
  generalize digitsValue (int ++ frac) = d at *
  rcases Nat.eq_zero_or_pos d with h0 | h0
  · rw [h0, show f64Format = dec64.fmt from rfl, roundTo_zero right64, roundTo_zero right64]
  have big : ∀ k : Int, 536 ≤ k → roundTo f64Format d k = f64Format.inf := by
    intro k hk
    refine le_antisymm (roundTo_le_inf _ _) ?_
    have h1 : roundTo f64Format 1 536 = f64Format.inf := by decide +kernel
    rw [← h1]
    refine roundTo_mono ?_
    have h2 : (10 : ℚ) ^ (536 : Int) ≤ 10 ^ k := zpow_le_zpow_right₀ (by norm_num) hk
    have h3 : (1 : ℚ) ≤ d := by exact_mod_cast h0
    have h4 : (0 : ℚ) < 10 ^ k := zpow_pos (by norm_num) k
    rw [Nat.cast_one, one_mul]
    calc (10 : ℚ) ^ (536 : Int) ≤ 10 ^ k := h2
      _ = 1 * 10 ^ k := (one_mul _).symm
      _ ≤ d * 10 ^ k := mul_le_mul_of_nonneg_right h3 h4.le
  have small : ∀ k : Int, k + (int.length + frac.length) ≤ -536 → roundTo f64Format d k = 0 := by
    intro k hk
    refine Nat.le_zero.mp ?_
    have h1 : roundTo f64Format 1 (-536) = 0 := by decide +kernel
    rw [← h1]
    refine roundTo_mono ?_
    have h3 : (d : ℚ) ≤ 10 ^ ((int.length + frac.length : Nat) : Int) := by
      rw [zpow_natCast]
      exact_mod_cast hval.le
    have h4 : (0 : ℚ) < 10 ^ k := zpow_pos (by norm_num) k
    rw [Nat.cast_one, one_mul]
    calc (d : ℚ) * 10 ^ k ≤ 10 ^ ((int.length + frac.length : Nat) : Int) * 10 ^ k := mul_le_mul_of_nonneg_right h3 h4.le
      _ = 10 ^ (((int.length + frac.length : Nat) : Int) + k) := (zpow_add₀ (by norm_num) _ _).symm
      _ ≤ 10 ^ (-536 : Int) := zpow_le_zpow_right₀ (by norm_num) (by push_cast; omega)
  rcases hx.same with h | ⟨h1, h2⟩ | ⟨h1, h2⟩
  · rw [h]
  · rw [big _ (by omega), big _ (by omega)]
  · rw [small _ (by omega), small _ (by omega)]

theorem stdReal_length {t int frac : List Char} {e : Int} (h : StdReal t int frac e) : (int ++ frac).length ≤ t.length := by
  obtain ⟨fr, ex, rfl, _, hfr, _⟩ := h
  rcases hfr with ⟨rfl, rfl⟩ | rfl <;> simp <;> omega

theorem parseUnsigned_iff {t : List Char} (hl : t.length ≤ 65000) {b : Nat} : parseUnsigned f64Format t = some b ↔ Means64 t b := by
  constructor
  · intro h
    unfold parseUnsigned at h
    split at h
    · rename_i d k hp
      obtain ⟨int, frac, e, x, h1, h2, rfl, rfl⟩ := parseNumber_sound hp
      obtain ⟨_, _, _, hd, _⟩ := id h1
      refine .number h1 ((rounds_iff link64 b _ _).mpr ?_)
      rw [← roundTo_expRead hd (le_trans (stdReal_length h1) hl) h2]
      exact Option.some.inj h
    · rcases parseWord_iff.mp h with ⟨h1, rfl⟩ | ⟨h1, rfl⟩
      · exact .infinite h1
      · exact .nan h1
  · intro h
    unfold parseUnsigned
    cases h with
    | number h1 hr =>
      obtain ⟨x, h2, hp⟩ := parseNumber_complete h1
      obtain ⟨_, _, _, hd, _⟩ := id h1
      rw [hp]
      simp only
      rw [roundTo_expRead hd (le_trans (stdReal_length h1) hl) h2]
      exact congrArg some ((rounds_iff link64 b _ _).mp hr)
    | infinite h1 =>
      have : parseNumber t = none := h1.elim (fun h => spelled_not_number h (.inl rfl)) fun h => spelled_not_number h (.inr (.inl rfl))
      rw [this]
      exact parseWord_iff.mpr (.inl ⟨h1, rfl⟩)
    | nan h1 =>
      rw [spelled_not_number h1 (.inr (.inr rfl))]
      exact parseWord_iff.mpr (.inr ⟨h1, rfl⟩)

/-- No number or word begins with a sign. -/
theorem means_head {t : List Char} {b : Nat} (h : Means64 t b) : ∀ c cs, t = c :: cs → c ≠ '-' ∧ c ≠ '+' := by
  have word : ∀ w, Spelled t w → (∃ p w', w = p :: w' ∧ p.1 ≠ '-' ∧ p.1 ≠ '+' ∧ p.2 ≠ '-' ∧ p.2 ≠ '+') →
      ∀ c cs, t = c :: cs → c ≠ '-' ∧ c ≠ '+' := by
    rintro w h ⟨p, w', rfl, h1, h2, h3, h4⟩ c cs rfl
    unfold Spelled at h
    cases h
    rename_i hc _
    rcases hc with rfl | rfl
    · exact ⟨h1, h2⟩
    · exact ⟨h3, h4⟩
  cases h with
  | infinite h =>
    rcases h with h | h
    · exact word _ h ⟨_, _, rfl, by decide, by decide, by decide, by decide⟩
    · exact word _ h ⟨_, _, rfl, by decide, by decide, by decide, by decide⟩
  | nan h => exact word _ h ⟨_, _, rfl, by decide, by decide, by decide, by decide⟩
  | number h hr =>
    rename_i int frac e
    rintro c cs rfl
    obtain ⟨fr, ex, he, hd, hfr, hex⟩ := h
    have : c ∈ decimalDigits ∨ c = '.' := by
      cases int with
      | cons a int =>
        simp at he
        exact .inl (he.1 ▸ hd.2 a (by simp))
      | nil =>
        rcases hfr with ⟨rfl, rfl⟩ | rfl
        · exact absurd rfl hd.1
        · simp at he
          exact .inr he.1
    rcases this with h | rfl
    · constructor <;> rintro rfl <;> revert h <;> decide
    · decide

theorem f64Parse_iff {t : List Char} (hl : t.length ≤ 65000) {x : UInt64} : f64Parse t = some x ↔ Typed64 t x := by
  unfold f64Parse
  rw [Option.map_eq_some_iff]
  constructor
  · rintro ⟨b, h, rfl⟩
    unfold parseFloat at h
    split at h
    · rw [Option.map_eq_some_iff] at h
      obtain ⟨b, h, rfl⟩ := h
      exact .minus ((parseUnsigned_iff (by simp at hl; omega)).mp h)
    · exact .plus ((parseUnsigned_iff (by simp at hl; omega)).mp h)
    · exact .plain ((parseUnsigned_iff hl).mp h)
  · intro h
    cases h with
    | plain h =>
      rename_i b
      refine ⟨b, ?_, rfl⟩
      unfold parseFloat
      have := means_head h
      split
      · exact absurd rfl (this _ _ rfl).1
      · exact absurd rfl (this _ _ rfl).2
      · exact (parseUnsigned_iff hl).mpr h
    | plus h => exact ⟨_, (parseUnsigned_iff (by simp at hl; omega)).mpr h, rfl⟩
    | minus h =>
      rename_i t b
      refine ⟨2 ^ 63 + b, ?_, rfl⟩
      show (parseUnsigned f64Format t).map _ = _
      rw [(parseUnsigned_iff (by simp at hl; omega)).mpr h]
      rfl

theorem f64Text_printed (x : UInt64) : kind64.Printed x.toNat (f64Text x) :=
  floatText_printed right64 link64 (x := x.toNat) x.toNat_lt

theorem f32Text_printed (x : UInt32) : kind32.Printed x.toNat (f32Text x) :=
  floatText_printed right32 link32 (x := x.toNat) x.toNat_lt

end StdText

end Souris
