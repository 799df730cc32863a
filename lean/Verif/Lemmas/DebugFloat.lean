import Verif.Lemmas.StdFloatPrint
import Verif.Props.StdText
import Verif.Model.Debug
import Verif.Spec.Debug

/-! # Floats as `Debug` shows them -/

namespace Souris

namespace StdText

theorem layout_point {d : Nat} {k : Int} (hd : d % 10 ≠ 0) : PointDecimal (layoutPoint d k) (d * 10 ^ k) := by
  have hds := SerdeJson.digits_natText (d := d) (by omega)
  have hlast := natText_last_ne hd
  unfold layoutPoint
  generalize natText d = ds at hds hlast ⊢
  have hlen : 0 < ds.length := List.length_pos_of_ne_nil hds.ne
  have h9 := hds.value
  rw [SerdeJson.digitsValue_eq] at h9
  simp only
  split_ifs with h1 h2
  · obtain ⟨n, hn⟩ : ∃ n : Nat, (ds.length : Int) + k = -n := ⟨(ds.length + k).natAbs, by omega⟩
    rw [hn, Int.natAbs_neg, Int.natAbs_natCast]
    refine ⟨['0'], List.replicate n '0' ++ ds, ⟨⟨by simp, by decide⟩, fun _ => rfl⟩, ⟨by simp [hds.ne], ?_⟩, .inr ?_, rfl, ?_⟩
    · intro x hx
      rcases List.mem_append.mp hx with h | h
      · exact SerdeJson.zeros_digits _ x h
      · exact hds.mem x h
    · rw [List.getLast?_append]
      cases hl : ds.getLast? with
      | none => exact absurd (List.getLast?_eq_none_iff.mp hl) hds.ne
      | some c => rw [hl] at hlast; simpa using hlast
    · have h0 : decimalDigits.idxOf '0' = 0 := by decide
      unfold realValue
      rw [SerdeJson.digitsValue_eq, List.singleton_append, SerdeJson.dig_cons, h0, SerdeJson.dig_append, SerdeJson.dig_zeros]
      have : (0 : Int) - ((List.replicate n '0' ++ ds).length : Nat) = k := by
        simp only [List.length_append, List.length_replicate]
        omega
      rw [this]
      simp [h9]
  · obtain ⟨n, hn⟩ : ∃ n : Nat, (ds.length : Int) + k = n := ⟨(ds.length + k).natAbs, by omega⟩
    rw [hn, Int.natAbs_natCast]
    have hdrop : ds.drop n ≠ [] := by
      intro h
      have := congrArg List.length h
      rw [List.length_drop, List.length_nil] at this
      omega
    refine ⟨ds.take n, ds.drop n, SerdeJson.take_whole hds (by omega), ⟨hdrop, fun x hx => hds.mem x (List.mem_of_mem_drop hx)⟩, .inr ?_, rfl, ?_⟩
    · rw [List.getLast?_drop, if_neg (by omega)]
      exact hlast
    · unfold realValue
      rw [List.take_append_drop, hds.value]
      congr 2
      rw [List.length_drop]
      omega
  · refine ⟨ds ++ List.replicate k.natAbs '0', ['0'], ?_, ⟨by simp, by decide⟩, .inl rfl, by simp, ?_⟩
    · obtain ⟨c, cs, rfl⟩ := List.exists_cons_of_ne_nil hds.ne
      refine ⟨⟨by simp, fun x hx => ?_⟩, fun h0 => absurd h0 hds.head⟩
      rcases List.mem_append.mp hx with h | h
      · exact hds.mem x h
      · exact SerdeJson.zeros_digits _ x h
    · unfold realValue
      have h1 : SerdeJson.dig (d * 10 ^ k.natAbs) ['0'] = d * 10 ^ k.natAbs * 10 := by
        rw [show (['0'] : List Char) = List.replicate 1 '0' from rfl, SerdeJson.dig_zeros, pow_one]
      rw [SerdeJson.digitsValue_eq, SerdeJson.dig_append, SerdeJson.dig_append, SerdeJson.dig_zeros, h9, h1]
      obtain ⟨n, rfl⟩ : ∃ n : Nat, k = n := ⟨k.natAbs, by omega⟩
      simp only [Int.natAbs_natCast, List.length_singleton, Nat.cast_mul, Nat.cast_pow, zpow_natCast]
      norm_num
      ring

theorem layout_exp {d : Nat} {k : Int} (hd : d % 10 ≠ 0) : ScientificDecimal (layoutExp d k) (d * 10 ^ k) := by
  have hds := SerdeJson.digits_natText (d := d) (by omega)
  have hlast := natText_last_ne hd
  unfold layoutExp
  generalize natText d = ds at hds hlast ⊢
  have h9 := hds.value
  obtain ⟨c, frac, rfl⟩ := List.exists_cons_of_ne_nil hds.ne
  have hl : ((c :: frac).length : Int) + k - 1 = frac.length + k := by simp only [List.length_cons]; omega
  simp only [hl]
  obtain ⟨n1, n2, n3⟩ := natText_spec ((frac.length : Int) + k).natAbs
  have hw : JsonWhole (natText ((frac.length : Int) + k).natAbs) := ⟨⟨n1, n2⟩, natText_head _⟩
  refine ⟨c, frac, intText (frac.length + k), frac.length + k, hds.mem c (by simp), fun h => absurd (by rw [h]; rfl) hds.head,
    fun x hx => hds.mem x (by simp [hx]), ?_, ?_, ?_, ?_⟩
  · cases frac with
    | nil => simp
    | cons x xs => rwa [List.getLast?_cons_cons] at hlast
  · unfold intText
    split
    · rename_i h
      exact .inl ⟨h, _, rfl, hw, by rw [n3]; omega⟩
    · rename_i h
      exact .inr ⟨by omega, hw, by rw [n3]; omega⟩
  · cases frac <;> simp
  · unfold realValue
    rw [List.singleton_append, h9]
    congr 2
    omega

section

variable {D : Decimals} {K : FloatKind}

theorem extreme_iff (L : Link K D.fmt) (b : Nat) :
    K.Extreme b ↔ (roundTo D.fmt 1 16 ≤ b ∨ b < roundTo D.fmt 1 (-4)) := by
  have h1 : ∀ c, K.Rounds c (10 ^ 16) ↔ roundTo D.fmt 1 16 = c := by
    intro c
    rw [← rounds_iff L c 1 16]
    norm_num
  have h2 : ∀ c, K.Rounds c (1 / 10 ^ 4) ↔ roundTo D.fmt 1 (-4) = c := by
    intro c
    rw [← rounds_iff L c 1 (-4)]
    norm_num
  unfold FloatKind.Extreme
  simp only [h1, h2, exists_eq_left']

theorem floatDebug_printed (hR : Right D) (L : Link K D.fmt) {x : Nat} (hx : x < 2 * 2 ^ (D.fmt.mant + D.fmt.expo)) :
    K.DebugPrinted x (floatDebug D x) := by
  have hs := L.sign
  have hi := L.inf
  have hlt := inf_lt D.fmt
  unfold floatDebug
  simp only
  rw [← hs] at hx hlt ⊢
  split
  · rename_i h
    exact .nan (by rw [hi]; exact h)
  rename_i hfin
  have hcase : x = x % K.sign ∧ ¬ K.sign ≤ x ∨ x = K.sign + x % K.sign ∧ K.sign ≤ x := by
    rcases Nat.lt_or_ge x K.sign with h | h
    · exact .inl ⟨(Nat.mod_eq_of_lt h).symm, by omega⟩
    · right
      rw [Nat.mod_eq_sub_mod h, Nat.mod_eq_of_lt (by omega)]
      omega
  generalize x % K.sign = b at *
  have hneg : K.sign ≤ x → x = K.sign + b := fun h => (hcase.resolve_left fun h' => h'.2 h).1
  have hpos : ¬ K.sign ≤ x → x = b := fun h => (hcase.resolve_right fun h' => h h'.2).1
  by_cases h1 : b = D.fmt.inf
  · rw [if_pos h1]
    split
    · rename_i h
      rw [hneg h, h1, ← hi]
      exact .negInfinite
    · rename_i h
      rw [hpos h, h1, ← hi]
      exact .infinite
  rw [if_neg h1]
  by_cases h2 : b = 0
  · rw [if_pos h2]
    split
    · rename_i h
      rw [hneg h, h2]
      exact .negZero
    · rename_i h
      rw [hpos h, h2]
      exact .zero
  rw [if_neg h2]
  have hs := shortest_spec hR L (b := b) (by omega) (by omega)
  have hl := shortest_last hR (b := b) (by omega) (by omega)
  have key : K.DebugDigits b (if roundTo D.fmt 1 16 ≤ b ∨ b < roundTo D.fmt 1 (-4) then layoutExp (shortest D b).1 (shortest D b).2
      else layoutPoint (shortest D b).1 (shortest D b).2) := by
    split
    · rename_i h
      exact .exponent ((extreme_iff L b).mpr h) hs (layout_exp hl)
    · rename_i h
      exact .point (fun h' => h ((extreme_iff L b).mp h')) hs (layout_point hl)
  split
  · rename_i h
    rw [hneg h]
    exact .negative (by omega) (by omega) key
  · rename_i h
    rw [hpos h]
    exact .positive (by omega) (by omega) key

/-! ## Reading -/

/-- Numbers with larger exponents are too large or too small. -/
structure Bounded (F : FloatFormat) : Prop where
  hi : roundTo F 1 400 = F.inf
  lo : roundTo F 1 (-400) = 0

theorem bounded64 : Bounded f64Format := ⟨by decide +kernel, by decide +kernel⟩
theorem bounded32 : Bounded f32Format := ⟨by decide +kernel, by decide +kernel⟩

theorem point_real {t : List Char} {q : ℚ} (h : PointDecimal t q) : ∃ int frac, StdReal t int frac 0 ∧ q = realValue int frac 0 := by
  obtain ⟨int, frac, h1, h2, _, rfl, hq⟩ := h
  refine ⟨int, frac, ⟨'.' :: frac, [], by simp, ⟨by simp [h1.1.1], ?_⟩, .inr rfl, .none⟩, hq⟩
  intro c hc
  rcases List.mem_append.mp hc with h | h
  · exact h1.1.2 c h
  · exact h2.2 c h

theorem point_parse (L : Link K D.fmt) {t : List Char} {q : ℚ} {b : Nat} (h : PointDecimal t q) (hb : K.Rounds b q) :
    parseUnsigned D.fmt t = some b := by
  obtain ⟨int, frac, h1, rfl⟩ := point_real h
  obtain ⟨x, hx, he⟩ := parseNumber_complete h1
  have : x = 0 := by have := hx.same; omega
  subst this
  unfold parseUnsigned
  rw [he]
  simp only
  rw [(rounds_iff L b _ _).mp hb]

theorem scientific_parse (L : Link K D.fmt) (hB : Bounded D.fmt) {t : List Char} {q : ℚ} {b : Nat} (h : ScientificDecimal t q)
    (hb : K.Rounds b q) (h0 : 0 < b) (hi : b < D.fmt.inf) : parseUnsigned D.fmt t = some b := by
  obtain ⟨c, frac, ex, e, hc, hc0, hf, _, hex, rfl, rfl⟩ := h
  have hr : StdReal (c :: ((if frac = [] then [] else '.' :: frac) ++ 'e' :: ex)) [c] frac e := by
    refine ⟨if frac = [] then [] else '.' :: frac, 'e' :: ex, by simp, ⟨by simp, ?_⟩, ?_, ?_⟩
    · intro x hx
      rcases List.mem_append.mp hx with h | h
      · rw [List.mem_singleton.mp h]; exact hc
      · exact hf x h
    · split
      · rename_i h; exact .inl ⟨rfl, h⟩
      · exact .inr rfl
    · rcases hex with ⟨_, ds, rfl, hw, rfl⟩ | ⟨_, hw, rfl⟩
      · exact .minus (.inl rfl) hw.1
      · exact .plain (.inl rfl) hw.1
  have hround := (rounds_iff L b _ _).mp hb
  have hlow : (10 : ℚ) ^ e ≤ realValue [c] frac e := by
    have := Chrono.digits_ge (a := [c] ++ frac) (fun x hx => by
      rcases List.mem_append.mp hx with h | h
      · rw [List.mem_singleton.mp h]; exact hc
      · exact hf x h) (by simp) (by simpa using hc0)
    unfold realValue
    have h1 : (10 : ℚ) ^ e = 10 ^ frac.length * 10 ^ (e - frac.length) := by
      rw [← zpow_natCast, ← zpow_add₀ (by norm_num)]
      congr 1
      omega
    rw [h1]
    refine mul_le_mul_of_nonneg_right ?_ (zpow_nonneg (by norm_num) _)
    have h2 : ([c] ++ frac).length - 1 = frac.length := by simp
    rw [h2] at this
    exact_mod_cast this
  have hhigh : realValue [c] frac e ≤ (10 : ℚ) ^ (e + 1) := by
    have := Chrono.digitsValue_lt (s := [c] ++ frac) (fun x hx => by
      rcases List.mem_append.mp hx with h | h
      · rw [List.mem_singleton.mp h]; exact hc
      · exact hf x h)
    unfold realValue
    have h1 : (10 : ℚ) ^ (e + 1) = 10 ^ (frac.length + 1) * 10 ^ (e - frac.length) := by
      rw [← zpow_natCast, ← zpow_add₀ (by norm_num)]
      congr 1
      push_cast
      omega
    rw [h1]
    refine mul_le_mul_of_nonneg_right ?_ (zpow_nonneg (by norm_num) _)
    have h2 : ([c] ++ frac).length = frac.length + 1 := by simp
    rw [h2] at this
    exact_mod_cast this.le
  have he1 : e < 400 := by
    by_contra h
    have hm := roundTo_mono (F := D.fmt) (d := 1) (d' := digitsValue ([c] ++ frac)) (k := 400) (k' := e - frac.length) (by
      refine le_trans ?_ hlow
      rw [Nat.cast_one, one_mul]
      exact zpow_le_zpow_right₀ (by norm_num) (by omega))
    rw [hB.hi, hround] at hm
    omega
  have he2 : -401 < e := by
    by_contra h
    have hm := roundTo_mono (F := D.fmt) (d := digitsValue ([c] ++ frac)) (d' := 1) (k := e - frac.length) (k' := -400) (by
      refine le_trans hhigh ?_
      rw [Nat.cast_one, one_mul]
      exact zpow_le_zpow_right₀ (by norm_num) (by omega))
    rw [hB.lo, hround] at hm
    omega
  obtain ⟨x, hx, hp⟩ := parseNumber_complete hr
  have : x = e := by have := hx.same; omega
  subst this
  unfold parseUnsigned
  rw [hp]
  simp only
  rw [hround]

theorem debug_digits {b : Nat} {t : List Char} (h : K.DebugDigits b t) :
    ∃ q, K.Shortest b q ∧ (PointDecimal t q ∨ ScientificDecimal t q) := by
  cases h with
  | point _ hs ht => exact ⟨_, hs, .inl ht⟩
  | exponent _ hs ht => exact ⟨_, hs, .inr ht⟩

theorem debug_head {b : Nat} {t : List Char} (h : K.DebugDigits b t) : ∃ c cs, t = c :: cs ∧ c ∈ decimalDigits := by
  obtain ⟨q, _, ht | ht⟩ := debug_digits h
  · obtain ⟨int, frac, h1, _, _, rfl, _⟩ := ht
    obtain ⟨c, cs, rfl, hc, _⟩ := SerdeJson.digits_cons h1.1
    exact ⟨c, _, rfl, hc⟩
  · obtain ⟨c, frac, ex, e, hc, _, _, _, _, rfl, _⟩ := ht
    exact ⟨c, _, rfl, hc⟩

theorem digits_parse (L : Link K D.fmt) (hB : Bounded D.fmt) {b : Nat} {t : List Char} (h : K.DebugDigits b t)
    (h0 : 0 < b) (hi : b < D.fmt.inf) : parseUnsigned D.fmt t = some b := by
  obtain ⟨q, hs, ht | ht⟩ := debug_digits h
  · exact point_parse L ht hs.1
  · exact scientific_parse L hB ht hs.1 h0 hi

/-- A float that was shown is read as it was. -/
theorem debug_parse (L : Link K D.fmt) (hB : Bounded D.fmt) {x : Nat} {t : List Char} (h : K.DebugPrinted x t) :
    (K.inf < x % K.sign ∧ parseFloat D.fmt t = some (D.fmt.inf + 2 ^ (D.fmt.mant - 1))) ∨ (x % K.sign ≤ K.inf ∧ parseFloat D.fmt t = some x) := by
  have hlt := inf_lt D.fmt
  have hs := L.sign
  have hinf := L.inf
  rw [← L.inf, ← hs] at hlt
  have hz : parseUnsigned D.fmt ['0', '.', '0'] = some 0 := by
    have h1 : PointDecimal ['0', '.', '0'] 0 := ⟨['0'], ['0'], ⟨⟨by simp, by decide⟩, fun _ => rfl⟩, ⟨by simp, by decide⟩, .inl rfl, rfl, by
      unfold realValue
      rw [show digitsValue (['0'] ++ ['0']) = 0 by decide]
      simp⟩
    refine point_parse L h1 ?_
    have h2 := roundTo_mono (F := D.fmt) (d := 0) (d' := 1) (k := 0) (k' := -400) (by
      rw [Nat.cast_zero, zero_mul, Nat.cast_one, one_mul]
      exact zpow_nonneg (by norm_num) _)
    rw [hB.lo] at h2
    have := (rounds_iff L 0 0 0).mpr (by omega)
    simpa using this
  cases h with
  | nan h => exact .inl ⟨h, rfl⟩
  | infinite =>
    refine .inr ⟨by rw [Nat.mod_eq_of_lt hlt], ?_⟩
    rw [L.inf]
    rfl
  | negInfinite =>
    refine .inr ⟨by rw [Nat.add_mod_left, Nat.mod_eq_of_lt hlt], ?_⟩
    rw [L.inf, hs]
    rfl
  | zero =>
    refine .inr ⟨by simp, ?_⟩
    rw [parseFloat_digit (by decide)]
    exact hz
  | negZero =>
    refine .inr ⟨by simp, ?_⟩
    show (parseUnsigned D.fmt ['0', '.', '0']).map _ = _
    rw [hz, hs]
    rfl
  | positive h0 hb ht =>
    refine .inr ⟨by rw [Nat.mod_eq_of_lt (by omega)]; omega, ?_⟩
    obtain ⟨c, cs, rfl, hc⟩ := debug_head ht
    rw [parseFloat_digit hc]
    exact digits_parse L hB ht h0 (by omega)
  | @negative b t h0 hb ht =>
    refine .inr ⟨by rw [Nat.add_mod_left, Nat.mod_eq_of_lt (by omega)]; omega, ?_⟩
    show (parseUnsigned D.fmt t).map _ = _
    rw [digits_parse L hB ht h0 (by omega), hs]
    rfl

/-- The characters of floats. -/
def floatChars : List Char := ['-', '.', 'e', 'N', 'a', 'i', 'n', 'f'] ++ decimalDigits

theorem debug_chars {x : Nat} {t : List Char} (h : K.DebugPrinted x t) : t ≠ [] ∧ ∀ c ∈ t, c ∈ floatChars := by
  have dig : ∀ c, c ∈ decimalDigits → c ∈ floatChars := fun c hc => by unfold floatChars; simp [hc]
  have digits : ∀ {b t}, K.DebugDigits b t → t ≠ [] ∧ ∀ c ∈ t, c ∈ floatChars := by
    intro b t h
    obtain ⟨c, cs, e, _⟩ := debug_head h
    refine ⟨by rw [e]; simp, ?_⟩
    obtain ⟨q, _, ht | ht⟩ := debug_digits h
    · obtain ⟨int, frac, h1, h2, _, rfl, _⟩ := ht
      intro x hx
      rcases List.mem_append.mp hx with hx | hx
      · exact dig x (h1.1.2 x hx)
      · rcases List.mem_cons.mp hx with rfl | hx
        · decide
        · exact dig x (h2.2 x hx)
    · obtain ⟨c, frac, ex, e, hc, _, hf, _, hex, rfl, _⟩ := ht
      intro x hx
      rcases List.mem_cons.mp hx with rfl | hx
      · exact dig _ hc
      rcases List.mem_append.mp hx with hx | hx
      · split at hx
        · cases hx
        · rcases List.mem_cons.mp hx with rfl | hx
          · decide
          · exact dig x (hf x hx)
      · rcases List.mem_cons.mp hx with rfl | hx
        · decide
        · rcases hex with ⟨_, ds, rfl, hw, _⟩ | ⟨_, hw, _⟩
          · rcases List.mem_cons.mp hx with rfl | hx
            · decide
            · exact dig x (hw.1.2 x hx)
          · exact dig x (hw.1.2 x hx)
  cases h with
  | nan h => exact ⟨by simp, by decide⟩
  | infinite => exact ⟨by simp, by decide⟩
  | negInfinite => exact ⟨by simp, by decide⟩
  | zero => exact ⟨by simp, by decide⟩
  | negZero => exact ⟨by simp, by decide⟩
  | positive h0 hb ht => exact digits ht
  | negative h0 hb ht =>
    refine ⟨by simp, fun c hc => ?_⟩
    rcases List.mem_cons.mp hc with rfl | hc
    · decide
    · exact (digits ht).2 c hc

end

theorem f64Debug_printed (x : UInt64) : kind64.DebugPrinted x.toNat (f64Debug x) :=
  floatDebug_printed right64 link64 (x := x.toNat) x.toNat_lt

theorem f32Debug_printed (x : UInt32) : kind32.DebugPrinted x.toNat (f32Debug x) :=
  floatDebug_printed right32 link32 (x := x.toNat) x.toNat_lt

theorem f64Debug_reread (x : UInt64) : (Value.IsNan64 x ∧ f64Parse (f64Debug x) = some 0x7FF8000000000000) ∨
    (¬ Value.IsNan64 x ∧ f64Parse (f64Debug x) = some x) := by
  rw [nan64_iff]
  unfold f64Parse
  rcases debug_parse (D := dec64) link64 bounded64 (f64Debug_printed x) with ⟨h1, h2⟩ | ⟨h1, h2⟩
  · left
    refine ⟨h1, ?_⟩
    rw [show parseFloat f64Format (f64Debug x) = _ from h2]
    rfl
  · right
    refine ⟨by omega, ?_⟩
    rw [show parseFloat f64Format (f64Debug x) = _ from h2]
    simp

theorem f64Debug_inj {x y : UInt64} (h : f64Debug x = f64Debug y) : x = y ∨ Value.IsNan64 x ∧ Value.IsNan64 y := by
  rcases f64Debug_reread x with ⟨h1, h2⟩ | ⟨h1, h2⟩ <;> rcases f64Debug_reread y with ⟨k1, k2⟩ | ⟨k1, k2⟩ <;> rw [← h, h2, Option.some.injEq] at k2
  · exact .inr ⟨h1, k1⟩
  · exact absurd (by rw [← k2]; unfold Value.IsNan64; decide) k1
  · exact absurd (by rw [k2]; unfold Value.IsNan64; decide) h1
  · exact .inl k2

theorem f32Debug_inj {x y : UInt32} (h : f32Debug x = f32Debug y) : x = y ∨ Value.IsNan32 x ∧ Value.IsNan32 y := by
  rw [nan32_iff, nan32_iff]
  rcases debug_parse (D := dec32) link32 bounded32 (f32Debug_printed x) with ⟨h1, h2⟩ | ⟨h1, h2⟩ <;>
    rcases debug_parse (D := dec32) link32 bounded32 (f32Debug_printed y) with ⟨k1, k2⟩ | ⟨k1, k2⟩ <;> rw [← h, h2, Option.some.injEq] at k2
  · exact .inr ⟨h1, k1⟩
  · exfalso
    have e1 : kind32.inf = 255 * 2 ^ 23 := rfl
    have e2 : kind32.sign = 2 ^ 31 := rfl
    have e3 : dec32.fmt.inf + 2 ^ (dec32.fmt.mant - 1) = 255 * 2 ^ 23 + 2 ^ 22 := rfl
    rw [e3] at k2
    rw [e1, e2] at k1
    omega
  · exfalso
    have e1 : kind32.inf = 255 * 2 ^ 23 := rfl
    have e2 : kind32.sign = 2 ^ 31 := rfl
    have e3 : dec32.fmt.inf + 2 ^ (dec32.fmt.mant - 1) = 255 * 2 ^ 23 + 2 ^ 22 := rfl
    rw [e3] at k2
    rw [e1, e2] at h1
    omega
  · exact .inl (UInt32.toNat_inj.mp k2)

theorem nan_debug64 {x : UInt64} (h : Value.IsNan64 x) : f64Debug x = ['N', 'a', 'N'] := by
  have h1 := (nan64_iff x).mp h
  unfold f64Debug floatDebug
  exact if_pos h1

theorem nan_debug32 {x : UInt32} (h : Value.IsNan32 x) : f32Debug x = ['N', 'a', 'N'] := by
  have h1 := (nan32_iff x).mp h
  unfold f32Debug floatDebug
  exact if_pos h1

end StdText

end Souris
