import Verif.Lemmas.FloatArith
import Verif.Lemmas.IntegerConv
import Verif.Lemmas.IntegerSerde
import Verif.Model.JsonText
import Verif.Spec.JsonText

/-! # Reading numbers in JSON text -/

namespace Souris

namespace SerdeJson

open FloatFormat

/-! ## Floats -/

theorem pow10_fin {e : Nat} (h : e ≤ 308) : pow10 e < f64Format.inf := by
  refine lt_of_le_of_lt (b := pow10 308) ?_ (by decide +kernel)
  unfold pow10
  refine ofRatio_mono (by decide) (by decide) ?_
  rw [Nat.mul_one, Nat.mul_one]
  exact Nat.pow_le_pow_right (by decide) h

theorem pow10_mag {e : Nat} (h : e ≤ 22) : f64Format.mag (pow10 e) = 10 ^ e * 2 ^ f64Format.scale := by
  have h5 : 5 ^ e < 2 ^ (f64Format.mant + 1) :=
    lt_of_le_of_lt (Nat.pow_le_pow_right (by decide) h) (by decide)
  have := (mag_ofRatio (F := f64Format) (n := 10 ^ e) (d := 1) (c := 5 ^ e) (j := e + f64Format.scale) (by decide) h5
    (by have : f64Format.scale = 1074 := rfl
        have : f64Format.expo = 11 := rfl
        rw [this]; omega)
    (by rw [Nat.mul_one, pow_add, ← Nat.mul_assoc, ← Nat.mul_pow])).1
  unfold pow10
  rw [this, pow_add, ← Nat.mul_assoc, ← Nat.mul_pow]

/-- Powers of ten are at least one. -/
theorem pow10_ge {e : Nat} (h : e ≤ 308) : 2 ^ f64Format.scale ≤ f64Format.mag (pow10 e) := by
  rcases Nat.eq_zero_or_pos e with rfl | he
  · rw [pow10_mag (by decide), pow_zero, Nat.one_mul]
  · have h10 : 10 ≤ 10 ^ e := by simpa using Nat.pow_le_pow_right (n := 10) (by decide) he
    have hU := Nat.two_pow_pos f64Format.scale
    have := half_le_mag (F := f64Format) (n := 10 ^ e) (d := 1) (by decide) (pow10_fin h) (by nlinarith)
    have h2 : 10 * 2 ^ f64Format.scale ≤ 10 ^ e * 2 ^ f64Format.scale := Nat.mul_le_mul_right _ h10
    unfold pow10
    omega

theorem div_fin {f e : Nat} (hf : f < f64Format.inf) (h : e ≤ 308) : f64Format.div f (pow10 e) < f64Format.inf := by
  refine lt_of_le_of_lt ?_ hf
  have hp := pow10_ge h
  exact ofRatio_le hf (lt_of_lt_of_le (by positivity) hp) (Nat.mul_le_mul_left _ hp)

theorem castNat_ratio {n : Nat} (h : n < 2 ^ 64) : f64Format.castNat n = f64Format.ofRatio n 1 := by
  refine castNat_eq f64_good ?_
  have : Nat.log2 n ≤ 64 := by
    rcases Nat.eq_zero_or_pos n with rfl | h0
    · decide
    · have := (Nat.log2_lt (by omega)).mpr h
      omega
  have e1 : f64Format.scale = 1074 := rfl
  have e2 : f64Format.expo = 11 := rfl
  have e3 : f64Format.mant = 52 := rfl
  rw [e1, e2, e3]
  omega

/-- The float `2^64`. -/
def pow64 : Nat := f64Format.ofRatio (2 ^ 64) 1

theorem pow64_fin : pow64 < f64Format.inf := by decide +kernel

theorem castNat_fin {n : Nat} (h : n < 2 ^ 64) : f64Format.castNat n < f64Format.inf := by
  rw [castNat_ratio h]
  refine lt_of_le_of_lt (b := pow64) ?_ pow64_fin
  exact ofRatio_mono (by decide) (by decide) (by omega)

/-- The result is finite. -/
theorem scale_fin {fuel f : Nat} {e : Int} {g : Nat} (hf : f < f64Format.inf) (h : scale fuel f e = some g) :
    g < f64Format.inf := by
  induction fuel generalizing f e with
  | zero => simp [scale] at h
  | succ fuel ih =>
    simp only [scale] at h
    split at h
    · rename_i he
      split at h
      · split at h
        · cases h
        · rename_i hne
          rw [← Option.some.inj h]
          exact lt_of_le_of_ne (ofRatio_le_inf _ _) hne
      · rw [← Option.some.inj h]
        exact div_fin hf he
    · split at h
      · rw [← Option.some.inj h]; exact hf
      · split at h
        · cases h
        · exact ih (div_fin hf (by decide)) h

/-- More fuel makes no difference. -/
theorem scale_fuel {fuel f : Nat} {e : Int} (h : e.natAbs / 308 + 1 ≤ fuel) :
    scale fuel f e = scale (e.natAbs / 308 + 1) f e := by
  induction fuel using Nat.strongRecOn generalizing f e with
  | ind fuel ih =>
    obtain ⟨fuel, rfl⟩ : ∃ k, fuel = k + 1 := ⟨fuel - 1, by omega⟩
    simp only [scale]
    split
    · rfl
    · split
      · rfl
      · split
        · rfl
        · rename_i h1 h2 h3
          have hlt : (e + 308).natAbs / 308 + 1 ≤ e.natAbs / 308 := by
            have : (e + 308).natAbs = e.natAbs - 308 := by omega
            rw [this]
            omega
          rw [ih fuel (by omega) (by omega)]
          rcases Nat.lt_or_ge (e.natAbs / 308) (fuel + 1) with hk | hk
          · rw [ih (e.natAbs / 308) (by omega) hlt]
          · omega

theorem fromParts_fin {pos : Bool} {sig : Nat} {e : Int} {r : UInt64} (hs : sig < 2 ^ 64)
    (h : fromParts pos sig e = some r) : ∃ b, b < f64Format.inf ∧ r = signed pos b := by
  unfold fromParts at h
  cases hk : scale (e.natAbs / 308 + 1) (f64Format.castNat sig) e with
  | none => rw [hk] at h; cases h
  | some b =>
    rw [hk] at h
    cases h
    exact ⟨b, scale_fin (castNat_fin hs) hk, rfl⟩

/-- Small exponents are in range. -/
theorem fromParts_ok (pos : Bool) {sig : Nat} {e : Int} (hs : sig < 2 ^ 64) (he : e ≤ 280) :
    ∃ b, b < f64Format.inf ∧ fromParts pos sig e = some (signed pos b) := by
  have key : ∀ fuel f, ∀ e : Int, e ≤ 280 → f ≤ pow64 → e.natAbs / 308 + 1 ≤ fuel → ∃ b, scale fuel f e = some b := by
    intro fuel
    induction fuel with
    | zero => intro f e _ _ h; omega
    | succ fuel ih =>
      intro f e he hf h
      have hff := lt_of_le_of_lt hf pow64_fin
      simp only [scale]
      split
      · split
        · rw [if_neg]
          · exact ⟨_, rfl⟩
          · refine ne_of_lt (lt_of_le_of_lt (b := f64Format.mul pow64 (pow10 280)) ?_ (by decide +kernel))
            refine ofRatio_mono (by positivity) (by positivity) (Nat.mul_le_mul_right _ (Nat.mul_le_mul ?_ ?_))
            · exact mag_mono hf pow64_fin
            · refine mag_mono ?_ (pow10_fin (by decide))
              refine ofRatio_mono (by decide) (by decide) ?_
              rw [Nat.mul_one, Nat.mul_one]
              exact Nat.pow_le_pow_right (by decide) (by omega)
        · exact ⟨_, rfl⟩
      · split
        · exact ⟨_, rfl⟩
        · rw [if_neg (by omega)]
          have hp := pow10_ge (e := 308) (le_refl _)
          refine ih _ _ (by omega) (le_trans ?_ hf) ?_
          · exact ofRatio_le hff (lt_of_lt_of_le (by positivity) hp) (Nat.mul_le_mul_left _ hp)
          · have : (e + 308).natAbs = e.natAbs - 308 := by omega
            rw [this]; omega
  have hc : f64Format.castNat sig ≤ pow64 := by
    rw [castNat_ratio hs]
    exact ofRatio_mono (by decide) (by decide) (by omega)
  obtain ⟨b, hb⟩ := key _ _ e he hc (le_refl _)
  exact ⟨b, scale_fin (castNat_fin hs) hb, by unfold fromParts; rw [hb]; rfl⟩

/-- The magnitude of an exact conversion. -/
theorem castNat_mag {n c j : Nat} (h : n < 2 ^ 64) (hn : n = c * 2 ^ j) (hc : c < 2 ^ 53) (hj : j ≤ 64) :
    f64Format.mag (f64Format.castNat n) = n * 2 ^ f64Format.scale := by
  rw [castNat_ratio h]
  have := (mag_ofRatio (F := f64Format) (n := n) (d := 1) (c := c) (j := j + f64Format.scale) (by decide) hc
    (by have e1 : f64Format.scale = 1074 := rfl
        have e2 : f64Format.expo = 11 := rfl
        rw [e1, e2]; omega)
    (by rw [Nat.mul_one, pow_add, ← Nat.mul_assoc, hn])).1
  rw [this, pow_add, ← Nat.mul_assoc, hn]

/-- serde_json rounds correctly when the digits and the power of ten are exact. -/
theorem fromParts_exact (pos : Bool) {sig c j : Nat} {e : Int} (h : sig < 2 ^ 64) (hn : sig = c * 2 ^ j) (hc : c < 2 ^ 53)
    (hj : j ≤ 64) (he : e.natAbs ≤ 22) : fromParts pos sig e = some (signed pos (roundTo sig e)) ∧
    roundTo sig e < f64Format.inf := by
  have hm := castNat_mag h hn hc hj
  have hp := pow10_mag he
  have hU := Nat.two_pow_pos f64Format.scale
  obtain ⟨b, hb, hfp⟩ := fromParts_ok pos h (show e ≤ 280 by omega)
  have e1 : ∀ b, scale (e.natAbs / 308 + 1) (f64Format.castNat sig) e = some b → b = roundTo sig e := by
    intro b hb
    simp only [scale] at hb
    rw [if_pos (by omega)] at hb
    unfold roundTo
    split at hb
    · rename_i h0
      rw [if_pos h0]
      split at hb
      · cases hb
      · rw [← Option.some.inj hb]
        unfold FloatFormat.mul
        rw [hm, hp]
        refine ofRatio_congr (by positivity) (by decide) ?_
        rw [Nat.two_mul, pow_add]
        ring
    · rename_i h0
      rw [if_neg h0, ← Option.some.inj hb]
      unfold FloatFormat.div
      rw [hm, hp]
      refine ofRatio_congr (by positivity) (by positivity) ?_
      ring
  unfold fromParts at hfp ⊢
  cases hk : scale (e.natAbs / 308 + 1) (f64Format.castNat sig) e with
  | none => rw [hk] at hfp; cases hfp
  | some g =>
    have hg := scale_fin (castNat_fin h) hk
    have : g = roundTo sig e := e1 g hk
    rw [← this]
    exact ⟨rfl, hg⟩

/-! ## Loops over digits -/

/-- Digits behind a number. -/
def dig (acc : Nat) (ds : List Char) : Nat := ds.foldl (fun acc c => acc * 10 + decimalDigits.idxOf c) acc

theorem dig_le (acc : Nat) (ds : List Char) : acc ≤ dig acc ds := digitsValue_from acc ds

theorem dig_append (acc : Nat) (a b : List Char) : dig acc (a ++ b) = dig (dig acc a) b := by simp [dig]

theorem digitsValue_eq (ds : List Char) : digitsValue ds = dig 0 ds := rfl

theorem dig_cons (acc : Nat) (c : Char) (ds : List Char) : dig acc (c :: ds) = dig (acc * 10 + decimalDigits.idxOf c) ds := rfl

/-- Not a digit in front. -/
def NoDigit (cs : List Char) : Prop := ∀ c, cs.head? = some c → c ∉ decimalDigits

theorem digitOf_of_mem {c : Char} (h : c ∈ decimalDigits) : digitOf c = some (decimalDigits.idxOf c) :=
  digitOf_eq_some.mpr ⟨h, rfl⟩

theorem digitOf_none {c : Char} (h : c ∉ decimalDigits) : digitOf c = none := by
  cases hd : digitOf c with
  | none => rfl
  | some d => exact absurd (digitOf_eq_some.mp hd).1 h

theorem digitOf_mem {c : Char} {d : Nat} (h : digitOf c = some d) : c ∈ decimalDigits ∧ d = decimalDigits.idxOf c :=
  digitOf_eq_some.mp h

theorem idx_lt {c : Char} (h : c ∈ decimalDigits) : decimalDigits.idxOf c < 10 := List.idxOf_lt_length_of_mem h

theorem eatDigits_spec (cs : List Char) : ∃ ds, cs = ds ++ eatDigits cs ∧ (∀ c ∈ ds, c ∈ decimalDigits) := by
  refine ⟨cs.takeWhile (fun c => (digitOf c).isSome), (List.takeWhile_append_dropWhile).symm, ?_⟩
  intro c hc
  exact digitOf_isSome.mp (List.all_eq_true.mp (List.all_takeWhile (l := cs)) c hc)

theorem eatDigits_eq {ds tail : List Char} (hd : ∀ c ∈ ds, c ∈ decimalDigits) (ht : NoDigit tail) :
    eatDigits (ds ++ tail) = tail := by
  induction ds with
  | nil =>
    cases tail with
    | nil => rfl
    | cons c cs => simp [eatDigits, digitOf_none (ht c rfl)]
  | cons c cs ih =>
    have := digitOf_of_mem (hd c (by simp))
    simp only [eatDigits, List.cons_append, List.dropWhile_cons, this, Option.isSome_some, if_true]
    exact ih (fun x hx => hd x (by simp [hx]))

/-! ## What is read is a number -/

/-- A finite float with this sign. -/
def Fin (pos : Bool) (r : UInt64) : Prop := ∃ b, b < f64Format.inf ∧ r = signed pos b

theorem zero_fin (pos : Bool) : Fin pos (signed pos 0) := ⟨0, by decide +kernel, rfl⟩

/-- What is made of a significand and an exponent to which `e` is added. -/
def Step (pos : Bool) (sig : Nat) (start e : Int) (r : UInt64) : Prop :=
  (|e| < 2 ^ 31 → fromParts pos sig (start + e) = some r) ∧ (2 ^ 31 ≤ |e| → r = signed pos 0 ∧ (sig = 0 ∨ e < 0))

theorem Step.none {pos : Bool} {sig : Nat} {start : Int} {r : UInt64} (h : fromParts pos sig start = some r) :
    Step pos sig start 0 r := ⟨fun _ => by rwa [Int.add_zero], fun h => by norm_num at h⟩

theorem expLoop_sound {pos pe : Bool} {sig : Nat} {start : Int} (hs : sig < 2 ^ 64) {cs : List Char} {e : Nat} (he : e < 2 ^ 31)
    {r : UInt64} {rest : List Char} (h : expLoop pos sig start pe e cs = some (r, rest)) :
    ∃ ds, (∀ c ∈ ds, c ∈ decimalDigits) ∧ cs = ds ++ rest ∧ Fin pos r ∧
      (dig e ds < 2 ^ 31 → fromParts pos sig (if pe then start + dig e ds else start - dig e ds) = some r) ∧
      (2 ^ 31 ≤ dig e ds → r = signed pos 0 ∧ (sig = 0 ∨ pe = false)) := by
  induction cs generalizing e with
  | nil =>
    unfold expLoop at h
    simp only [Option.map_eq_some_iff, Prod.mk.injEq] at h
    obtain ⟨a, ha, rfl, rfl⟩ := h
    exact ⟨[], by simp, rfl, fromParts_fin hs ha, fun _ => ha, fun h => by simp only [dig, List.foldl_nil] at h; omega⟩
  | cons c cs ih =>
    unfold expLoop at h
    simp only at h
    cases hd : digitOf c with
    | none =>
      rw [hd] at h
      simp only [Option.map_eq_some_iff, Prod.mk.injEq] at h
      obtain ⟨a, ha, rfl, rfl⟩ := h
      exact ⟨[], by simp, rfl, fromParts_fin hs ha, fun _ => ha, fun h => by simp only [dig, List.foldl_nil] at h; omega⟩
    | some d =>
      rw [hd] at h
      obtain ⟨hc, rfl⟩ := digitOf_mem hd
      simp only at h
      split at h
      · split at h
        · cases h
        · rename_i hpe
          obtain ⟨ds, e1, e2⟩ := eatDigits_spec cs
          simp only [Option.some.injEq, Prod.mk.injEq] at h
          obtain ⟨rfl, rfl⟩ := h
          refine ⟨c :: ds, ?_, by rw [List.cons_append, ← e1], zero_fin pos, ?_, fun _ => ⟨rfl, ?_⟩⟩
          · intro x hx
            rcases List.mem_cons.mp hx with rfl | hx
            · exact hc
            · exact e2 x hx
          · intro h
            have := dig_le (e * 10 + decimalDigits.idxOf c) ds
            rw [dig_cons] at h
            omega
          · by_contra hc
            simp only [not_or, Bool.not_eq_false] at hc
            exact hpe ⟨hc.1, hc.2⟩
      · obtain ⟨ds, h1, rfl, h3, h4, h5⟩ := ih (by omega) h
        refine ⟨c :: ds, ?_, rfl, h3, h4, h5⟩
        intro x hx
        rcases List.mem_cons.mp hx with rfl | hx
        · exact hc
        · exact h1 x hx

theorem expPart_sound {pos : Bool} {sig : Nat} {start : Int} (hs : sig < 2 ^ 64) {c0 : Char} (hc0 : c0 = 'e' ∨ c0 = 'E')
    {cs : List Char} {r : UInt64} {rest : List Char} (h : expPart pos sig start cs = some (r, rest)) :
    ∃ ex e, JsonExponent ex e ∧ c0 :: cs = ex ++ rest ∧ ex ≠ [] ∧ Fin pos r ∧ Step pos sig start e r := by
  have body : ∀ cs' : List Char, (match cs' with
      | [] => none
      | c :: rest => match digitOf c with
        | none => none
        | some d => expLoop pos sig start (decide (cs.head? ≠ some '-')) d rest) = some (r, rest) →
      ∃ ds, JsonDigits ds ∧ cs' = ds ++ rest ∧ Fin pos r ∧ (digitsValue ds < 2 ^ 31 → fromParts pos sig
        (if decide (cs.head? ≠ some '-') then start + digitsValue ds else start - digitsValue ds) = some r) ∧
        (2 ^ 31 ≤ digitsValue ds → r = signed pos 0 ∧ (sig = 0 ∨ decide (cs.head? ≠ some '-') = false)) := by
    intro cs' h
    cases cs' with
    | nil => cases h
    | cons c cs' =>
      simp only at h
      cases hd : digitOf c with
      | none => rw [hd] at h; cases h
      | some d =>
        rw [hd] at h
        obtain ⟨ds, h1, h2, h3, h4⟩ := expLoop_sound hs (by
          have := idx_lt (digitOf_mem hd).1
          rw [(digitOf_mem hd).2]
          omega) h
        have hval : digitsValue (c :: ds) = dig d ds := by
          rw [digitsValue_eq, dig_cons, (digitOf_mem hd).2]
          simp
        refine ⟨c :: ds, ⟨by simp, ?_⟩, by rw [h2]; rfl, h3, by rw [hval]; exact h4⟩
        intro x hx
        rcases List.mem_cons.mp hx with rfl | hx
        · exact (digitOf_mem hd).1
        · exact h1 x hx
  unfold expPart at h
  simp only at h
  obtain ⟨ds, h1, h2, h3, h4, h5⟩ := body _ h
  split at h2
  · rename_i hh
    cases cs with
    | nil => simp at hh
    | cons c cs =>
      simp only [List.head?_cons, Option.some.injEq, List.tail_cons] at hh h2
      subst h2
      rcases hh with rfl | rfl
      · refine ⟨_, _, .plus hc0 h1, rfl, by simp, h3, fun h => ?_, fun h => ?_⟩
        · rw [Nat.abs_cast] at h
          exact h4 (by exact_mod_cast h)
        · rw [Nat.abs_cast] at h
          have := h5 (by exact_mod_cast h)
          exact ⟨this.1, .inl (by simpa using this.2)⟩
      · refine ⟨_, _, .minus hc0 h1, rfl, by simp, h3, fun h => ?_, fun h => ?_⟩
        · rw [abs_neg, Nat.abs_cast] at h
          exact h4 (by exact_mod_cast h)
        · rw [abs_neg, Nat.abs_cast] at h
          have := h5 (by exact_mod_cast h)
          exact ⟨this.1, .inr (by omega)⟩
  · rename_i hh
    have hne : decide (cs.head? ≠ some '-') = true := by
      simp only [not_or] at hh
      simpa using hh.2
    rw [if_pos hne] at h4
    subst h2
    rw [hne] at h5
    refine ⟨_, _, .plain hc0 h1, rfl, by simp, h3, fun h => ?_, fun h => ?_⟩
    · rw [Nat.abs_cast] at h
      exact h4 (by exact_mod_cast h)
    · rw [Nat.abs_cast] at h
      have := h5 (by exact_mod_cast h)
      exact ⟨this.1, .inl (by simpa using this.2)⟩

theorem expOrEnd_sound {pos : Bool} {sig : Nat} {start : Int} (hs : sig < 2 ^ 64) {cs : List Char} {r : UInt64}
    {rest : List Char} (h : expOrEnd pos sig start cs = some (r, rest)) :
    ∃ ex e, JsonExponent ex e ∧ cs = ex ++ rest ∧ Fin pos r ∧ Step pos sig start e r := by
  unfold expOrEnd at h
  cases cs with
  | nil =>
    simp only [Option.map_eq_some_iff, Prod.mk.injEq] at h
    obtain ⟨a, ha, rfl, rfl⟩ := h
    exact ⟨[], 0, .none, rfl, fromParts_fin hs ha, .none ha⟩
  | cons c cs =>
    simp only at h
    split at h
    · rename_i hc
      obtain ⟨ex, e, h1, h2, _, h3, h4⟩ := expPart_sound hs hc h
      exact ⟨ex, e, h1, h2, h3, h4⟩
    · simp only [Option.map_eq_some_iff, Prod.mk.injEq] at h
      obtain ⟨a, ha, rfl, rfl⟩ := h
      exact ⟨[], 0, .none, rfl, fromParts_fin hs ha, .none ha⟩

theorem decLoop_sound {pos : Bool} {before : Int} {cs : List Char} {sig after : Nat} (hs : sig < 2 ^ 64) {r : UInt64}
    {rest : List Char} (h : decLoop pos before sig after cs = some (r, rest)) :
    ∃ ds ex e, (∀ c ∈ ds, c ∈ decimalDigits) ∧ (after = 0 → ds ≠ []) ∧ JsonExponent ex e ∧ cs = ds ++ ex ++ rest ∧
      Fin pos r ∧ ∃ j, j ≤ ds.length ∧ dig sig (ds.take j) < 2 ^ 64 ∧
        (j = ds.length ∨ (10 ^ 18 ≤ dig sig (ds.take j) ∧ 2 ^ 64 ≤ dig sig ds)) ∧
        Step pos (dig sig (ds.take j)) (before - after - j) e r := by
  induction cs generalizing sig after with
  | nil =>
    unfold decLoop at h
    simp only at h
    split at h
    · cases h
    · rename_i ha
      obtain ⟨ex, e, h1, h2, h3, h4⟩ := expOrEnd_sound hs h
      exact ⟨[], ex, e, by simp, fun h => absurd h ha, h1, by simpa using h2, h3, 0, by simp, by simpa [dig] using hs, by simp,
          by simpa [dig] using h4⟩
  | cons c cs ih =>
    unfold decLoop at h
    simp only at h
    cases hd : digitOf c with
    | none =>
      rw [hd] at h
      simp only at h
      split at h
      · cases h
      · rename_i ha
        obtain ⟨ex, e, h1, h2, h3, h4⟩ := expOrEnd_sound hs h
        exact ⟨[], ex, e, by simp, fun h => absurd h ha, h1, by simpa using h2, h3, 0, by simp, by simpa [dig] using hs, by simp,
          by simpa [dig] using h4⟩
    | some d =>
      rw [hd] at h
      obtain ⟨hc, rfl⟩ := digitOf_mem hd
      simp only at h
      split at h
      · rename_i hbig
        obtain ⟨ds, e1, e2⟩ := eatDigits_spec cs
        obtain ⟨ex, e, h1, h2, h3, h4⟩ := expOrEnd_sound hs h
        refine ⟨c :: ds, ex, e, ?_, by simp, h1, ?_, h3, 0, by simp, by simpa [dig] using hs, .inr ⟨?_, ?_⟩,
          by simpa [dig] using h4⟩
        · intro x hx
          rcases List.mem_cons.mp hx with rfl | hx
          · exact hc
          · exact e2 x hx
        · rw [List.append_assoc, ← h2, List.cons_append, ← e1]
        · have := idx_lt hc
          simp only [List.take_zero, dig, List.foldl_nil]
          omega
        · have := dig_le (sig * 10 + decimalDigits.idxOf c) ds
          rw [dig_cons]
          omega
      · rename_i hle
        obtain ⟨ds, ex, e, h1, _, h2, h3, h4, j, h5, h6, h7, h8⟩ := ih (by omega) h
        refine ⟨c :: ds, ex, e, ?_, by simp, h2, by rw [h3]; rfl, h4, j + 1, by simpa using h5, ?_, ?_, ?_⟩
        · intro x hx
          rcases List.mem_cons.mp hx with rfl | hx
          · exact hc
          · exact h1 x hx
        · rwa [List.take_succ_cons, dig_cons]
        · rw [List.take_succ_cons, dig_cons, dig_cons, List.length_cons]
          rcases h7 with h7 | h7
          · exact .inl (by omega)
          · exact .inr h7
        · rw [List.take_succ_cons, dig_cons]
          rw [show before - ((after + 1 : Nat) : Int) - j = before - after - ((j + 1 : Nat) : Int) by push_cast; omega] at h8
          exact h8

theorem longInteger_sound {pos : Bool} {sig : Nat} (hs : sig < 2 ^ 64) {cs : List Char} {extra : Nat} {r : UInt64}
    {rest : List Char} (h : longInteger pos sig extra cs = some (r, rest)) :
    ∃ ds fr frac ex e, (∀ c ∈ ds, c ∈ decimalDigits) ∧ JsonFraction fr frac ∧ JsonExponent ex e ∧
      cs = ds ++ fr ++ ex ++ rest ∧ Fin pos r ∧ ∃ j, j ≤ frac.length ∧ dig sig (frac.take j) < 2 ^ 64 ∧
        Step pos (dig sig (frac.take j)) ((extra + ds.length : Nat) - j) e r := by
  induction cs generalizing extra with
  | nil =>
    unfold longInteger at h
    obtain ⟨ex, e, h1, h2, h3, h4⟩ := expOrEnd_sound hs h
    exact ⟨[], [], [], ex, e, by simp, .inl ⟨rfl, rfl⟩, h1, by simpa using h2, h3, 0, by simp, by simpa [dig] using hs,
      by simpa [dig] using h4⟩
  | cons c cs ih =>
    unfold longInteger at h
    simp only at h
    split at h
    · rename_i hc
      obtain ⟨ds, fr, frac, ex, e, h1, h2, h3, h4, h5, j, h6, h7, h8⟩ := ih h
      refine ⟨c :: ds, fr, frac, ex, e, ?_, h2, h3, by rw [h4]; rfl, h5, j, h6, h7, by
        rw [List.length_cons, show extra + (ds.length + 1) = extra + 1 + ds.length by omega]; exact h8⟩
      intro x hx
      rcases List.mem_cons.mp hx with rfl | hx
      · exact digitOf_isSome.mp hc
      · exact h1 x hx
    · split at h
      · rename_i hc
        subst hc
        obtain ⟨ds, ex, e, h1, h2, h3, h4, h5, j, h6, h7, _, h8⟩ := decLoop_sound hs h
        exact ⟨[], '.' :: ds, ds, ex, e, by simp, .inr ⟨⟨h2 rfl, h1⟩, rfl⟩, h3, by rw [h4]; simp, h5, j, h6, h7,
          by simpa using h8⟩
      · obtain ⟨ex, e, h1, h2, h3, h4⟩ := expOrEnd_sound hs h
        exact ⟨[], [], [], ex, e, by simp, .inl ⟨rfl, rfl⟩, h1, by simpa using h2, h3, 0, by simp,
          by simpa [dig] using hs, by simpa [dig] using h4⟩

/-- Of the digits `D` with the exponent `k`, these are used, with this exponent: all of them if there are few, and
enough of them in any case. -/
def Kept (sig : Nat) (start : Int) (D : Nat) (k : Int) : Prop :=
  ∃ drop : Nat, sig < 2 ^ 64 ∧ (D < 2 ^ 64 → sig = D ∧ drop = 0) ∧
    (sig * 10 ^ drop - D : Int).natAbs * 10 ^ 18 ≤ D ∧ start = k + drop

theorem Kept.all {D : Nat} {k : Int} (hD : D < 2 ^ 64) : Kept D k D k := ⟨0, hD, fun _ => ⟨rfl, rfl⟩, by simp, by simp⟩

theorem Kept.few {sig : Nat} {start : Int} {D : Nat} {k : Int} (h : Kept sig start D k) (hD : D < 2 ^ 64) :
    sig = D ∧ start = k := by
  obtain ⟨drop, _, h2, _, rfl⟩ := h
  obtain ⟨rfl, rfl⟩ := h2 hD
  simp

theorem dig_bounds (acc : Nat) {ds : List Char} (h : ∀ c ∈ ds, c ∈ decimalDigits) :
    acc * 10 ^ ds.length ≤ dig acc ds ∧ dig acc ds < (acc + 1) * 10 ^ ds.length := by
  induction ds generalizing acc with
  | nil => simp [dig]
  | cons c ds ih =>
    have hc := idx_lt (h c (by simp))
    obtain ⟨h1, h2⟩ := ih (acc * 10 + decimalDigits.idxOf c) (fun x hx => h x (by simp [hx]))
    rw [dig_cons, List.length_cons, Nat.pow_succ']
    constructor
    · refine le_trans ?_ h1
      rw [← Nat.mul_assoc]
      exact Nat.mul_le_mul_right _ (by omega)
    · refine lt_of_lt_of_le h2 ?_
      rw [← Nat.mul_assoc]
      exact Nat.mul_le_mul_right _ (by omega)

/-- Both between the same bounds, so close to each other. -/
theorem kept_near {sig m a D : Nat} (hs : 10 ^ 18 ≤ sig) (h1 : sig * m ≤ a) (h2 : a < (sig + 1) * m) (h3 : sig * m ≤ D)
    (h4 : D < (sig + 1) * m) : (a - D : Int).natAbs * 10 ^ 18 ≤ D := by
  have h5 : (a - D : Int).natAbs ≤ m := by
    rw [Nat.add_mul, Nat.one_mul] at h2 h4
    omega
  calc (a - D : Int).natAbs * 10 ^ 18 ≤ m * sig := Nat.mul_le_mul h5 hs
    _ ≤ D := by rwa [Nat.mul_comm]

/-- The digits behind the point are cut off. -/
theorem Kept.cut {sig : Nat} {ds : List Char} {k : Int} {j : Nat}
    (hd : ∀ c ∈ ds, c ∈ decimalDigits) (hj : j ≤ ds.length) (h1 : dig sig (ds.take j) < 2 ^ 64)
    (h2 : j = ds.length ∨ (10 ^ 18 ≤ dig sig (ds.take j) ∧ 2 ^ 64 ≤ dig sig ds)) :
    Kept (dig sig (ds.take j)) (k - j) (dig sig ds) (k - ds.length) := by
  rcases h2 with rfl | ⟨h4, h5⟩
  · rw [List.take_length] at h1 ⊢
    exact .all h1
  · refine ⟨ds.length - j, h1, fun h => by omega, ?_, by omega⟩
    have hb := dig_bounds (dig sig (ds.take j)) (ds := ds.drop j) (fun c hc => hd c (List.mem_of_mem_drop hc))
    rw [← dig_append, List.take_append_drop, List.length_drop] at hb
    have := kept_near h4 (le_refl _) (Nat.mul_lt_mul_of_pos_right (Nat.lt_succ_self _) (by positivity)) hb.1 hb.2
    push_cast at this
    exact this

/-- Digits in front of the point are cut off; then those behind it may be used instead. -/
theorem Kept.long {sig : Nat} (hs : 10 ^ 18 ≤ sig) {ds frac : List Char} {j : Nat} (hd : ∀ c ∈ ds, c ∈ decimalDigits)
    (hf : ∀ c ∈ frac, c ∈ decimalDigits) (hj : j ≤ frac.length) (h1 : dig sig (frac.take j) < 2 ^ 64)
    (hbig : 2 ^ 64 ≤ dig sig (ds ++ frac)) :
    Kept (dig sig (frac.take j)) (ds.length - j) (dig sig (ds ++ frac)) (-frac.length) := by
  refine ⟨ds.length + (frac.length - j), h1, fun h => by omega, ?_, by push_cast [Nat.cast_sub hj]; omega⟩
  have hall : ∀ x ∈ ds ++ frac, x ∈ decimalDigits := by
    intro x hx
    rcases List.mem_append.mp hx with hx | hx
    · exact hd x hx
    · exact hf x hx
  have hb := dig_bounds sig hall
  have ht := dig_bounds sig (ds := frac.take j) (fun x hx => hf x (List.mem_of_mem_take hx))
  rw [List.length_take, Nat.min_eq_left hj] at ht
  have hp : 10 ^ (ds ++ frac).length = 10 ^ j * 10 ^ (ds.length + (frac.length - j)) := by
    rw [← pow_add]
    congr 1
    simp only [List.length_append]
    omega
  rw [hp] at hb
  have h0 : 0 < 10 ^ (ds.length + (frac.length - j)) := by positivity
  have := kept_near (a := dig sig (frac.take j) * 10 ^ (ds.length + (frac.length - j))) hs
    (by rw [← Nat.mul_assoc]; exact Nat.mul_le_mul_right _ ht.1)
    (by rw [← Nat.mul_assoc]; exact Nat.mul_lt_mul_of_pos_right ht.2 h0) hb.1 hb.2
  push_cast at this ⊢
  exact this

theorem fraction_digits {fr frac : List Char} (h : JsonFraction fr frac) : ∀ x ∈ frac, x ∈ decimalDigits := by
  rcases h with ⟨_, rfl⟩ | ⟨h, _⟩
  · simp
  · exact h.2

/-- How the digits `D` with the exponent `k + e` are turned into a float. -/
def Took (pos : Bool) (D : Nat) (k e : Int) (r : UInt64) : Prop :=
  ∃ sig start, Kept sig start D k ∧ Step pos sig start e r

/-- Nothing is lost of few digits. -/
theorem Took.exact {pos : Bool} {D : Nat} {k e : Int} {r : UInt64} (h : Took pos D k e r) (he : |e| < 2 ^ 31)
    (hD : D < 2 ^ 64) : fromParts pos D (k + e) = some r := by
  obtain ⟨sig, start, h1, h2⟩ := h
  obtain ⟨rfl, rfl⟩ := h1.few hD
  exact h2.1 he

theorem numberEnd_sound {pos : Bool} {sig : Nat} (hs : sig < 2 ^ 64) {cs : List Char} {n : SJNumber} {rest : List Char}
    (h : numberEnd pos sig cs = some (n, rest)) :
    (n = integerEnd pos sig ∧ cs = rest) ∨ ∃ fr frac ex e r, JsonFraction fr frac ∧ JsonExponent ex e ∧
      cs = fr ++ ex ++ rest ∧ (fr ≠ [] ∨ ex ≠ []) ∧ n = .float r ∧ Fin pos r ∧ Took pos (dig sig frac) (-frac.length) e r := by
  unfold numberEnd at h
  cases cs with
  | nil =>
    simp only [Option.some.injEq, Prod.mk.injEq] at h
    exact .inl ⟨h.1.symm, h.2⟩
  | cons c cs =>
    simp only at h
    split at h
    · rename_i hc
      subst hc
      simp only [Option.map_eq_some_iff, Prod.mk.injEq] at h
      obtain ⟨⟨r, rest'⟩, hr, rfl, rfl⟩ := h
      obtain ⟨ds, ex, e, h1, h2, h3, h4, h5, j, h6, h7, h8, h9⟩ := decLoop_sound hs hr
      refine .inr ⟨'.' :: ds, ds, ex, e, r, .inr ⟨⟨h2 rfl, h1⟩, rfl⟩, h3, by rw [h4]; simp, by simp, rfl, h5, ?_⟩
      have := Kept.cut (k := 0) h1 h6 h7 h8
      exact ⟨_, _, by simpa using this, by simpa using h9⟩
    · split at h
      · rename_i hc
        simp only [Option.map_eq_some_iff, Prod.mk.injEq] at h
        obtain ⟨⟨r, rest'⟩, hr, rfl, rfl⟩ := h
        obtain ⟨ex, e, h1, h2, h3, h4, h5⟩ := expPart_sound hs hc hr
        exact .inr ⟨[], [], ex, e, r, .inl ⟨rfl, rfl⟩, h1, by simpa using h2, .inr h3, rfl, h4,
          _, _, .all (by simpa [dig] using hs), by simpa [dig] using h5⟩
      · simp only [Option.some.injEq, Prod.mk.injEq] at h
        exact .inl ⟨h.1.symm, h.2⟩

theorem intLoop_sound {pos : Bool} {cs : List Char} {sig : Nat} (hs : sig < 2 ^ 64) {n : SJNumber} {rest : List Char}
    (h : intLoop pos sig cs = some (n, rest)) :
    ∃ ds, (∀ c ∈ ds, c ∈ decimalDigits) ∧
      ((n = integerEnd pos (dig sig ds) ∧ dig sig ds < 2 ^ 64 ∧ cs = ds ++ rest) ∨
       ∃ fr frac ex e r, JsonFraction fr frac ∧ JsonExponent ex e ∧ cs = ds ++ fr ++ ex ++ rest ∧
        (fr ≠ [] ∨ ex ≠ [] ∨ 2 ^ 64 ≤ dig sig ds) ∧ n = .float r ∧ Fin pos r ∧
        Took pos (dig sig (ds ++ frac)) (-frac.length) e r) := by
  have stop : ∀ cs, numberEnd pos sig cs = some (n, rest) → ∃ ds, (∀ c ∈ ds, c ∈ decimalDigits) ∧
      ((n = integerEnd pos (dig sig ds) ∧ dig sig ds < 2 ^ 64 ∧ cs = ds ++ rest) ∨
       ∃ fr frac ex e r, JsonFraction fr frac ∧ JsonExponent ex e ∧ cs = ds ++ fr ++ ex ++ rest ∧
        (fr ≠ [] ∨ ex ≠ [] ∨ 2 ^ 64 ≤ dig sig ds) ∧ n = .float r ∧ Fin pos r ∧
        Took pos (dig sig (ds ++ frac)) (-frac.length) e r) := by
    intro cs h
    refine ⟨[], by simp, ?_⟩
    rcases numberEnd_sound hs h with ⟨h1, h2⟩ | ⟨fr, frac, ex, e, r, h1, h2, h3, h4, h5, h6⟩
    · exact .inl ⟨h1, hs, h2⟩
    · exact .inr ⟨fr, frac, ex, e, r, h1, h2, h3, by rcases h4 with h | h; exact .inl h; exact .inr (.inl h), h5, h6⟩
  induction cs generalizing sig with
  | nil =>
    unfold intLoop at h
    exact stop _ h
  | cons c cs ih =>
    unfold intLoop at h
    simp only at h
    cases hd : digitOf c with
    | none =>
      rw [hd] at h
      exact stop _ h
    | some d =>
      rw [hd] at h
      obtain ⟨hc, rfl⟩ := digitOf_mem hd
      simp only at h
      have hcons : ∀ ds : List Char, (∀ c ∈ ds, c ∈ decimalDigits) → ∀ x ∈ c :: ds, x ∈ decimalDigits := by
        intro ds h x hx
        rcases List.mem_cons.mp hx with rfl | hx
        · exact hc
        · exact h x hx
      split at h
      · rename_i hbig
        simp only [Option.map_eq_some_iff, Prod.mk.injEq] at h
        obtain ⟨⟨r, rest'⟩, hr, rfl, rfl⟩ := h
        obtain ⟨ds, fr, frac, ex, e, h1, h2, h3, h4, h5, j, h6, h7, h8⟩ := longInteger_sound hs hr
        refine ⟨c :: ds, hcons ds h1, .inr ⟨fr, frac, ex, e, r, h2, h3, by rw [h4]; rfl, ?_, rfl, h5, ?_⟩⟩
        · have := dig_le (sig * 10 + decimalDigits.idxOf c) ds
          rw [dig_cons]
          right; right
          omega
        · have hi := idx_lt hc
          have := Kept.long (sig := sig) (by omega) (hcons ds h1) (fraction_digits h2) h6 h7 (by
            have := dig_le (sig * 10 + decimalDigits.idxOf c) (ds ++ frac)
            rw [List.cons_append, dig_cons]
            omega)
          refine ⟨_, _, this, ?_⟩
          rw [List.length_cons, Nat.add_comm]
          exact h8
      · rename_i hle
        have hs' : sig * 10 + decimalDigits.idxOf c < 2 ^ 64 := by omega
        obtain ⟨ds, h1, h2⟩ := ih hs' h (by
          intro cs h
          refine ⟨[], by simp, ?_⟩
          rcases numberEnd_sound hs' h with ⟨h1, h2⟩ | ⟨fr, frac, ex, e, r, h1, h2, h3, h4, h5, h6⟩
          · exact .inl ⟨h1, hs', h2⟩
          · exact .inr ⟨fr, frac, ex, e, r, h1, h2, h3, by rcases h4 with h | h; exact .inl h; exact .inr (.inl h), h5, h6⟩)
        refine ⟨c :: ds, hcons ds h1, ?_⟩
        rw [dig_cons]
        rcases h2 with ⟨h2, h3, h4⟩ | ⟨fr, frac, ex, e, r, h2, h3, h4, h5⟩
        · exact .inl ⟨h2, h3, by rw [h4]; rfl⟩
        · exact .inr ⟨fr, frac, ex, e, r, h2, h3, by rw [h4]; rfl, h5⟩

theorem number_shape {pos : Bool} {cs : List Char} {n : SJNumber} {rest : List Char} (h : number pos cs = some (n, rest)) :
    ∃ int, JsonWhole int ∧
      ((n = integerEnd pos (digitsValue int) ∧ digitsValue int < 2 ^ 64 ∧ cs = int ++ rest) ∨
       ∃ t frac e r, JsonReal t int frac e ∧ cs = t ++ rest ∧ (t = int → 2 ^ 64 ≤ digitsValue int) ∧ n = .float r ∧ Fin pos r ∧
        Took pos (digitsValue (int ++ frac)) (-frac.length) e r) := by
  have real : ∀ int fr frac ex e, JsonWhole int → JsonFraction fr frac → JsonExponent ex e →
      JsonReal (int ++ fr ++ ex) int frac e := fun int fr frac ex e h1 h2 h3 => ⟨fr, ex, rfl, h1, h2, h3⟩
  have eqint : ∀ int fr ex : List Char, (fr ≠ [] ∨ ex ≠ [] ∨ 2 ^ 64 ≤ digitsValue int) →
      int ++ fr ++ ex = int → 2 ^ 64 ≤ digitsValue int := by
    intro int fr ex h he
    have hl := congrArg List.length he
    simp only [List.length_append] at hl
    rcases h with h | h | h
    · exact absurd (List.length_eq_zero_iff.mp (by omega)) h
    · exact absurd (List.length_eq_zero_iff.mp (by omega)) h
    · exact h
  unfold number at h
  cases cs with
  | nil => cases h
  | cons c cs =>
    simp only at h
    cases hd : digitOf c with
    | none => rw [hd] at h; cases h
    | some d =>
      rw [hd] at h
      obtain ⟨hc, hdi⟩ := digitOf_mem hd
      cases d with
      | zero =>
        simp only at h
        have hc0 : c = '0' := by
          have : ∀ x ∈ decimalDigits, decimalDigits.idxOf x = 0 → x = '0' := by decide
          exact this c hc hdi.symm
        subst hc0
        have hw : JsonWhole ['0'] := ⟨⟨by simp, by simp [decimalDigits]⟩, fun _ => rfl⟩
        have h0 : digitsValue ['0'] = 0 := by decide
        have fin : numberEnd pos 0 cs = some (n, rest) → ∃ int, JsonWhole int ∧
            ((n = integerEnd pos (digitsValue int) ∧ digitsValue int < 2 ^ 64 ∧ '0' :: cs = int ++ rest) ∨
             ∃ t frac e r, JsonReal t int frac e ∧ '0' :: cs = t ++ rest ∧ (t = int → 2 ^ 64 ≤ digitsValue int) ∧
              n = .float r ∧ Fin pos r ∧ Took pos (digitsValue (int ++ frac)) (-frac.length) e r) := by
          intro h
          refine ⟨['0'], hw, ?_⟩
          rcases numberEnd_sound (by decide) h with ⟨h1, h2⟩ | ⟨fr, frac, ex, e, r, h1, h2, h3, h4, h5, h6⟩
          · exact .inl ⟨by rw [h0]; exact h1, by rw [h0]; decide, by rw [h2]; rfl⟩
          · refine .inr ⟨['0'] ++ fr ++ ex, frac, e, r, real _ _ _ _ _ hw h1 h2, by rw [h3]; simp, eqint _ _ _ ?_, h5, h6⟩
            rcases h4 with h | h
            · exact .inl h
            · exact .inr (.inl h)
        cases cs with
        | nil => exact fin h
        | cons c' cs =>
          simp only at h
          split at h
          · cases h
          · exact fin h
      | succ d =>
        simp only at h
        have hs : d + 1 < 2 ^ 64 := by
          have := idx_lt hc
          omega
        obtain ⟨ds, h1, h2⟩ := intLoop_sound hs h
        have hval : digitsValue (c :: ds) = dig (d + 1) ds := by
          rw [digitsValue_eq, dig_cons, ← hdi]
          simp
        have hw : JsonWhole (c :: ds) := by
          refine ⟨⟨by simp, ?_⟩, ?_⟩
          · intro x hx
            rcases List.mem_cons.mp hx with rfl | hx
            · exact hc
            · exact h1 x hx
          · intro hh
            simp only [List.head?_cons, Option.some.injEq] at hh
            subst hh
            exact absurd hdi (by rw [show decimalDigits.idxOf '0' = 0 by decide]; omega)
        refine ⟨c :: ds, hw, ?_⟩
        rw [hval]
        rcases h2 with ⟨h2, h3, h4⟩ | ⟨fr, frac, ex, e, r, h2, h3, h4, h5, h6, h7, h8⟩
        · exact .inl ⟨h2, h3, by rw [h4]; rfl⟩
        · refine .inr ⟨c :: ds ++ fr ++ ex, frac, e, r, real _ _ _ _ _ hw h2 h3, by rw [h4]; rfl, ?_, h6, h7, ?_⟩
          · rw [← hval]
            rw [← hval] at h5
            exact eqint _ _ _ h5
          · rw [digitsValue_eq, List.cons_append, dig_cons, ← hdi]
            simpa using h8

/-! ## Their values -/

theorem inf_val : f64Format.inf = 2047 * 2 ^ 52 := rfl

theorem signed_toNat (pos : Bool) {b : Nat} (hb : b < f64Format.inf) :
    (signed pos b).toNat = if pos then b else 2 ^ 63 + b := by
  rw [inf_val] at hb
  unfold signed
  rw [UInt64.toNat_ofNat']
  split <;> omega

theorem signed_finite (pos : Bool) {b : Nat} (hb : b < f64Format.inf) : F64Finite (signed pos b) := by
  unfold F64Finite
  rw [signed_toNat pos hb]
  rw [inf_val] at hb
  split <;> omega

theorem signed_num (pos : Bool) {b : Nat} (hb : b < f64Format.inf) :
    f64Format.num (signed pos b).toNat = if pos then (f64Format.mag b : Int) else -(f64Format.mag b : Int) := by
  rw [signed_toNat pos hb]
  rw [inf_val] at hb
  have hmag : f64Format.mag (2 ^ 63 + b) = f64Format.mag b := by
    have h1 : f64Format.exponent (2 ^ 63 + b) = f64Format.exponent b := by
      show (2 ^ 63 + b) / 2 ^ 52 % 2 ^ 11 = b / 2 ^ 52 % 2 ^ 11
      omega
    have h2 : f64Format.mantissa (2 ^ 63 + b) = f64Format.mantissa b := by
      show (2 ^ 63 + b) % 2 ^ 52 = b % 2 ^ 52
      omega
    unfold mag
    rw [h1, h2]
  cases pos with
  | true =>
    simp only [if_true]
    unfold num
    rw [if_neg]
    show ¬ (decide (b / 2 ^ 63 % 2 = 1) = true)
    simp only [decide_eq_true_eq]
    omega
  | false =>
    simp only [Bool.false_eq_true, if_false]
    unfold num
    rw [if_pos, hmag]
    show decide ((2 ^ 63 + b) / 2 ^ 63 % 2 = 1) = true
    simp only [decide_eq_true_eq]
    omega

theorem f64Value_num (b : UInt64) : f64Value b = (f64Format.num b.toNat : ℚ) / ((2 ^ f64Format.scale : Nat) : ℚ) := by
  have e : f64Format.scale = 1074 := rfl
  rw [f64Value_eq, e, Nat.cast_pow, Nat.cast_ofNat]

theorem abs_ratio (x : Int) {n d U : Nat} (hd : 0 < d) (hU : 0 < U) :
    |(x : ℚ) / U - n / d| = ((|x * d - n * U| : Int) : ℚ) / (d * U) := by
  have hU' : (0 : ℚ) < U := by exact_mod_cast hU
  have hD : (0 : ℚ) < d := by exact_mod_cast hd
  have h : (x : ℚ) / U - n / d = (x * d - n * U) / (d * U) := by
    field_simp
  rw [h, abs_div, abs_of_pos (mul_pos hD hU'), Int.cast_abs]
  push_cast
  rfl

/-- The rounded ratio is the nearest float. -/
theorem ofRatio_nearest {n d : Nat} (hd : 0 < d) (h : f64Format.ofRatio n d < f64Format.inf) :
    Nearest (signed true (f64Format.ofRatio n d)) ((n : ℚ) / d) := by
  intro b' hb'
  obtain ⟨n1, n2⟩ := ofRatio_near (F := f64Format) (by decide) hd h (f64Format.num b'.toNat) (num_grid _)
  have hcast : ((2 : Int) ^ f64Format.scale) = ((2 ^ f64Format.scale : Nat) : Int) := by rw [Nat.cast_pow]; rfl
  rw [hcast] at n1 n2
  rw [f64Value_num, f64Value_num, signed_num true h, if_pos rfl, abs_ratio _ hd (by positivity), abs_ratio _ hd (by positivity)]
  have hU : 0 < 2 ^ f64Format.scale := by positivity
  generalize 2 ^ f64Format.scale = U at *
  have hpos : (0 : ℚ) < d * U := by positivity
  refine ⟨?_, fun e => ?_⟩
  · refine div_le_div_of_nonneg_right ?_ hpos.le
    exact_mod_cast n1
  · have e' := (div_left_inj' hpos.ne').mp e
    rcases n2 (by exact_mod_cast e') with h3 | h3
    · left; rw [h3]
    · right
      rw [signed_toNat true h, if_pos rfl]
      exact h3

/-- Every finite float is a sign and bits. -/
theorem finite_signed {b : UInt64} (h : F64Finite b) : ∃ pos a, a < f64Format.inf ∧ b = signed pos a := by
  unfold F64Finite at h
  have hlt := b.toNat_lt
  refine ⟨decide (b.toNat < 2 ^ 63), b.toNat % 2 ^ 63, ?_, ?_⟩
  · rw [inf_val]; omega
  · apply UInt64.toNat_inj.mp
    unfold signed
    rw [UInt64.toNat_ofNat']
    simp only [decide_eq_true_eq]
    split <;> omega

theorem Nearest.flip {pos : Bool} {b : Nat} {q : ℚ} (hb : b < f64Format.inf) (h : Nearest (signed pos b) q) :
    Nearest (signed (!pos) b) (-q) := by
  have hv : ∀ (pos : Bool) {b}, b < f64Format.inf → f64Value (signed (!pos) b) = -f64Value (signed pos b) := by
    intro pos b hb
    rw [f64Value_num, f64Value_num, signed_num (!pos) hb, signed_num pos hb]
    generalize ((2 ^ f64Format.scale : Nat) : ℚ) = U
    cases pos <;> simp <;> ring
  intro b' hb'
  obtain ⟨b'', h1, h2⟩ : ∃ b'' : UInt64, F64Finite b'' ∧ f64Value b'' = -f64Value b' := by
    obtain ⟨pos, a, ha, rfl⟩ := finite_signed hb'
    exact ⟨signed (!pos) a, signed_finite _ ha, hv pos ha⟩
  obtain ⟨h3, h4⟩ := h b'' h1
  rw [show f64Value (signed (!pos) b) = -f64Value (signed pos b) from hv pos hb,
    show -f64Value (signed pos b) - -q = -(f64Value (signed pos b) - q) by ring, abs_neg]
  rw [show f64Value b' - -q = -(f64Value b'' - q) by rw [h2]; ring, abs_neg]
  refine ⟨h3, fun e => ?_⟩
  rcases h4 e with h5 | h5
  · left; rw [← h5, h2]; ring
  · right
    rw [signed_toNat pos hb] at h5
    rw [signed_toNat (!pos) hb]
    cases pos <;> simp only [Bool.not_true, Bool.not_false, if_true, if_false, Bool.false_eq_true] at h5 ⊢ <;> omega

theorem Nearest.neg {b : Nat} {q : ℚ} (hb : b < f64Format.inf) (h : Nearest (signed true b) q) :
    Nearest (signed false b) (-q) := by
  have := Nearest.flip hb h
  rw [Bool.not_true] at this
  exact this

theorem roundTo_nearest {d : Nat} {k : Int} (h : roundTo d k < f64Format.inf) :
    Nearest (signed true (roundTo d k)) ((d : ℚ) * 10 ^ k) := by
  unfold roundTo at h ⊢
  split at h
  · rename_i hk
    rw [if_pos hk]
    have := ofRatio_nearest (by decide) h
    have e : ((d * 10 ^ k.natAbs : Nat) : ℚ) / (1 : Nat) = d * 10 ^ k := by
      obtain ⟨m, rfl⟩ := Int.eq_ofNat_of_zero_le hk
      simp
    rwa [e] at this
  · rename_i hk
    rw [if_neg hk]
    have := ofRatio_nearest (by positivity) h
    have e : (d : ℚ) / ((10 ^ k.natAbs : Nat) : ℚ) = d * 10 ^ k := by
      have : k = -(k.natAbs : Int) := by omega
      conv_rhs => rw [this, zpow_neg, zpow_natCast]
      push_cast
      rw [div_eq_mul_inv]
    rwa [e] at this

/-- Few digits and a small exponent are read exactly. -/
theorem fromParts_easy (pos : Bool) {sig : Nat} {k : Int} (hs : sig ≤ 2 ^ 53) (hk : |k| ≤ 22) :
    fromParts pos sig k = some (signed pos (roundTo sig k)) ∧ roundTo sig k < f64Format.inf := by
  have hk' : k.natAbs ≤ 22 := by rw [Int.abs_eq_natAbs] at hk; omega
  rcases Nat.lt_or_ge sig (2 ^ 53) with h | h
  · exact fromParts_exact pos (c := sig) (j := 0) (by omega) (by simp) h (by decide) hk'
  · exact fromParts_exact pos (c := 1) (j := 53) (by omega) (by omega) (by decide) (by decide) hk'

/-- A number that is read is one. -/
theorem number_sound {pos : Bool} {cs : List Char} {n : SJNumber} {rest : List Char} (h : number pos cs = some (n, rest)) :
    ∃ t, cs = t ++ rest ∧ JsonNum (if pos then t else '-' :: t) n := by
  obtain ⟨int, hw, h1 | ⟨t, frac, e, r, h1, h2, h3, h4, ⟨b, hb, hr⟩, h6⟩⟩ := number_shape h
  · obtain ⟨rfl, h2, rfl⟩ := h1
    refine ⟨int, rfl, ?_⟩
    unfold integerEnd
    cases pos with
    | true => exact .posInt hw h2
    | false =>
      simp only [Bool.false_eq_true, if_false]
      split
      · rename_i hbig
        have hfin := castNat_fin h2
        refine .negFloat (int := int) (frac := []) (e := 0) ⟨[], [], by simp, hw, .inl ⟨rfl, rfl⟩, .none⟩
          (fun _ => hbig) (signed_finite false hfin) ?_ ?_
        · rw [signed_toNat false hfin, if_neg (by decide)]
          omega
        · intro _
          refine Nearest.neg hfin ?_
          rw [castNat_ratio h2] at hfin ⊢
          have := ofRatio_nearest (by decide) hfin
          unfold realValue
          simpa using this
      · rename_i hsmall
        exact .negInt hw (by omega) (by omega)
  · subst h4 hr
    refine ⟨t, h2, ?_⟩
    have near : EasyDecimal int frac e → Nearest (signed true b) (realValue int frac e) := by
      rintro ⟨g1, g2, g3⟩
      obtain ⟨f1, f2⟩ := fromParts_easy pos g1 g2
      have f3 := h6.exact g3 (by omega)
      rw [neg_add_eq_sub, f1] at f3
      have : b = roundTo (digitsValue (int ++ frac)) (e - frac.length) := by
        have := congrArg UInt64.toNat (Option.some.inj f3)
        rw [signed_toNat pos hb, signed_toNat pos f2] at this
        split at this <;> omega
      rw [this]
      exact roundTo_nearest f2
    cases pos with
    | true =>
      refine .posFloat h1 h3 (signed_finite true hb) ?_ near
      rw [signed_toNat true hb, if_pos rfl]
      rw [inf_val] at hb
      omega
    | false =>
      refine .negFloat h1 (fun h => .inr ?_) (signed_finite false hb) ?_ (fun he => Nearest.neg hb (near he))
      · have := h3 h
        omega
      · rw [signed_toNat false hb, if_neg (by decide)]
        omega

end SerdeJson

end Souris
