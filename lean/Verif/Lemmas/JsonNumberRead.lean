import Verif.Lemmas.JsonNumber

/-! # Numbers in JSON text are read -/

namespace Souris

namespace SerdeJson

open FloatFormat

/-- What may follow a number: not one more of its characters. -/
def Stops (rest : List Char) : Prop := ∀ c, rest.head? = some c → c ∉ decimalDigits ∧ c ≠ '.' ∧ c ≠ 'e' ∧ c ≠ 'E'

theorem Stops.noDigit {rest : List Char} (h : Stops rest) : NoDigit rest := fun c hc => (h c hc).1

theorem expLoop_reads {pos pe : Bool} {sig : Nat} {start : Int} {ds rest : List Char} (hd : ∀ c ∈ ds, c ∈ decimalDigits)
    (hr : NoDigit rest) {e : Nat} (he : dig e ds < 2 ^ 31) :
    expLoop pos sig start pe e (ds ++ rest) =
      (fromParts pos sig (if pe then start + dig e ds else start - dig e ds)).map (·, rest) := by
  induction ds generalizing e with
  | nil =>
    unfold expLoop
    cases rest with
    | nil => rfl
    | cons c cs =>
      simp only [List.nil_append, digitOf_none (hr c rfl)]
      rfl
  | cons c cs ih =>
    rw [dig_cons] at he ⊢
    have := dig_le (e * 10 + decimalDigits.idxOf c) cs
    unfold expLoop
    simp only [List.cons_append, digitOf_of_mem (hd c (by simp))]
    rw [if_neg (by omega)]
    exact ih (fun x hx => hd x (by simp [hx])) he

theorem expLoop_far {pos up : Bool} {sig : Nat} {start : Int} {ds : List Char} (hd : ∀ c ∈ ds, c ∈ decimalDigits)
    (hz : up = true → sig = 0) {e : Nat} (he : e < 2 ^ 31) (hb : 2 ^ 31 ≤ dig e ds) :
    ∃ r, ∀ rest, NoDigit rest → expLoop pos sig start up e (ds ++ rest) = some (r, rest) := by
  induction ds generalizing e with
  | nil => simp [dig] at hb; omega
  | cons c cs ih =>
    have hcs : ∀ x ∈ cs, x ∈ decimalDigits := fun x hx => hd x (by simp [hx])
    unfold expLoop
    simp only [List.cons_append, digitOf_of_mem (hd c (by simp))]
    split
    · refine ⟨signed pos 0, fun rest hr => ?_⟩
      rw [eatDigits_eq hcs hr, if_neg (by rintro ⟨h1, h2⟩; exact h1 (hz h2))]
    · exact ih hcs (by omega) hb

theorem expPart_cons {pos : Bool} {sig : Nat} {start : Int} {c : Char} {cs : List Char} (hc : c ∈ decimalDigits)
    (rest : List Char) : expPart pos sig start (c :: cs ++ rest) =
      expLoop pos sig start true (decimalDigits.idxOf c) (cs ++ rest) := by
  have h1 : c ≠ '-' := by rintro rfl; exact minus_not_digit hc
  have h2 : c ≠ '+' := by rintro rfl; exact plus_not_digit hc
  unfold expPart
  simp [h1, h2, digitOf_of_mem hc]

theorem expPart_plus {pos : Bool} {sig : Nat} {start : Int} {c : Char} {cs : List Char} (hc : c ∈ decimalDigits)
    (rest : List Char) : expPart pos sig start ('+' :: c :: cs ++ rest) =
      expLoop pos sig start true (decimalDigits.idxOf c) (cs ++ rest) := by
  unfold expPart
  simp [digitOf_of_mem hc]

theorem expPart_minus {pos : Bool} {sig : Nat} {start : Int} {c : Char} {cs : List Char} (hc : c ∈ decimalDigits)
    (rest : List Char) : expPart pos sig start ('-' :: c :: cs ++ rest) =
      expLoop pos sig start false (decimalDigits.idxOf c) (cs ++ rest) := by
  unfold expPart
  simp [digitOf_of_mem hc]

theorem expOrEnd_e {pos : Bool} {sig : Nat} {start : Int} {c : Char} (hc : c = 'e' ∨ c = 'E') (cs : List Char) :
    expOrEnd pos sig start (c :: cs) = expPart pos sig start cs := by
  unfold expOrEnd
  simp only
  rw [if_pos hc]

theorem digits_cons {ds : List Char} (h : JsonDigits ds) : ∃ c cs, ds = c :: cs ∧ c ∈ decimalDigits ∧
    (∀ x ∈ cs, x ∈ decimalDigits) ∧ digitsValue ds = dig (decimalDigits.idxOf c) cs := by
  obtain ⟨h1, h2⟩ := h
  cases ds with
  | nil => exact absurd rfl h1
  | cons c cs =>
    refine ⟨c, cs, rfl, h2 c (by simp), fun x hx => h2 x (by simp [hx]), ?_⟩
    rw [digitsValue_eq, dig_cons]
    simp

theorem expOrEnd_reads {pos : Bool} {sig : Nat} {start x : Int} {ex rest : List Char} (h : JsonExponent ex x)
    (hr : Stops rest) (hx : |x| < 2 ^ 31) :
    expOrEnd pos sig start (ex ++ rest) = (fromParts pos sig (start + x)).map (·, rest) := by
  cases h with
  | none =>
    unfold expOrEnd
    cases rest with
    | nil => simp
    | cons c cs =>
      have := hr c rfl
      simp [this.2.2.1, this.2.2.2]
  | plain hc hd =>
    obtain ⟨c, cs, rfl, h1, h2, h3⟩ := digits_cons hd
    rw [Nat.abs_cast, h3] at hx
    rw [List.cons_append, expOrEnd_e hc, expPart_cons h1, expLoop_reads h2 hr.noDigit (by exact_mod_cast hx), h3]
    rfl
  | plus hc hd =>
    obtain ⟨c, cs, rfl, h1, h2, h3⟩ := digits_cons hd
    rw [Nat.abs_cast, h3] at hx
    rw [List.cons_append, expOrEnd_e hc, expPart_plus h1, expLoop_reads h2 hr.noDigit (by exact_mod_cast hx), h3]
    rfl
  | minus hc hd =>
    obtain ⟨c, cs, rfl, h1, h2, h3⟩ := digits_cons hd
    rw [abs_neg, Nat.abs_cast, h3] at hx
    rw [List.cons_append, expOrEnd_e hc, expPart_minus h1, expLoop_reads h2 hr.noDigit (by exact_mod_cast hx), h3]
    rfl

theorem expOrEnd_far {pos : Bool} {sig : Nat} {start x : Int} {ex : List Char} (h : JsonExponent ex x)
    (hx : 2 ^ 31 ≤ |x|) (hz : 0 ≤ x → sig = 0) :
    ∃ r, ∀ rest, Stops rest → expOrEnd pos sig start (ex ++ rest) = some (r, rest) := by
  cases h with
  | none => simp at hx
  | plain hc hd =>
    obtain ⟨c, cs, rfl, h1, h2, h3⟩ := digits_cons hd
    rw [Nat.abs_cast, h3] at hx
    have := idx_lt h1
    obtain ⟨r, hr⟩ := expLoop_far (pos := pos) (up := true) (start := start) h2 (fun _ => hz (by omega))
      (e := decimalDigits.idxOf c) (by omega) (by exact_mod_cast hx)
    refine ⟨r, fun rest hrest => ?_⟩
    rw [List.cons_append, expOrEnd_e hc, expPart_cons h1]
    exact hr rest hrest.noDigit
  | plus hc hd =>
    obtain ⟨c, cs, rfl, h1, h2, h3⟩ := digits_cons hd
    rw [Nat.abs_cast, h3] at hx
    have := idx_lt h1
    obtain ⟨r, hr⟩ := expLoop_far (pos := pos) (up := true) (start := start) h2 (fun _ => hz (by omega))
      (e := decimalDigits.idxOf c) (by omega) (by exact_mod_cast hx)
    refine ⟨r, fun rest hrest => ?_⟩
    rw [List.cons_append, expOrEnd_e hc, expPart_plus h1]
    exact hr rest hrest.noDigit
  | minus hc hd =>
    obtain ⟨c, cs, rfl, h1, h2, h3⟩ := digits_cons hd
    rw [abs_neg, Nat.abs_cast, h3] at hx
    have := idx_lt h1
    obtain ⟨r, hr⟩ := expLoop_far (pos := pos) (up := false) (sig := sig) (start := start) h2 (fun h => by cases h)
      (e := decimalDigits.idxOf c) (by omega) (by exact_mod_cast hx)
    refine ⟨r, fun rest hrest => ?_⟩
    rw [List.cons_append, expOrEnd_e hc, expPart_minus h1]
    exact hr rest hrest.noDigit

theorem decLoop_reads {pos : Bool} {before : Int} {ds : List Char} (hd : ∀ c ∈ ds, c ∈ decimalDigits)
    {sig after : Nat} (hs : sig < 2 ^ 64) (hne : after = 0 → ds ≠ []) :
    ∃ j, j ≤ ds.length ∧ dig sig (ds.take j) < 2 ^ 64 ∧
      (∀ tail, NoDigit tail → decLoop pos before sig after (ds ++ tail) =
        expOrEnd pos (dig sig (ds.take j)) (before - after - j) tail) ∧
      (j = ds.length ∨ (10 ^ 18 ≤ dig sig (ds.take j) ∧ 2 ^ 64 ≤ dig sig ds)) := by
  induction ds generalizing sig after with
  | nil =>
    have ha : after ≠ 0 := fun h => hne h rfl
    refine ⟨0, le_refl _, by simpa [dig] using hs, fun tail ht => ?_, .inl rfl⟩
    unfold decLoop
    cases tail with
    | nil => simp [ha, dig]
    | cons c cs => simp [ha, dig, digitOf_none (ht c rfl)]
  | cons c cs ih =>
    have hcs : ∀ x ∈ cs, x ∈ decimalDigits := fun x hx => hd x (by simp [hx])
    rw [dig_cons]
    unfold decLoop
    simp only [List.cons_append, digitOf_of_mem (hd c (by simp))]
    split
    · rename_i hbig
      have hi := idx_lt (hd c (by simp))
      refine ⟨0, by simp, by simpa [dig] using hs, fun tail ht => by rw [eatDigits_eq hcs ht]; simp [dig], .inr ⟨?_, ?_⟩⟩
      · simp only [List.take_zero, dig, List.foldl_nil]
        omega
      · have := dig_le (sig * 10 + decimalDigits.idxOf c) cs
        omega
    · obtain ⟨j, h1, h2, h3, h4⟩ := ih hcs (sig := sig * 10 + decimalDigits.idxOf c) (after := after + 1) (by omega) (by omega)
      refine ⟨j + 1, by simpa using h1, by rwa [List.take_succ_cons, dig_cons], fun tail ht => ?_, ?_⟩
      · rw [List.take_succ_cons, dig_cons, h3 tail ht]
        congr 1
        push_cast
        omega
      · rw [List.take_succ_cons, dig_cons, List.length_cons]
        rcases h4 with h4 | h4
        · exact .inl (by omega)
        · exact .inr h4

theorem fraction_tail {fr frac tail : List Char} (h : JsonFraction fr frac) (ht : NoDigit tail) : NoDigit (fr ++ tail) := by
  rcases h with ⟨rfl, rfl⟩ | ⟨_, rfl⟩
  · simpa using ht
  · intro c hc
    simp at hc
    subst hc
    decide

theorem longInteger_reads {pos : Bool} {sig : Nat} (hs : sig < 2 ^ 64) {ds fr frac : List Char}
    (hd : ∀ c ∈ ds, c ∈ decimalDigits) (hf : JsonFraction fr frac) (extra : Nat) :
    ∃ j, j ≤ frac.length ∧ dig sig (frac.take j) < 2 ^ 64 ∧
      ∀ tail, NoDigit tail → tail.head? ≠ some '.' →
        longInteger pos sig extra (ds ++ (fr ++ tail)) =
          expOrEnd pos (dig sig (frac.take j)) ((extra + ds.length : Nat) - j) tail := by
  induction ds generalizing extra with
  | nil =>
    rcases hf with ⟨rfl, rfl⟩ | ⟨hfd, rfl⟩
    · refine ⟨0, le_refl _, by simpa [dig] using hs, fun tail ht hp => ?_⟩
      unfold longInteger
      cases tail with
      | nil => simp [dig]
      | cons c cs =>
        have h1 : c ≠ '.' := fun h => hp (by rw [h]; rfl)
        simp [digitOf_none (ht c rfl), h1, dig]
    · obtain ⟨j, h1, h2, h3, _⟩ := decLoop_reads (pos := pos) (before := extra) hfd.2 hs (after := 0) (fun _ => hfd.1)
      refine ⟨j, h1, h2, fun tail ht _ => ?_⟩
      have := h3 tail ht
      simp only [Nat.cast_zero, Int.sub_zero] at this
      rw [List.length_nil, Nat.add_zero, ← this]
      conv_lhs => unfold longInteger
      simp [show digitOf '.' = none by decide]
  | cons c cs ih =>
    obtain ⟨j, h1, h2, h3⟩ := ih (fun x hx => hd x (by simp [hx])) (extra + 1)
    refine ⟨j, h1, h2, fun tail ht hp => ?_⟩
    rw [List.length_cons, show extra + (cs.length + 1) = extra + 1 + cs.length by omega, ← h3 tail ht hp]
    conv_lhs => unfold longInteger
    simp [digitOf_of_mem (hd c (by simp))]

theorem exponent_tail {ex rest : List Char} {x : Int} (h : JsonExponent ex x) (hr : Stops rest) :
    NoDigit (ex ++ rest) ∧ (ex ++ rest).head? ≠ some '.' := by
  have key : ∀ c : Char, c = 'e' ∨ c = 'E' → ∀ cs : List Char, NoDigit (c :: cs) ∧ (c :: cs).head? ≠ some '.' := by
    intro c hc cs
    constructor
    · intro y hy
      simp at hy
      subst hy
      rcases hc with rfl | rfl <;> decide
    · rcases hc with rfl | rfl <;> simp
  cases h with
  | none => exact ⟨hr.noDigit, fun hc => (hr _ hc).2.1 rfl⟩
  | plain hc hd => exact key _ hc _
  | plus hc hd => exact key _ hc _
  | minus hc hd => exact key _ hc _

theorem numberEnd_int (pos : Bool) (sig : Nat) {rest : List Char} (hr : Stops rest) :
    numberEnd pos sig rest = some (integerEnd pos sig, rest) := by
  unfold numberEnd
  cases rest with
  | nil => rfl
  | cons c cs =>
    obtain ⟨_, h1, h2, h3⟩ := hr c rfl
    simp [h1, h2, h3]

theorem numberEnd_real {pos : Bool} {sig : Nat} (hs : sig < 2 ^ 64) {fr frac ex : List Char} {x : Int}
    (hf : JsonFraction fr frac) (hx : JsonExponent ex x) (hne : fr ≠ [] ∨ ex ≠ []) :
    ∃ sig' : Nat, ∃ e' : Int, Kept sig' e' (dig sig frac) (-frac.length) ∧
      (∀ rest, Stops rest →
        numberEnd pos sig (fr ++ (ex ++ rest)) = (expOrEnd pos sig' e' (ex ++ rest)).map (fun r => (.float r.1, r.2))) := by
  rcases hf with ⟨rfl, rfl⟩ | ⟨hfd, rfl⟩
  · refine ⟨sig, 0, Kept.all hs, fun rest _ => ?_⟩
    have key : ∀ c : Char, c = 'e' ∨ c = 'E' → ∀ cs : List Char,
        numberEnd pos sig (c :: cs) = (expOrEnd pos sig 0 (c :: cs)).map (fun r => (.float r.1, r.2)) := by
      intro c hc cs
      rw [expOrEnd_e hc]
      unfold numberEnd
      have : c ≠ '.' := by rcases hc with rfl | rfl <;> decide
      simp only
      rw [if_neg this, if_pos hc]
    cases hx with
    | none => simp at hne
    | plain hc hd => exact key _ hc _
    | plus hc hd => exact key _ hc _
    | minus hc hd => exact key _ hc _
  · obtain ⟨j, h1, h2, h3, h4⟩ := decLoop_reads (pos := pos) (before := 0) hfd.2 hs (after := 0) (fun _ => hfd.1)
    have hk := Kept.cut (k := 0) hfd.2 h1 h2 h4
    refine ⟨_, _, by simpa using hk, fun rest hr => ?_⟩
    have := h3 _ (exponent_tail hx hr).1
    simp only [Nat.cast_zero, Int.sub_zero, Int.zero_sub] at this
    rw [← this]
    unfold numberEnd
    simp

theorem intLoop_small {pos : Bool} {ds tail : List Char} (hd : ∀ c ∈ ds, c ∈ decimalDigits) (ht : NoDigit tail) {sig : Nat}
    (hs : dig sig ds < 2 ^ 64) : intLoop pos sig (ds ++ tail) = numberEnd pos (dig sig ds) tail := by
  induction ds generalizing sig with
  | nil =>
    unfold intLoop
    cases tail with
    | nil => rfl
    | cons c cs =>
      simp only [List.nil_append, digitOf_none (ht c rfl)]
      rfl
  | cons c cs ih =>
    rw [dig_cons] at hs ⊢
    have := dig_le (sig * 10 + decimalDigits.idxOf c) cs
    conv_lhs => unfold intLoop
    simp only [List.cons_append, digitOf_of_mem (hd c (by simp))]
    rw [if_neg (by omega)]
    exact ih (fun x hx => hd x (by simp [hx])) hs

theorem intLoop_big {pos : Bool} {ds fr frac : List Char} (hd : ∀ c ∈ ds, c ∈ decimalDigits)
    (hf : JsonFraction fr frac) {sig : Nat} (hs : sig < 2 ^ 64)
    (hb : 2 ^ 64 ≤ dig sig ds) : ∃ sig' : Nat, ∃ e' : Int, Kept sig' e' (dig sig (ds ++ frac)) (-frac.length) ∧
      ∀ tail, NoDigit tail → tail.head? ≠ some '.' →
        intLoop pos sig (ds ++ (fr ++ tail)) = (expOrEnd pos sig' e' tail).map (fun r => (.float r.1, r.2)) := by
  induction ds generalizing sig with
  | nil => simp [dig] at hb; omega
  | cons c cs ih =>
    have hcs : ∀ x ∈ cs, x ∈ decimalDigits := fun x hx => hd x (by simp [hx])
    have hb0 := hb
    rw [dig_cons] at hb
    unfold intLoop
    simp only [List.cons_append, digitOf_of_mem (hd c (by simp))]
    split
    · obtain ⟨j, h1, h2, h3⟩ := longInteger_reads (pos := pos) hs hcs hf 1
      have hi := idx_lt (hd c (by simp))
      have hk := Kept.long (sig := sig) (by omega) hd (fraction_digits hf) h1 h2 (by
        have := dig_le (dig sig (c :: cs)) frac
        rw [dig_append]
        omega)
      refine ⟨_, _, hk, fun tail ht hp => ?_⟩
      rw [h3 tail ht hp, List.length_cons, Nat.add_comm]
    · obtain ⟨sig', e', h1, h3⟩ := ih hcs (sig := sig * 10 + decimalDigits.idxOf c) (by omega) hb
      exact ⟨sig', e', h1, h3⟩

/-- How the digits of an integer are read. -/
theorem number_int {pos : Bool} {int : List Char} (hw : JsonWhole int) :
    (digitsValue int < 2 ^ 64 → ∀ tail, NoDigit tail → number pos (int ++ tail) = numberEnd pos (digitsValue int) tail) ∧
    (∀ fr frac, JsonFraction fr frac → 2 ^ 64 ≤ digitsValue int → ∃ sig' : Nat, ∃ e' : Int,
      Kept sig' e' (digitsValue (int ++ frac)) (-frac.length) ∧
      ∀ tail, NoDigit tail → tail.head? ≠ some '.' →
        number pos (int ++ (fr ++ tail)) = (expOrEnd pos sig' e' tail).map (fun r => (.float r.1, r.2))) := by
  obtain ⟨hd, hz⟩ := hw
  obtain ⟨c, cs, rfl, hc, hcs, hv⟩ := digits_cons hd
  have hidx : decimalDigits.idxOf c = 0 → c = '0' := by
    have : ∀ x ∈ decimalDigits, decimalDigits.idxOf x = 0 → x = '0' := by decide
    exact this c hc
  rw [hv]
  cases hi : decimalDigits.idxOf c with
  | zero =>
    have h0 := hidx hi
    subst h0
    have hcs0 : cs = [] := by
      have := hz rfl
      simpa using this
    subst hcs0
    refine ⟨fun _ tail ht => ?_, fun _ _ _ h => by simp [dig] at h⟩
    unfold number
    simp only [List.cons_append, List.nil_append, show digitOf '0' = some 0 by decide]
    cases tail with
    | nil => rfl
    | cons x xs => simp [digitOf_none (ht x rfl), dig]
  | succ d =>
    have hdlt := idx_lt hc
    have hnum : ∀ tail, number pos (c :: cs ++ tail) = intLoop pos (d + 1) (cs ++ tail) := by
      intro tail
      unfold number
      simp only [List.cons_append, digitOf_of_mem hc, hi]
    refine ⟨fun h tail ht => ?_, fun fr frac hf h => ?_⟩
    · rw [hnum, intLoop_small hcs ht h]
    · obtain ⟨sig', e', h1, h3⟩ := intLoop_big (pos := pos) hcs hf (sig := d + 1) (by omega) h
      refine ⟨sig', e', ?_, fun tail ht hp => by rw [hnum, h3 tail ht hp]⟩
      rw [digitsValue_eq, List.cons_append, dig_cons, hi]
      simpa using h1

/-- Integers are read. -/
theorem number_integer {pos : Bool} {int rest : List Char} (hw : JsonWhole int) (hr : Stops rest) (hv : digitsValue int < 2 ^ 64) :
    number pos (int ++ rest) = some (integerEnd pos (digitsValue int), rest) := by
  rw [(number_int hw).1 hv rest hr.noDigit, numberEnd_int pos _ hr]

/-- Other numbers are read. -/
theorem number_real (pos : Bool) {t int frac : List Char} {x : Int} (h : JsonReal t int frac x)
    (hint : t = int → 2 ^ 64 ≤ digitsValue int) :
    ∃ ex, JsonExponent ex x ∧ ∃ sig' : Nat, ∃ e' : Int, Kept sig' e' (digitsValue (int ++ frac)) (-frac.length) ∧
      (∀ rest, Stops rest → number pos (t ++ rest) = (expOrEnd pos sig' e' (ex ++ rest)).map (fun r => (.float r.1, r.2))) := by
  obtain ⟨fr, ex, rfl, hw, hf, hx⟩ := h
  refine ⟨ex, hx, ?_⟩
  obtain ⟨h1, h2⟩ := number_int (pos := pos) hw
  have happ : digitsValue (int ++ frac) = dig (digitsValue int) frac := by
    rw [digitsValue_eq, dig_append]; rfl
  have hassoc : ∀ rest : List Char, int ++ fr ++ ex ++ rest = int ++ (fr ++ (ex ++ rest)) := by simp
  rcases Nat.lt_or_ge (digitsValue int) (2 ^ 64) with hlt | hge
  · have hne : fr ≠ [] ∨ ex ≠ [] := by
      by_contra hc
      simp only [not_or, ne_eq, not_not] at hc
      have := hint (by rw [hc.1, hc.2]; simp)
      omega
    obtain ⟨sig', e', g1, g3⟩ := numberEnd_real (pos := pos) hlt hf hx hne
    refine ⟨sig', e', by rw [happ]; exact g1, fun rest hr => ?_⟩
    rw [hassoc, h1 hlt _ (fraction_tail hf (exponent_tail hx hr).1), g3 rest hr]
  · obtain ⟨sig', e', g1, g3⟩ := h2 fr frac hf hge
    refine ⟨sig', e', g1, fun rest hr => ?_⟩
    rw [hassoc, g3 _ (exponent_tail hx hr).1 (exponent_tail hx hr).2]

/-- Few digits and a small exponent: the float is the rounded one. -/
theorem number_easy {pos : Bool} {t int frac rest : List Char} {x : Int} (h : JsonReal t int frac x) (hr : Stops rest)
    (hne : t ≠ int) (hv : digitsValue (int ++ frac) < 2 ^ 64) (hx : |x| < 2 ^ 31) :
    number pos (t ++ rest) = (fromParts pos (digitsValue (int ++ frac)) (x - frac.length)).map (fun r => (.float r, rest)) := by
  obtain ⟨ex, hex, sig', e', h4, h3⟩ := number_real pos h (fun e => absurd e hne)
  obtain ⟨rfl, rfl⟩ := h4.few hv
  rw [h3 rest hr, expOrEnd_reads hex hr hx, Option.map_map]
  rw [show -(frac.length : Int) + x = x - frac.length by omega]
  rfl

end SerdeJson

end Souris
