import Verif.Lemmas.JsonFloat

/-! # Printed floats are read as themselves -/

namespace Souris

namespace SerdeJson

open FloatFormat

/-! ## The nearest float is unique -/

theorem f64Value_signed (pos : Bool) {b : Nat} (hb : b < f64Format.inf) :
    f64Value (signed pos b) = if pos then val b else -val b := by
  rw [f64Value_num, signed_num pos hb]
  unfold val
  generalize ((2 ^ f64Format.scale : Nat) : ℚ) = U
  cases pos with
  | true => simp
  | false =>
    simp only [Bool.false_eq_true, if_false]
    push_cast
    ring

theorem val_lt {a b : Nat} (h : a < b) (hb : b < f64Format.inf) : val a < val b := by
  have hU := unit_pos
  have hm := mag_lt h hb
  unfold val
  generalize 2 ^ f64Format.scale = U at hU ⊢
  exact div_lt_div_of_pos_right (Nat.cast_lt.mpr hm) hU

theorem val_zero : val 0 = 0 := by
  have : f64Format.mag 0 = 0 := by decide
  unfold val
  rw [this]
  simp

theorem val_nonneg (a : Nat) : 0 ≤ val a := div_nonneg (Nat.cast_nonneg _) (Nat.cast_nonneg _)

theorem val_inj {a b : Nat} (ha : a < f64Format.inf) (hb : b < f64Format.inf) (h : val a = val b) : a = b := by
  rcases Nat.lt_trichotomy a b with h1 | h1 | h1
  · exact absurd h (val_lt h1 hb).ne
  · exact h1
  · exact absurd h (val_lt h1 ha).ne'

theorem abs_mid {x y z q : ℚ} (h1 : x < z) (h2 : z < y) (h : |x - q| = |y - q|) : |z - q| < |x - q| := by
  have hq : q = (x + y) / 2 := by
    rcases abs_eq_abs.mp h with h | h
    · linarith
    · linarith
  rw [hq, show x - (x + y) / 2 = -((y - x) / 2) by ring, abs_neg, abs_of_pos (by linarith : 0 < (y - x) / 2), abs_lt]
  constructor <;> linarith

theorem nearest_unique {pos : Bool} {a c : Nat} {q : ℚ} (hq : 0 ≤ q) (ha : a < f64Format.inf) (hc : c < f64Format.inf)
    (h : Nearest (signed pos a) q) (hn : Nearest (signed true c) q) : a = c := by
  have hv : f64Value (signed pos a) = val a := by
    have h0 := (h (signed true 0) (signed_finite true (by decide))).1
    rw [f64Value_signed true (by decide), if_pos rfl, val_zero, zero_sub, abs_neg, abs_of_nonneg hq] at h0
    rw [f64Value_signed pos ha] at h0 ⊢
    cases pos with
    | true => rfl
    | false =>
      simp only [Bool.false_eq_true, if_false] at h0 ⊢
      have h1 := val_nonneg a
      have h2 := neg_le_abs (-val a - q)
      linarith
  have hvc : f64Value (signed true c) = val c := by rw [f64Value_signed true hc, if_pos rfl]
  obtain ⟨h1, h2⟩ := h (signed true c) (signed_finite true hc)
  obtain ⟨h3, h4⟩ := hn (signed pos a) (signed_finite pos ha)
  rw [hv, hvc] at h1 h2 h3 h4
  have heq : |val a - q| = |val c - q| := le_antisymm h1 h3
  by_contra hne
  have hvne : val a ≠ val c := fun e => hne (val_inj ha hc e)
  have ea : a % 2 = 0 := by
    rcases h2 heq with h | h
    · exact absurd h.symm hvne
    · rw [signed_toNat pos ha] at h
      split at h <;> omega
  have ec : c % 2 = 0 := by
    rcases h4 heq.symm with h | h
    · exact absurd h hvne
    · rw [signed_toNat true hc, if_pos rfl] at h
      exact h
  rcases Nat.lt_or_ge a c with hlt | hge
  · have hm : a + 1 < c := by omega
    have hmf : a + 1 < f64Format.inf := by omega
    have := abs_mid (val_lt (Nat.lt_succ_self a) hmf) (val_lt hm hc) heq
    have h5 := (h (signed true (a + 1)) (signed_finite true hmf)).1
    rw [f64Value_signed true hmf, if_pos rfl, hv] at h5
    linarith
  · have hm : c + 1 < a := by omega
    have hmf : c + 1 < f64Format.inf := by omega
    have := abs_mid (val_lt (Nat.lt_succ_self c) hmf) (val_lt hm ha) heq.symm
    have h5 := (hn (signed true (c + 1)) (signed_finite true hmf)).1
    rw [f64Value_signed true hmf, if_pos rfl, hvc] at h5
    linarith

/-! ## The layout -/

theorem dig_zeros (acc n : Nat) : dig acc (List.replicate n '0') = acc * 10 ^ n := by
  induction n generalizing acc with
  | zero => simp [dig]
  | succ n ih =>
    rw [List.replicate_succ, dig_cons, ih]
    have : decimalDigits.idxOf '0' = 0 := by decide
    rw [this]
    ring

theorem zeros_digits (n : Nat) : ∀ c ∈ List.replicate n '0', c ∈ decimalDigits := by
  intro c hc
  rw [List.eq_of_mem_replicate hc]
  decide

/-- The digits of a positive number. -/
structure Digits (ds : List Char) (d : Nat) : Prop where
  ne : ds ≠ []
  mem : ∀ c ∈ ds, c ∈ decimalDigits
  value : digitsValue ds = d
  head : ds.head? ≠ some '0'

theorem digits_natText {d : Nat} (h : 0 < d) : Digits (natText d) d := by
  obtain ⟨h1, h2, h3⟩ := natText_spec d
  refine ⟨h1, h2, h3, fun h0 => ?_⟩
  have := natText_head d h0
  rw [this] at h3
  have : digitsValue ['0'] = 0 := by decide
  omega

theorem exponent_intText {c : Char} (hc : c = 'e' ∨ c = 'E') (x : Int) : JsonExponent (c :: intText x) x := by
  obtain ⟨h1, h2, h3⟩ := natText_spec x.natAbs
  unfold intText
  split
  · rename_i hx
    have := JsonExponent.minus hc ⟨h1, h2⟩
    rw [h3] at this
    rwa [show -((x.natAbs : Nat) : Int) = x by omega] at this
  · rename_i hx
    have := JsonExponent.plain hc ⟨h1, h2⟩
    rw [h3] at this
    rwa [show ((x.natAbs : Nat) : Int) = x by omega] at this

theorem take_whole {ds : List Char} {d n : Nat} (h : Digits ds d) (hn : 0 < n) : JsonWhole (ds.take n) := by
  obtain ⟨c, cs, rfl⟩ := List.exists_cons_of_ne_nil h.ne
  obtain ⟨m, rfl⟩ : ∃ m, n = m + 1 := ⟨n - 1, by omega⟩
  refine ⟨⟨by simp, fun x hx => h.mem x (List.mem_of_mem_take hx)⟩, fun h0 => ?_⟩
  rw [List.take_succ_cons, List.head?_cons] at h0
  exact absurd h0 h.head

/-- How the layout of a decimal is read. -/
theorem layout_real {d : Nat} {k : Int} (hd : 0 < d) :
    ∃ int frac x, JsonReal (layout d k) int frac x ∧ layout d k ≠ int ∧ |x| ≤ (natText d).length + |k| + 1 ∧
      (digitsValue (int ++ frac) = d ∧ x - frac.length = k ∨
       0 ≤ k ∧ (natText d).length + k ≤ 16 ∧ digitsValue (int ++ frac) = d * 10 ^ (k.natAbs + 1) ∧ x - frac.length = -1) := by
  have hds := digits_natText hd
  unfold layout
  generalize natText d = ds at hds ⊢
  have hlen : 0 < ds.length := List.length_pos_of_ne_nil hds.ne
  simp only
  split_ifs with h1 h2 h3 h4
  · refine ⟨ds ++ List.replicate k.natAbs '0', ['0'], 0, ⟨['.', '0'], [], by simp, ?_, .inr ⟨⟨by simp, by decide⟩, rfl⟩, .none⟩, ?_, ?_, ?_⟩
    · obtain ⟨c, cs, rfl⟩ := List.exists_cons_of_ne_nil hds.ne
      refine ⟨⟨by simp, fun x hx => ?_⟩, fun h0 => absurd h0 hds.head⟩
      rcases List.mem_append.mp hx with h | h
      · exact hds.mem x h
      · exact zeros_digits _ x h
    · intro e
      have := congrArg List.length e
      simp at this
    · have := abs_nonneg k
      simp
      omega
    · right
      refine ⟨h1.1, h1.2, ?_, by simp⟩
      have h9 := hds.value
      rw [digitsValue_eq] at h9
      rw [digitsValue_eq, dig_append, dig_append, dig_zeros, h9, dig_cons]
      have : decimalDigits.idxOf '0' = 0 := by decide
      rw [this, pow_succ]
      simp [dig]
      ring
  · obtain ⟨n, hn⟩ : ∃ n : Nat, (ds.length : Int) + k = n := ⟨(ds.length + k).natAbs, by omega⟩
    have hk : k < 0 := by
      by_contra hc
      exact h1 ⟨by omega, h2.2⟩
    rw [hn, Int.natAbs_natCast]
    have hdrop : ds.drop n ≠ [] := by
      intro h
      have := congrArg List.length h
      rw [List.length_drop, List.length_nil] at this
      omega
    refine ⟨ds.take n, ds.drop n, 0, ⟨'.' :: ds.drop n, [], by simp, take_whole hds (by omega),
      .inr ⟨⟨hdrop, fun x hx => hds.mem x (List.mem_of_mem_drop hx)⟩, rfl⟩, .none⟩, ?_, ?_, .inl ⟨?_, ?_⟩⟩
    · intro e
      have := congrArg List.length e
      simp at this
    · have := abs_nonneg k
      simp
      omega
    · rw [List.take_append_drop, hds.value]
    · rw [List.length_drop]
      omega
  · obtain ⟨n, hn⟩ : ∃ n : Nat, (ds.length : Int) + k = -n := ⟨(ds.length + k).natAbs, by omega⟩
    rw [hn, Int.natAbs_neg, Int.natAbs_natCast]
    refine ⟨['0'], List.replicate n '0' ++ ds, 0, ⟨'.' :: (List.replicate n '0' ++ ds), [], by simp, ⟨⟨by simp, by decide⟩, fun _ => rfl⟩,
      .inr ⟨⟨by simp [hds.ne], ?_⟩, rfl⟩, .none⟩, by simp, ?_, .inl ⟨?_, ?_⟩⟩
    · intro x hx
      rcases List.mem_append.mp hx with h | h
      · exact zeros_digits _ x h
      · exact hds.mem x h
    · have := abs_nonneg k
      simp
      omega
    · have h9 := hds.value
      rw [digitsValue_eq] at h9
      have h0 : decimalDigits.idxOf '0' = 0 := by decide
      rw [digitsValue_eq, List.singleton_append, dig_cons, h0, dig_append, dig_zeros]
      simpa using h9
    · simp only [List.length_append, List.length_replicate]
      omega
  · refine ⟨ds, [], ds.length + k - 1, ⟨[], 'e' :: intText (ds.length + k - 1), by simp, ?_, .inl ⟨rfl, rfl⟩,
      exponent_intText (.inl rfl) _⟩, ?_, ?_, .inl ⟨?_, ?_⟩⟩
    · have := take_whole (n := ds.length) hds (by omega)
      rwa [List.take_length] at this
    · intro e
      have := congrArg List.length e
      simp at this
    · have h5 := abs_add_le ((ds.length : Int) - 1) k
      rw [abs_of_nonneg (by omega : (0 : Int) ≤ ds.length - 1)] at h5
      rw [show (ds.length : Int) + k - 1 = ds.length - 1 + k by ring]
      omega
    · rw [List.append_nil, hds.value]
    · rw [h4]
      simp
  · refine ⟨ds.take 1, ds.drop 1, ds.length + k - 1, ⟨'.' :: ds.drop 1, 'e' :: intText (ds.length + k - 1), by simp,
      take_whole hds (by decide), .inr ⟨⟨?_, fun x hx => hds.mem x (List.mem_of_mem_drop hx)⟩, rfl⟩,
      exponent_intText (.inl rfl) _⟩, ?_, ?_, .inl ⟨?_, ?_⟩⟩
    · intro h
      have := congrArg List.length h
      rw [List.length_drop, List.length_nil] at this
      omega
    · intro e
      have := congrArg List.length e
      simp at this
    · have h5 := abs_add_le ((ds.length : Int) - 1) k
      rw [abs_of_nonneg (by omega : (0 : Int) ≤ ds.length - 1)] at h5
      rw [show (ds.length : Int) + k - 1 = ds.length - 1 + k by ring]
      omega
    · rw [List.take_append_drop, hds.value]
    · rw [List.length_drop]
      omega

theorem natText_length {d n : Nat} (hn : 0 < n) (h : d < 10 ^ n) : (natText d).length ≤ n := by
  induction n generalizing d with
  | zero => omega
  | succ n ih =>
    unfold natText
    split
    · simp
    · rename_i hd
      rcases Nat.eq_zero_or_pos n with rfl | h0
      · simp at h
        omega
      · have := ih (d := d / 10) h0 (by rw [pow_succ] at h; omega)
        simp
        omega

theorem natText_lt (d : Nat) : d < 10 ^ (natText d).length := by
  induction d using Nat.strongRecOn with
  | ind d ih =>
    unfold natText
    split
    · simpa
    · have := ih (d / 10) (by omega)
      rw [List.length_append, List.length_singleton, pow_succ]
      omega

theorem layout_reads {d : Nat} {k : Int} (hd : 0 < d) (hd' : d < 2 ^ 53) (hk : k.natAbs ≤ 22)
    (h5 : 0 ≤ k → d * 5 ^ (k.natAbs + 1) < 2 ^ 53) (pos : Bool) {rest : List Char} (hr : Stops rest) :
    number pos (layout d k ++ rest) = some (.float (signed pos (roundTo d k)), rest) := by
  obtain ⟨int, frac, x, h1, h2, h3, h4⟩ := layout_real (k := k) hd
  have hlen : (natText d).length ≤ 17 := natText_length (by decide) (lt_of_lt_of_le hd' (by decide))
  have hx : |x| < 2 ^ 31 := by
    rw [Int.abs_eq_natAbs] at h3 ⊢
    rw [Int.abs_eq_natAbs] at h3
    omega
  rcases h4 with ⟨h4, h6⟩ | ⟨h0, h7, h4, h6⟩
  · rw [number_easy h1 hr h2 (by omega) hx, h4, h6, (fromParts_exact pos (c := d) (j := 0) (by omega) (by simp) hd' (by decide) hk).1]
    rfl
  · have hv : d * 10 ^ (k.natAbs + 1) = d * 5 ^ (k.natAbs + 1) * 2 ^ (k.natAbs + 1) := by
      rw [Nat.mul_assoc, ← Nat.mul_pow]
    have hlt : d * 10 ^ (k.natAbs + 1) < 2 ^ 64 := by
      have h8 := natText_lt d
      have h9 : d * 10 ^ (k.natAbs + 1) < 10 ^ (natText d).length * 10 ^ (k.natAbs + 1) :=
        Nat.mul_lt_mul_of_pos_right h8 (by positivity)
      rw [← pow_add] at h9
      have h10 : 10 ^ ((natText d).length + (k.natAbs + 1)) ≤ 10 ^ 17 := Nat.pow_le_pow_right (by decide) (by omega)
      omega
    rw [number_easy h1 hr h2 (by omega) hx, h4, h6, (fromParts_exact pos hlt hv (h5 h0) (by omega) (by decide)).1]
    have : roundTo (d * 10 ^ (k.natAbs + 1)) (-1) = roundTo d k := by
      refine roundTo_congr ?_
      obtain ⟨n, rfl⟩ := Int.eq_ofNat_of_zero_le h0
      rw [Int.natAbs_natCast, zpow_natCast, Nat.cast_mul, Nat.cast_pow, Nat.cast_ofNat, pow_succ, zpow_neg_one]
      ring
    rw [this]
    rfl

theorem layout_head {d : Nat} {k : Int} (hd : 0 < d) : ∃ c cs, layout d k = c :: cs ∧ c ∈ decimalDigits := by
  obtain ⟨int, frac, x, ⟨fr, ex, e, hw, _⟩, _⟩ := layout_real (k := k) hd
  obtain ⟨c, cs, rfl, hc, _⟩ := digits_cons hw.1
  exact ⟨c, cs ++ fr ++ ex, by rw [e]; simp, hc⟩

/-- Floats with few digits. -/
theorem fewDigits_roundTo {b : UInt64} (hf : F64Finite b) (h : FewDigits b) :
    ∃ pos m e, b = signed pos (roundTo m (-(e : Nat))) ∧ m < 10 ^ 15 ∧ e ≤ 21 ∧ roundTo m (-(e : Nat)) < f64Format.inf := by
  obtain ⟨m, e, hm, he, h⟩ := h
  obtain ⟨pos, a, ha, rfl⟩ := finite_signed hf
  have hc := (fromParts_easy true (sig := m) (k := -(e : Int)) (by omega) (by rw [abs_neg, Nat.abs_cast]; omega)).2
  have hq : (m : ℚ) * 10 ^ (-(e : Int)) = m / 10 ^ e := by rw [zpow_neg, zpow_natCast, div_eq_mul_inv]
  have hn := roundTo_nearest hc
  rw [hq] at hn
  have hpos : (0 : ℚ) ≤ m / 10 ^ e := by positivity
  have hac : a = roundTo m (-(e : Int)) := by
    rcases h with h | h
    · exact nearest_unique hpos ha hc h hn
    · have := Nearest.flip ha h
      rw [neg_neg] at this
      exact nearest_unique hpos ha hc this hn
  exact ⟨pos, m, e, by rw [hac], hm, he, hc⟩

theorem roundTo_zero (k : Int) : roundTo 0 k = 0 := by
  have h := roundTo_le (b := 0) (d := 0) (k := k) (by decide) (by rw [val_zero]; simp)
  omega

/-- A float with few digits is printed as a text that is read as the float. -/
theorem floatText_reads {b : UInt64} (hf : F64Finite b) (h : FewDigits b) : ∃ pos c cs,
    floatText b = (if pos then c :: cs else '-' :: c :: cs) ∧ c ∈ decimalDigits ∧
    ∀ rest, Stops rest → number pos (c :: cs ++ rest) = some (.float b, rest) := by
  obtain ⟨pos, m, e, rfl, hm, he, hfin⟩ := fewDigits_roundTo hf h
  generalize ha : roundTo m (-(e : Int)) = a at hfin ⊢
  have htoNat := signed_toNat pos hfin
  have hinf := hfin
  rw [inf_val] at hinf
  have hmod : (signed pos a).toNat % 2 ^ 63 = a := by rw [htoNat]; split <;> omega
  have hsign : (2 ^ 63 ≤ (signed pos a).toNat) ↔ pos = false := by
    rw [htoNat]
    cases pos <;> simp
    omega
  have text : ∀ s : List Char, (∃ c cs, s = c :: cs ∧ c ∈ decimalDigits ∧
      ∀ rest, Stops rest → number pos (c :: cs ++ rest) = some (.float (signed pos a), rest)) →
      (if a = 0 then ['0', '.', '0'] else layout (shortest a).1 (shortest a).2) = s →
      ∃ pos' c cs, floatText (signed pos a) = (if pos' then c :: cs else '-' :: c :: cs) ∧ c ∈ decimalDigits ∧
        ∀ rest, Stops rest → number pos' (c :: cs ++ rest) = some (.float (signed pos a), rest) := by
    rintro s ⟨c, cs, rfl, hc, hread⟩ hs
    refine ⟨pos, c, cs, ?_, hc, hread⟩
    unfold floatText
    simp only
    rw [hmod, hs]
    cases pos with
    | true => rw [if_neg (by rw [hsign]; decide), if_pos rfl]
    | false => rw [if_pos (by rw [hsign]), if_neg (by decide)]
  rcases Nat.eq_zero_or_pos m with rfl | hm0
  · rw [roundTo_zero] at ha
    subst ha
    refine text ['0', '.', '0'] ⟨'0', ['.', '0'], rfl, by decide, fun rest hr => ?_⟩ (if_pos rfl)
    have hreal : JsonReal ['0', '.', '0'] ['0'] ['0'] 0 :=
      ⟨['.', '0'], [], rfl, ⟨⟨by simp, by decide⟩, fun _ => rfl⟩, .inr ⟨⟨by simp, by decide⟩, rfl⟩, .none⟩
    rw [number_easy hreal hr (by simp) (by decide) (by decide)]
    have h0 : digitsValue (['0'] ++ ['0']) = 0 := by decide
    rw [h0, (fromParts_easy pos (sig := 0) (k := 0 - (['0'].length : Int)) (by decide) (by decide)).1, roundTo_zero]
    rfl
  · obtain ⟨h1, h2, h3, h4⟩ := shortest_spec hfin hm0 hm he ha
    have ha0 : 0 < a := by
      have hval := le_val_roundTo (k := -(e : Int)) (by rw [ha]; exact hfin) hm0 (by omega)
      rw [ha] at hval
      rcases Nat.eq_zero_or_pos a with rfl | h0
      · rw [val_zero] at hval
        have hmq : (0 : ℚ) < m := by exact_mod_cast hm0
        have := mul_pos hmq (ten_pos (-(e : Int)))
        linarith only [this, hval]
      · exact h0
    have hd : 0 < (shortest a).1 := by
      rcases Nat.eq_zero_or_pos (shortest a).1 with h0 | h0
      · rw [h0, roundTo_zero] at h1
        omega
      · exact h0
    obtain ⟨c, cs, hl, hc⟩ := layout_head (k := (shortest a).2) hd
    refine text _ ⟨c, cs, hl, hc, fun rest hr => ?_⟩ (if_neg (by omega))
    rw [← hl, layout_reads hd h2 h3 h4 pos hr, h1]

end SerdeJson

end Souris
