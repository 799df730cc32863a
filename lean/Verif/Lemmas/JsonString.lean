import Verif.Lemmas.JsonNumberRead

/-! # Reading strings in JSON text -/

namespace Souris

namespace SerdeJson

theorem char_eq {c : Char} {n : Nat} (h : c.toNat = n) : c = Char.ofNat n := by
  rw [← h, Char.ofNat_toNat]

theorem ofNat_toNat {n : Nat} (h : n < 0xD800 ∨ (0xDFFF < n ∧ n < 0x110000)) : (Char.ofNat n).toNat = n := by
  have hv : n.isValidChar := h
  rw [Char.ofNat, dif_pos hv]
  rfl

theorem toNat_valid (c : Char) : c.toNat < 0xD800 ∨ (0xDFFF < c.toNat ∧ c.toNat < 0x110000) := c.valid

theorem hexDigit_iff {c : Char} {x : Nat} : hexDigit c = some x ↔ (c, x) ∈ hexTable := by
  constructor
  · intro h
    unfold hexDigit at h
    have hc := (Char.ofNat_toNat c).symm
    split at h
    · rename_i h1
      have : c.toNat = 48 ∨ c.toNat = 49 ∨ c.toNat = 50 ∨ c.toNat = 51 ∨ c.toNat = 52 ∨ c.toNat = 53 ∨
        c.toNat = 54 ∨ c.toNat = 55 ∨ c.toNat = 56 ∨ c.toNat = 57 := by omega
      simp only [Option.some.injEq] at h
      subst h
      rcases this with h | h | h | h | h | h | h | h | h | h <;> rw [h] at hc <;> subst hc <;> decide
    · split at h
      · have : c.toNat = 97 ∨ c.toNat = 98 ∨ c.toNat = 99 ∨ c.toNat = 100 ∨ c.toNat = 101 ∨ c.toNat = 102 := by omega
        simp only [Option.some.injEq] at h
        subst h
        rcases this with h | h | h | h | h | h <;> rw [h] at hc <;> subst hc <;> decide
      · split at h
        · have : c.toNat = 65 ∨ c.toNat = 66 ∨ c.toNat = 67 ∨ c.toNat = 68 ∨ c.toNat = 69 ∨ c.toNat = 70 := by omega
          simp only [Option.some.injEq] at h
          subst h
          rcases this with h | h | h | h | h | h <;> rw [h] at hc <;> subst hc <;> decide
        · cases h
  · intro h
    have : ∀ p ∈ hexTable, hexDigit p.1 = some p.2 := by decide
    exact this (c, x) h

theorem hex_lt {c : Char} {x : Nat} (h : (c, x) ∈ hexTable) : x < 16 := by
  have : ∀ p ∈ hexTable, p.2 < 16 := by decide
  exact this (c, x) h

theorem hex4_sound {cs rest : List Char} {n : Nat} (h : hex4 cs = some (n, rest)) :
    ∃ u, cs = u ++ rest ∧ Hex4 u n ∧ n < 65536 := by
  unfold hex4 at h
  split at h
  · rename_i a b c d rest'
    split at h
    · rename_i x y z w ha hb hc hd
      simp only [Option.some.injEq, Prod.mk.injEq] at h
      obtain ⟨rfl, rfl⟩ := h
      have ha := hexDigit_iff.mp ha
      have hb := hexDigit_iff.mp hb
      have hc := hexDigit_iff.mp hc
      have hd := hexDigit_iff.mp hd
      have := hex_lt ha
      have := hex_lt hb
      have := hex_lt hc
      have := hex_lt hd
      refine ⟨[a, b, c, d], rfl, ?_, by omega⟩
      rw [show ((x * 16 + y) * 16 + z) * 16 + w = x * 4096 + y * 256 + z * 16 + w by ring]
      exact .mk ha hb hc hd
    · cases h
  · cases h

theorem hex4_complete {u : List Char} {n : Nat} (h : Hex4 u n) (rest : List Char) : hex4 (u ++ rest) = some (n, rest) := by
  obtain ⟨ha, hb, hc, hd⟩ := h
  simp only [hex4, List.cons_append, List.nil_append, hexDigit_iff.mpr ha, hexDigit_iff.mpr hb, hexDigit_iff.mpr hc,
    hexDigit_iff.mpr hd, Option.some.injEq, Prod.mk.injEq, and_true]
  ring

theorem hex4_lt {u : List Char} {n : Nat} (h : Hex4 u n) : n < 65536 := by
  obtain ⟨ha, hb, hc, hd⟩ := h
  have := hex_lt ha
  have := hex_lt hb
  have := hex_lt hc
  have := hex_lt hd
  omega

/-- One character, written in any way. -/
def OneChar (u : List Char) (c : Char) : Prop := u ≠ [] ∧ ∀ t s, JsonChars t s → JsonChars (u ++ t) (c :: s)

theorem unicode_sound {cs rest : List Char} {c : Char} (h : unicode cs = some (c, rest)) :
    ∃ u, cs = u ++ rest ∧ OneChar ('\\' :: 'u' :: u) c := by
  unfold unicode at h
  split at h
  · cases h
  · rename_i n rest1 hn
    obtain ⟨u, rfl, hu, hlt⟩ := hex4_sound hn
    split at h
    · cases h
    · rename_i h1
      split at h
      · rename_i h2
        simp only [Option.some.injEq, Prod.mk.injEq] at h
        obtain ⟨rfl, rfl⟩ := h
        refine ⟨u, rfl, by simp, fun t s hts => ?_⟩
        refine JsonChars.unit (u := u) ?_ hts
        rw [ofNat_toNat (by omega)]
        exact hu
      · rename_i h2
        split at h
        · rename_i x y rest2
          split at h
          · rename_i hxy
            obtain ⟨rfl, rfl⟩ := hxy
            split at h
            · cases h
            · rename_i n2 rest3 hn2
              obtain ⟨u', rfl, hu', hlt'⟩ := hex4_sound hn2
              split at h
              · cases h
              · rename_i h3
                simp only [Option.some.injEq, Prod.mk.injEq] at h
                obtain ⟨rfl, rfl⟩ := h
                refine ⟨u ++ '\\' :: 'u' :: u', by simp, by simp, fun t s hts => ?_⟩
                have := JsonChars.pair (u := u) (u' := u') (c := Char.ofNat ((n - 0xD800) * 1024 + (n2 - 0xDC00) + 0x10000))
                  hu hu' (by omega) (by omega) (by rw [ofNat_toNat (by omega)]; omega) hts
                simpa using this
          · cases h
        · cases h

theorem escape_sound {cs rest : List Char} {c : Char} (h : escape cs = some (c, rest)) :
    ∃ u, cs = u ++ rest ∧ OneChar ('\\' :: u) c := by
  have short : ∀ (x : Char) (n : Nat), (x, n) ∈ escapeTable → n < 0xD800 → OneChar ['\\', x] (Char.ofNat n) := by
    intro x n hx hn
    refine ⟨by simp, fun t s hts => ?_⟩
    refine JsonChars.short (x := x) ?_ hts
    rw [ofNat_toNat (.inl hn)]
    exact hx
  cases cs with
  | nil => cases h
  | cons x cs =>
    simp only [escape] at h
    split_ifs at h with h1 h2 h3 h4 h5 h6 h7 h8 h9
    · subst h1; cases h; exact ⟨['"'], rfl, short '"' 34 (by decide) (by decide)⟩
    · subst h2; cases h; exact ⟨['\\'], rfl, short '\\' 92 (by decide) (by decide)⟩
    · subst h3; cases h; exact ⟨['/'], rfl, short '/' 47 (by decide) (by decide)⟩
    · subst h4; cases h; exact ⟨['b'], rfl, short 'b' 8 (by decide) (by decide)⟩
    · subst h5; cases h; exact ⟨['f'], rfl, short 'f' 12 (by decide) (by decide)⟩
    · subst h6; cases h; exact ⟨['n'], rfl, short 'n' 10 (by decide) (by decide)⟩
    · subst h7; cases h; exact ⟨['r'], rfl, short 'r' 13 (by decide) (by decide)⟩
    · subst h8; cases h; exact ⟨['t'], rfl, short 't' 9 (by decide) (by decide)⟩
    · subst h9
      obtain ⟨u, rfl, hu⟩ := unicode_sound h
      exact ⟨'u' :: u, rfl, hu⟩

/-- A string that is read is one. -/
theorem str_sound {fuel : Nat} {cs s rest : List Char} (h : str fuel cs = some (s, rest)) :
    ∃ t, cs = t ++ '"' :: rest ∧ JsonChars t s := by
  induction fuel generalizing cs s with
  | zero => cases h
  | succ fuel ih =>
    cases cs with
    | nil => cases h
    | cons c cs =>
      simp only [str] at h
      split_ifs at h with h1 h2 h3
      · cases h
        subst h1
        exact ⟨[], rfl, .nil⟩
      · subst h2
        split at h
        · cases h
        · rename_i x rest1 hx
          obtain ⟨u, rfl, hu⟩ := escape_sound hx
          simp only [Option.map_eq_some_iff, Prod.mk.injEq] at h
          obtain ⟨⟨s', rest'⟩, hr, rfl, rfl⟩ := h
          obtain ⟨t, e, ht⟩ := ih hr
          refine ⟨'\\' :: u ++ t, by rw [e]; simp, ?_⟩
          exact hu.2 t s' ht
      · simp only [Option.map_eq_some_iff, Prod.mk.injEq] at h
        obtain ⟨⟨s', rest'⟩, hr, rfl, rfl⟩ := h
        obtain ⟨t, rfl, ht⟩ := ih hr
        exact ⟨c :: t, rfl, .plain h1 h2 (by omega) ht⟩

theorem escape_short {x c : Char} (h : (x, c.toNat) ∈ escapeTable) (rest : List Char) : escape (x :: rest) = some (c, rest) := by
  have hc := (Char.ofNat_toNat c).symm
  have key : ∀ p ∈ escapeTable, ∀ c : Char, c = Char.ofNat p.2 → ∀ rest, escape (p.1 :: rest) = some (c, rest) := by
    intro p hp c hc rest
    subst hc
    simp only [escapeTable, List.mem_cons, List.not_mem_nil, or_false] at hp
    rcases hp with rfl | rfl | rfl | rfl | rfl | rfl | rfl | rfl <;> simp [escape]
  exact key _ h c hc rest

theorem escape_unicode (cs : List Char) : escape ('u' :: cs) = unicode cs := by simp [escape]

theorem unicode_unit {u : List Char} {c : Char} (h : Hex4 u c.toNat) (rest : List Char) : unicode (u ++ rest) = some (c, rest) := by
  have hv := toNat_valid c
  unfold unicode
  rw [hex4_complete h]
  simp only
  rw [if_neg (by omega), if_pos (by omega), Char.ofNat_toNat]

theorem unicode_pair {u u' : List Char} {c : Char} {hi lo : Nat} (hu : Hex4 u hi) (hu' : Hex4 u' lo)
    (h1 : 0xD800 ≤ hi ∧ hi < 0xDC00) (h2 : 0xDC00 ≤ lo ∧ lo < 0xE000)
    (hc : c.toNat = 0x10000 + (hi - 0xD800) * 0x400 + (lo - 0xDC00)) (rest : List Char) :
    unicode (u ++ '\\' :: 'u' :: (u' ++ rest)) = some (c, rest) := by
  unfold unicode
  rw [hex4_complete hu]
  simp only
  rw [if_neg (by omega), if_neg (by omega), if_pos ⟨trivial, trivial⟩, hex4_complete hu']
  simp only
  rw [if_neg (by omega), char_eq (c := c) (n := (hi - 0xD800) * 1024 + (lo - 0xDC00) + 0x10000) (by omega)]

/-- Strings are read. -/
theorem str_complete {t s : List Char} (h : JsonChars t s) {fuel : Nat} (hf : t.length + 1 ≤ fuel) (rest : List Char) :
    str fuel (t ++ '"' :: rest) = some (s, rest) := by
  induction h generalizing fuel with
  | nil =>
    obtain ⟨k, rfl⟩ : ∃ k, fuel = k + 1 := ⟨fuel - 1, by simp at hf; omega⟩
    simp [str]
  | plain h1 h2 h3 h ih =>
    simp only [List.length_cons] at hf
    obtain ⟨k, rfl⟩ : ∃ k, fuel = k + 1 := ⟨fuel - 1, by omega⟩
    simp only [str, List.cons_append]
    rw [if_neg h1, if_neg h2, if_neg (by omega), ih (by omega)]
    rfl
  | short hx h ih =>
    simp only [List.length_cons] at hf
    obtain ⟨k, rfl⟩ : ∃ k, fuel = k + 1 := ⟨fuel - 1, by omega⟩
    simp only [str, List.cons_append]
    rw [if_neg (by decide), if_pos trivial, escape_short hx]
    simp only
    rw [ih (by omega)]
    rfl
  | unit hu h ih =>
    simp only [List.length_cons, List.length_append] at hf
    obtain ⟨k, rfl⟩ : ∃ k, fuel = k + 1 := ⟨fuel - 1, by omega⟩
    simp only [str, List.cons_append, List.append_assoc]
    rw [if_neg (by decide), if_pos trivial, escape_unicode, unicode_unit hu]
    simp only
    rw [ih (by omega)]
    rfl
  | pair hu hu' h1 h2 hc h ih =>
    simp only [List.length_cons, List.length_append] at hf
    obtain ⟨k, rfl⟩ : ∃ k, fuel = k + 1 := ⟨fuel - 1, by omega⟩
    simp only [str, List.cons_append, List.append_assoc]
    rw [if_neg (by decide), if_pos trivial, escape_unicode, unicode_pair hu hu' h1 h2 hc]
    simp only
    rw [ih (by omega)]
    rfl

/-! ## What is written -/

theorem hexChar_mem {n : Nat} (h : n < 16) : (hexChar n, n) ∈ hexTable := by
  have : ∀ m : _root_.Fin 16, (hexChar m.val, m.val) ∈ hexTable := by decide
  exact this ⟨n, h⟩

theorem escapeChar_one (c : Char) : OneChar (escapeChar c) c := by
  have short : ∀ (x : Char) (n : Nat), (x, n) ∈ escapeTable → c.toNat = n → OneChar ['\\', x] c := by
    intro x n hx hn
    refine ⟨by simp, fun t s hts => ?_⟩
    refine JsonChars.short (x := x) ?_ hts
    rw [hn]
    exact hx
  unfold escapeChar
  split_ifs with h1 h2 h3 h4 h5 h6 h7 h8
  · exact short '"' 34 (by decide) (by rw [h1]; rfl)
  · exact short '\\' 92 (by decide) (by rw [h2]; rfl)
  · exact short 'b' 8 (by decide) h3
  · exact short 't' 9 (by decide) h4
  · exact short 'n' 10 (by decide) h5
  · exact short 'f' 12 (by decide) h6
  · exact short 'r' 13 (by decide) h7
  · refine ⟨by simp, fun t s hts => ?_⟩
    have hu : Hex4 ['0', '0', hexChar (c.toNat / 16), hexChar (c.toNat % 16)] c.toNat := by
      have := Hex4.mk (a := '0') (b := '0') (x := 0) (y := 0) (by decide) (by decide)
        (hexChar_mem (n := c.toNat / 16) (by omega)) (hexChar_mem (n := c.toNat % 16) (by omega))
      rw [show 0 * 4096 + 0 * 256 + c.toNat / 16 * 16 + c.toNat % 16 = c.toNat by omega] at this
      exact this
    exact JsonChars.unit hu hts
  · exact ⟨by simp, fun t s hts => .plain h1 h2 (by omega) hts⟩

theorem strText_chars (s : List Char) : JsonChars (s.flatMap escapeChar) s := by
  induction s with
  | nil => exact .nil
  | cons c cs ih =>
    rw [List.flatMap_cons]
    exact (escapeChar_one c).2 _ _ ih

end SerdeJson

end Souris
