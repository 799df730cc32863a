import Verif.Model.JsonBytes
import Verif.Lemmas.Amplify
import Verif.Lemmas.JsonValue
import Verif.Lemmas.JsonCut

/-! # Reading JSON byte by byte -/

namespace Souris

namespace SerdeJson

/-! ## The bytes of a text -/

/-- The bytes of a character. -/
def wideChar (c : Char) : List Char := latin (String.utf8EncodeChar c)

/-- The bytes of a text. -/
def wide (cs : List Char) : List Char := cs.flatMap wideChar

theorem latin_append (a b : List UInt8) : latin (a ++ b) = latin a ++ latin b := by simp [latin]

theorem wide_eq (cs : List Char) : wide cs = latin (utf8 cs) := by
  induction cs with
  | nil => rfl
  | cons c cs ih =>
    rw [wide, List.flatMap_cons, utf8, List.flatMap_cons, latin_append]
    rw [wide, utf8] at ih
    rw [ih]
    rfl

theorem latin_toNat (x : UInt8) : (Char.ofNat x.toNat).toNat = x.toNat :=
  ofNat_toNat (.inl (by have := x.toNat_lt; omega))

theorem latin_inj {a b : List UInt8} (h : latin a = latin b) : a = b := by
  refine List.map_injective_iff.mpr (fun x y e => ?_) h
  have := congrArg Char.toNat e
  rw [latin_toNat, latin_toNat] at this
  exact UInt8.toNat_inj.mp this

theorem wide_append (a b : List Char) : wide (a ++ b) = wide a ++ wide b := by simp [wide]

/-- An ASCII character is one byte. -/
theorem wideChar_ascii {c : Char} (h : c.toNat < 128) : wideChar c = [c] := by
  have h1 : c.utf8Size = 1 := by
    unfold Char.utf8Size
    rw [if_pos]
    exact UInt32.le_iff_toNat_le.mpr (by show c.toNat ≤ 127; omega)
  rw [wideChar, String.utf8EncodeChar_eq_singleton h1]
  have : c.val.toUInt8.toNat = c.toNat := by
    show c.val.toNat % 256 = c.toNat
    have : c.val.toNat = c.toNat := rfl
    omega
  simp only [latin, List.map_cons, List.map_nil, this]
  rw [← char_eq rfl]

/-- The bytes of any other character are none of the ASCII characters. -/
theorem wideChar_high {c : Char} (h : 128 ≤ c.toNat) : ∀ x ∈ wideChar c, 128 ≤ x.toNat := by
  have or_ge : ∀ a b : UInt8, 128 ≤ b.toNat → 128 ≤ (a ||| b).toNat := by
    intro a b hb
    rw [UInt8.toNat_or]
    exact le_trans hb Nat.right_le_or
  have h1 : c.utf8Size ≠ 1 := by
    intro hc
    unfold Char.utf8Size at hc
    dsimp only at hc
    split_ifs at hc with h2
    · have := UInt32.le_iff_toNat_le.mp h2
      have h3 : c.toNat ≤ 127 := this
      omega
    all_goals omega
  intro x hx
  simp only [wideChar, latin, List.mem_map] at hx
  obtain ⟨y, hy, rfl⟩ := hx
  rw [latin_toNat]
  have hp := c.utf8Size_pos
  have hf := c.utf8Size_le_four
  rcases (by omega : c.utf8Size = 2 ∨ c.utf8Size = 3 ∨ c.utf8Size = 4) with e | e | e
  · rw [String.utf8EncodeChar_eq_cons_cons e] at hy
    simp only [List.mem_cons, List.not_mem_nil, or_false] at hy
    rcases hy with rfl | rfl <;> exact or_ge _ _ (by decide)
  · rw [String.utf8EncodeChar_eq_cons_cons_cons e] at hy
    simp only [List.mem_cons, List.not_mem_nil, or_false] at hy
    rcases hy with rfl | rfl | rfl <;> exact or_ge _ _ (by decide)
  · rw [String.utf8EncodeChar_eq_cons_cons_cons_cons e] at hy
    simp only [List.mem_cons, List.not_mem_nil, or_false] at hy
    rcases hy with rfl | rfl | rfl | rfl <;> exact or_ge _ _ (by decide)

theorem wide_nil : wide [] = [] := rfl

theorem wide_cons (c : Char) (cs : List Char) : wide (c :: cs) = wideChar c ++ wide cs := rfl

theorem wide_ascii {c : Char} (h : c.toNat < 128) (cs : List Char) : wide (c :: cs) = c :: wide cs := by
  rw [wide_cons, wideChar_ascii h]
  rfl

theorem wide_high {c : Char} (h : 128 ≤ c.toNat) (cs : List Char) :
    ∃ (x : Char) (w : List Char), wide (c :: cs) = x :: w ∧ 128 ≤ x.toNat := by
  cases e : wideChar c with
  | nil =>
    have := congrArg List.length e
    simp only [wideChar, latin, List.length_map, String.length_utf8EncodeChar, List.length_nil] at this
    have := c.utf8Size_pos
    omega
  | cons x w =>
    exact ⟨x, w ++ wide cs, by rw [wide_cons, e]; rfl, wideChar_high h x (by rw [e]; simp)⟩

theorem wide_self {cs : List Char} (h : ∀ c ∈ cs, c.toNat < 128) : wide cs = cs := by
  induction cs with
  | nil => rfl
  | cons c cs ih => rw [wide_ascii (h c (by simp)), ih (fun x hx => h x (by simp [hx]))]

theorem wide_length (cs : List Char) : cs.length ≤ (wide cs).length := by
  have h := utf8Decode_length (utf8Decode_utf8 cs)
  rw [wide_eq, latin, List.length_map]
  exact h

/-! ## Characters that are not ASCII -/

theorem high_ne {c x : Char} (h : 128 ≤ c.toNat) (hx : x.toNat < 128 := by decide) : c ≠ x := by
  rintro rfl
  omega

theorem high_digit {c : Char} (h : 128 ≤ c.toNat) : digitOf c = none := by
  unfold digitOf
  rw [if_neg (by omega)]

theorem high_hex {c : Char} (h : 128 ≤ c.toNat) : hexDigit c = none := by
  unfold hexDigit
  rw [if_neg (by omega), if_neg (by omega), if_neg (by omega)]

theorem high_ws {c : Char} (h : 128 ≤ c.toNat) : ws c = false := by
  simp [ws, high_ne h (x := ' '), high_ne h (x := '\n'), high_ne h (x := '\t'), high_ne h (x := '\r')]

/-! ## Reading texts and reading their bytes is the same -/

/-- What is left of a text, as what is left of its bytes. -/
def left {α : Type} (r : α × List Char) : α × List Char := (r.1, wide r.2)

theorem skip_wide (cs : List Char) : skip (wide cs) = wide (skip cs) := by
  induction cs with
  | nil => rfl
  | cons c cs ih =>
    by_cases h : c.toNat < 128
    · rw [wide_ascii h]
      simp only [skip, List.dropWhile_cons] at ih ⊢
      split_ifs
      · exact ih
      · rw [wide_ascii h]
    · obtain ⟨x, w, e, hx⟩ := wide_high (by omega : 128 ≤ c.toNat) cs
      rw [skip_cons (high_ws (by omega)), e, skip_cons (high_ws hx)]

theorem ident_wide {xs : List Char} (hxs : ∀ x ∈ xs, x.toNat < 128) (cs : List Char) :
    ident xs (wide cs) = (ident xs cs).map wide := by
  induction xs generalizing cs with
  | nil => simp [ident]
  | cons x xs ih =>
    cases cs with
    | nil => rfl
    | cons c cs =>
      by_cases h : c.toNat < 128
      · rw [wide_ascii h]
        simp only [ident]
        split_ifs
        · exact ih (fun y hy => hxs y (by simp [hy])) cs
        · rfl
      · obtain ⟨y, w, e, hy⟩ := wide_high (by omega : 128 ≤ c.toNat) cs
        rw [e]
        simp only [ident]
        rw [if_neg (high_ne hy (hxs x (by simp))), if_neg (high_ne (by omega) (hxs x (by simp)))]
        rfl

theorem eatDigits_wide (cs : List Char) : eatDigits (wide cs) = wide (eatDigits cs) := by
  induction cs with
  | nil => rfl
  | cons c cs ih =>
    by_cases h : c.toNat < 128
    · rw [wide_ascii h]
      simp only [eatDigits, List.dropWhile_cons] at ih ⊢
      split_ifs
      · exact ih
      · rw [wide_ascii h]
    · obtain ⟨x, w, e, hx⟩ := wide_high (by omega : 128 ≤ c.toNat) cs
      rw [e]
      simp only [eatDigits, List.dropWhile_cons, high_digit hx, high_digit (by omega : 128 ≤ c.toNat), Option.isSome_none]
      exact e.symm

theorem expLoop_wide (p : Bool) (s : Nat) (st : Int) (pe : Bool) (e : Nat) (cs : List Char) :
    expLoop p s st pe e (wide cs) = (expLoop p s st pe e cs).map left := by
  induction cs generalizing e with
  | nil =>
    rw [wide_nil, expLoop, Option.map_map]
    rfl
  | cons c cs ih =>
    by_cases h : c.toNat < 128
    · rw [wide_ascii h, expLoop, expLoop]
      split
      · rw [Option.map_map, ← wide_ascii h]
        rfl
      · split_ifs
        · rfl
        · rw [eatDigits_wide]; rfl
        · exact ih _
    · obtain ⟨x, w, ew, hx⟩ := wide_high (by omega : 128 ≤ c.toNat) cs
      rw [ew, expLoop, expLoop]
      simp only [high_digit hx, high_digit (by omega : 128 ≤ c.toNat)]
      rw [Option.map_map, ← ew]
      rfl

theorem expPart_wide (p : Bool) (s : Nat) (st : Int) (cs : List Char) :
    expPart p s st (wide cs) = (expPart p s st cs).map left := by
  have first : ∀ (pe : Bool) (cs : List Char),
      (match wide cs with
        | [] => none
        | c :: rest => match digitOf c with
          | none => none
          | some d => expLoop p s st pe d rest) =
      (match cs with
        | [] => none
        | c :: rest => match digitOf c with
          | none => none
          | some d => expLoop p s st pe d rest).map left := by
    intro pe cs
    cases cs with
    | nil => rfl
    | cons c cs =>
      by_cases h : c.toNat < 128
      · rw [wide_ascii h]
        simp only
        cases digitOf c with
        | none => rfl
        | some d => exact expLoop_wide _ _ _ _ _ _
      · obtain ⟨x, w, ew, hx⟩ := wide_high (by omega : 128 ≤ c.toNat) cs
        rw [ew]
        simp only [high_digit hx, high_digit (by omega : 128 ≤ c.toNat)]
        rfl
  cases cs with
  | nil => rfl
  | cons c cs =>
    by_cases h : c.toNat < 128
    · have hh : (wide (c :: cs)).head? = (c :: cs).head? := by rw [wide_ascii h]; rfl
      have ht : (wide (c :: cs)).tail = wide (c :: cs).tail := by rw [wide_ascii h]; rfl
      unfold expPart
      simp only [hh, ht]
      split_ifs
      · exact first _ _
      · exact first _ _
    · obtain ⟨x, w, ew, hx⟩ := wide_high (by omega : 128 ≤ c.toNat) cs
      rw [ew]
      unfold expPart
      simp only [List.head?_cons, Option.some.injEq, high_ne hx (x := '-'), high_ne hx (x := '+'),
        high_ne (by omega : 128 ≤ c.toNat) (x := '-'), high_ne (by omega : 128 ≤ c.toNat) (x := '+'), or_self, if_false,
        high_digit hx, high_digit (by omega : 128 ≤ c.toNat)]
      rfl

theorem expOrEnd_wide (p : Bool) (s : Nat) (e : Int) (cs : List Char) :
    expOrEnd p s e (wide cs) = (expOrEnd p s e cs).map left := by
  cases cs with
  | nil =>
    rw [wide_nil, expOrEnd, Option.map_map]
    rfl
  | cons c cs =>
    by_cases h : c.toNat < 128
    · rw [wide_ascii h, expOrEnd, expOrEnd]
      split_ifs
      · exact expPart_wide _ _ _ _
      · rw [Option.map_map, ← wide_ascii h]
        rfl
    · obtain ⟨x, w, ew, hx⟩ := wide_high (by omega : 128 ≤ c.toNat) cs
      rw [ew, expOrEnd, expOrEnd, if_neg (by simp [high_ne hx (x := 'e'), high_ne hx (x := 'E')]),
        if_neg (by simp [high_ne (by omega : 128 ≤ c.toNat) (x := 'e'), high_ne (by omega : 128 ≤ c.toNat) (x := 'E')]),
        Option.map_map, ← ew]
      rfl

theorem decLoop_wide (p : Bool) (b : Int) (s a : Nat) (cs : List Char) :
    decLoop p b s a (wide cs) = (decLoop p b s a cs).map left := by
  induction cs generalizing s a with
  | nil =>
    rw [wide_nil, decLoop]
    split_ifs
    · rfl
    · exact expOrEnd_wide _ _ _ []
  | cons c cs ih =>
    by_cases h : c.toNat < 128
    · rw [wide_ascii h, decLoop, decLoop]
      split
      · split_ifs
        · rfl
        · rw [← wide_ascii h]
          exact expOrEnd_wide _ _ _ _
      · split_ifs
        · rw [eatDigits_wide]
          exact expOrEnd_wide _ _ _ _
        · exact ih _ _
    · obtain ⟨x, w, ew, hx⟩ := wide_high (by omega : 128 ≤ c.toNat) cs
      rw [ew, decLoop, decLoop]
      simp only [high_digit hx, high_digit (by omega : 128 ≤ c.toNat)]
      split_ifs
      · rfl
      · rw [← ew]
        exact expOrEnd_wide _ _ _ _

theorem longInteger_wide (p : Bool) (s a : Nat) (cs : List Char) :
    longInteger p s a (wide cs) = (longInteger p s a cs).map left := by
  induction cs generalizing a with
  | nil =>
    rw [wide_nil, longInteger]
    exact expOrEnd_wide _ _ _ []
  | cons c cs ih =>
    by_cases h : c.toNat < 128
    · rw [wide_ascii h, longInteger, longInteger]
      split_ifs
      · exact ih _
      · exact decLoop_wide _ _ _ _ _
      · rw [← wide_ascii h]
        exact expOrEnd_wide _ _ _ _
    · obtain ⟨x, w, ew, hx⟩ := wide_high (by omega : 128 ≤ c.toNat) cs
      rw [ew, longInteger, longInteger]
      rw [if_neg (by simp [high_digit hx]), if_neg (high_ne hx), if_neg (by simp [high_digit (by omega : 128 ≤ c.toNat)]),
        if_neg (high_ne (by omega)), ← ew]
      exact expOrEnd_wide _ _ _ _

theorem numberEnd_wide (p : Bool) (s : Nat) (cs : List Char) :
    numberEnd p s (wide cs) = (numberEnd p s cs).map left := by
  cases cs with
  | nil => rfl
  | cons c cs =>
    by_cases h : c.toNat < 128
    · rw [wide_ascii h, numberEnd, numberEnd]
      split_ifs
      · rw [decLoop_wide, Option.map_map, Option.map_map]
        rfl
      · rw [expPart_wide, Option.map_map, Option.map_map]
        rfl
      · rw [← wide_ascii h]
        rfl
    · obtain ⟨x, w, ew, hx⟩ := wide_high (by omega : 128 ≤ c.toNat) cs
      rw [ew, numberEnd, numberEnd]
      rw [if_neg (high_ne hx), if_neg (by simp [high_ne hx (x := 'e'), high_ne hx (x := 'E')]), if_neg (high_ne (by omega)),
        if_neg (by simp [high_ne (by omega : 128 ≤ c.toNat) (x := 'e'), high_ne (by omega : 128 ≤ c.toNat) (x := 'E')]), ← ew]
      rfl

theorem intLoop_wide (p : Bool) (s : Nat) (cs : List Char) :
    intLoop p s (wide cs) = (intLoop p s cs).map left := by
  induction cs generalizing s with
  | nil =>
    rw [wide_nil, intLoop]
    exact numberEnd_wide _ _ []
  | cons c cs ih =>
    by_cases h : c.toNat < 128
    · rw [wide_ascii h, intLoop, intLoop]
      split
      · rw [← wide_ascii h]
        exact numberEnd_wide _ _ _
      · split_ifs
        · rw [longInteger_wide, Option.map_map, Option.map_map]
          rfl
        · exact ih _
    · obtain ⟨x, w, ew, hx⟩ := wide_high (by omega : 128 ≤ c.toNat) cs
      rw [ew, intLoop, intLoop]
      simp only [high_digit hx, high_digit (by omega : 128 ≤ c.toNat)]
      rw [← ew]
      exact numberEnd_wide _ _ _

theorem number_wide (p : Bool) (cs : List Char) : number p (wide cs) = (number p cs).map left := by
  cases cs with
  | nil => rfl
  | cons c cs =>
    by_cases h : c.toNat < 128
    · rw [wide_ascii h]
      unfold number
      simp only
      split
      · rfl
      · cases cs with
        | nil => exact numberEnd_wide _ _ []
        | cons c' cs =>
          by_cases h' : c'.toNat < 128
          · rw [wide_ascii h']
            simp only
            split_ifs
            · rfl
            · rw [← wide_ascii h']
              exact numberEnd_wide _ _ _
          · obtain ⟨x, w, ew, hx⟩ := wide_high (by omega : 128 ≤ c'.toNat) cs
            rw [ew]
            simp only [high_digit hx, high_digit (by omega : 128 ≤ c'.toNat)]
            rw [if_neg (by simp), if_neg (by simp), ← ew]
            exact numberEnd_wide _ _ _
      · exact intLoop_wide _ _ _
    · obtain ⟨x, w, ew, hx⟩ := wide_high (by omega : 128 ≤ c.toNat) cs
      rw [ew]
      unfold number
      simp only [high_digit hx, high_digit (by omega : 128 ≤ c.toNat)]
      rfl

/-- One hexadecimal digit. -/
def hexOne : List Char → Option (Nat × List Char)
  | [] => none
  | c :: rest => (hexDigit c).map (·, rest)

theorem hexOne_wide (cs : List Char) : hexOne (wide cs) = (hexOne cs).map left := by
  cases cs with
  | nil => rfl
  | cons c cs =>
    by_cases h : c.toNat < 128
    · rw [wide_ascii h, hexOne, hexOne, Option.map_map]
      rfl
    · obtain ⟨x, w, ew, hx⟩ := wide_high (by omega : 128 ≤ c.toNat) cs
      rw [ew, hexOne, hexOne, high_hex hx, high_hex (by omega)]
      rfl

theorem hex4_eq (cs : List Char) : hex4 cs = (hexOne cs).bind fun a => (hexOne a.2).bind fun b =>
    (hexOne b.2).bind fun c => (hexOne c.2).map fun d => (((a.1 * 16 + b.1) * 16 + c.1) * 16 + d.1, d.2) := by
  match cs with
  | [] => rfl
  | [a] => cases h : hexDigit a <;> simp [hex4, hexOne, h]
  | [a, b] => cases h : hexDigit a <;> cases h' : hexDigit b <;> simp [hex4, hexOne, h, h']
  | [a, b, c] => cases h : hexDigit a <;> cases h' : hexDigit b <;> cases h'' : hexDigit c <;> simp [hex4, hexOne, h, h', h'']
  | a :: b :: c :: d :: r =>
    cases h : hexDigit a <;> cases h' : hexDigit b <;> cases h'' : hexDigit c <;> cases h3 : hexDigit d <;>
      simp [hex4, hexOne, h, h', h'', h3]

theorem hex4_wide (cs : List Char) : hex4 (wide cs) = (hex4 cs).map left := by
  rw [hex4_eq, hex4_eq, hexOne_wide]
  cases hexOne cs with
  | none => rfl
  | some a =>
    simp only [Option.map_some, Option.bind_some, left, hexOne_wide]
    cases hexOne a.2 with
    | none => rfl
    | some b =>
      simp only [Option.map_some, Option.bind_some, left, hexOne_wide]
      cases hexOne b.2 with
      | none => rfl
      | some c =>
        simp only [Option.map_some, Option.bind_some, left, hexOne_wide]
        cases hexOne c.2 with
        | none => rfl
        | some d => rfl

theorem unicode_wide (cs : List Char) : unicode (wide cs) = (unicode cs).map left := by
  unfold unicode
  rw [hex4_wide]
  cases hex4 cs with
  | none => rfl
  | some a =>
    obtain ⟨n, rest⟩ := a
    simp only [Option.map_some, left]
    split_ifs
    · rfl
    · rfl
    · match rest with
      | [] => rfl
      | [x] =>
        by_cases h : x.toNat < 128
        · rw [wide_ascii h]
          rfl
        · obtain ⟨y, w, ew, hy⟩ := wide_high (by omega : 128 ≤ x.toNat) []
          rw [ew]
          cases w with
          | nil => rfl
          | cons z w =>
            simp only [high_ne hy (x := '\\'), false_and, if_false]
            rfl
      | x :: x' :: rest =>
        by_cases h : x.toNat < 128
        · rw [wide_ascii h]
          by_cases h' : x'.toNat < 128
          · rw [wide_ascii h']
            simp only
            split_ifs
            · rw [hex4_wide]
              cases hex4 rest with
              | none => rfl
              | some b =>
                simp only [Option.map_some, left]
                split_ifs <;> simp only [Option.map_some, Option.map_none, left]
            · rfl
          · obtain ⟨y, w, ew, hy⟩ := wide_high (by omega : 128 ≤ x'.toNat) rest
            rw [ew]
            simp only [high_ne hy (x := 'u'), high_ne (by omega : 128 ≤ x'.toNat) (x := 'u'), and_false, if_false]
            rfl
        · obtain ⟨y, w, ew, hy⟩ := wide_high (by omega : 128 ≤ x.toNat) (x' :: rest)
          rw [ew]
          simp only [high_ne (by omega : 128 ≤ x.toNat) (x := '\\'), false_and, if_false]
          cases w with
          | nil => rfl
          | cons z w =>
            simp only [high_ne hy (x := '\\'), false_and, if_false]
            rfl

theorem escape_wide (cs : List Char) : escape (wide cs) = (escape cs).map left := by
  cases cs with
  | nil => rfl
  | cons c cs =>
    by_cases h : c.toNat < 128
    · rw [wide_ascii h, escape, escape]
      split_ifs
      all_goals first | simp only [Option.map_some, left] | simp only [Option.map_none] | exact unicode_wide _
    · obtain ⟨x, w, ew, hx⟩ := wide_high (by omega : 128 ≤ c.toNat) cs
      have : ∀ {y : Char} (w : List Char), 128 ≤ y.toNat → escape (y :: w) = none := by
        intro y w hy
        rw [escape]
        simp only [high_ne hy (x := '"'), high_ne hy (x := '\\'), high_ne hy (x := '/'), high_ne hy (x := 'b'),
          high_ne hy (x := 'f'), high_ne hy (x := 'n'), high_ne hy (x := 'r'), high_ne hy (x := 't'),
          high_ne hy (x := 'u'), if_false]
      rw [ew, this w hx, this cs (by omega)]
      rfl

theorem colon_wide (cs : List Char) : colon (wide cs) = (colon cs).map wide := by
  unfold colon
  rw [skip_wide]
  cases skip cs with
  | nil => rfl
  | cons c cs =>
    by_cases h : c.toNat < 128
    · rw [wide_ascii h]
      simp only
      split_ifs <;> rfl
    · obtain ⟨x, w, ew, hx⟩ := wide_high (by omega : 128 ≤ c.toNat) cs
      rw [ew]
      simp only [high_ne hx (x := ':'), high_ne (by omega : 128 ≤ c.toNat) (x := ':'), if_false]
      rfl

/-! ## Strings -/

theorem utf8_snoc (s : List Char) (c : Char) : utf8 s ++ String.utf8EncodeChar c = utf8 (s ++ [c]) := by simp [utf8]

/-- Bytes that are gathered as they are. -/
theorem strBytes_raw {hs : List Char} (h : ∀ x ∈ hs, x ≠ '"' ∧ x ≠ '\\' ∧ 32 ≤ x.toNat) (fuel : Nat) (scratch : List UInt8) (r : List Char) :
    strBytes (fuel + hs.length) scratch (hs ++ r) = strBytes fuel (scratch ++ hs.map fun x => UInt8.ofNat x.toNat) r := by
  induction hs generalizing scratch with
  | nil => simp
  | cons x hs ih =>
    obtain ⟨h1, h2, h3⟩ := h x (by simp)
    rw [List.length_cons, ← Nat.add_assoc, List.cons_append, strBytes, if_neg h1, if_neg h2, if_neg (by omega),
      ih (fun y hy => h y (by simp [hy]))]
    simp

theorem wideChar_bytes (c : Char) : (wideChar c).map (fun x => UInt8.ofNat x.toNat) = String.utf8EncodeChar c := by
  rw [wideChar, latin, List.map_map]
  conv_rhs => rw [← List.map_id (String.utf8EncodeChar c)]
  refine List.map_congr_left fun x _ => ?_
  simp only [Function.comp_apply, latin_toNat, id_eq]
  simp

theorem wideChar_plain {c : Char} (h1 : c ≠ '"') (h2 : c ≠ '\\') (h3 : 32 ≤ c.toNat) :
    ∀ x ∈ wideChar c, x ≠ '"' ∧ x ≠ '\\' ∧ 32 ≤ x.toNat := by
  intro x hx
  by_cases h : c.toNat < 128
  · rw [wideChar_ascii h] at hx
    simp only [List.mem_cons, List.not_mem_nil, or_false] at hx
    subst hx
    exact ⟨h1, h2, h3⟩
  · have := wideChar_high (by omega) x hx
    exact ⟨high_ne this, high_ne this, by omega⟩

theorem str_wide {fuel : Nat} {cs : List Char} (hf : cs.length < fuel) {F : Nat} (hF : (wide cs).length < F) (s0 : List Char) :
    strBytes F (utf8 s0) (wide cs) = (str fuel cs).map fun r => (s0 ++ r.1, wide r.2) := by
  induction fuel generalizing cs F s0 with
  | zero => omega
  | succ fuel ih =>
    obtain ⟨F, rfl⟩ : ∃ F', F = F' + 1 := ⟨F - 1, by omega⟩
    cases cs with
    | nil => rfl
    | cons c cs =>
      rw [str]
      by_cases h1 : c = '"'
      · subst h1
        rw [wide_ascii (by decide), strBytes, if_pos rfl, if_pos rfl, utf8Decode_utf8]
        simp
      · rw [if_neg h1]
        by_cases h2 : c = '\\'
        · subst h2
          rw [wide_ascii (by decide)] at hF ⊢
          rw [strBytes, if_neg (by decide), if_pos rfl, if_pos rfl, escape_wide]
          cases he : escape cs with
          | none => rfl
          | some a =>
            obtain ⟨x, rest⟩ := a
            obtain ⟨u, rfl, _⟩ := escape_sound he
            simp only [Option.map_some, left]
            rw [utf8_snoc, ih (by simp at hf; omega) (by rw [wide_append] at hF; simp at hF; omega), Option.map_map]
            congr 1
            funext r
            simp
        · rw [if_neg h2]
          by_cases h3 : c.toNat < 32
          · rw [if_pos h3, wide_ascii (by omega), strBytes, if_neg h1, if_neg h2, if_pos h3]
            rfl
          · rw [if_neg h3, wide_cons]
            rw [wide_cons, List.length_append] at hF
            have hl : 1 ≤ (wideChar c).length := by
              simp only [wideChar, latin, List.length_map, String.length_utf8EncodeChar]
              exact c.utf8Size_pos
            obtain ⟨G, hG⟩ : ∃ G, F + 1 = G + (wideChar c).length := ⟨F + 1 - (wideChar c).length, by omega⟩
            rw [hG, strBytes_raw (wideChar_plain h1 h2 (by omega)), wideChar_bytes, utf8_snoc,
              ih (by simp at hf; omega) (by omega), Option.map_map]
            congr 1
            funext r
            simp

theorem strBytes_wide (cs : List Char) :
    strBytes ((wide cs).length + 1) [] (wide cs) = (str (cs.length + 1) cs).map left := by
  have := str_wide (Nat.lt_succ_self cs.length) (Nat.lt_succ_self (wide cs).length) []
  rw [show utf8 [] = [] from rfl] at this
  rw [this]
  rfl

/-! ## Values -/

theorem value_wide (fuel : Nat) :
    (∀ D cs, valueBytes fuel D (wide cs) = (value fuel D cs).map left) ∧
    (∀ D first cs, elementsBytes fuel D first (wide cs) = (elements fuel D first cs).map left) ∧
    (∀ D first cs, entriesBytes fuel D first (wide cs) = (entries fuel D first cs).map left) := by
  induction fuel with
  | zero => exact ⟨fun _ _ => rfl, fun _ _ _ => rfl, fun _ _ _ => rfl⟩
  | succ fuel ih =>
    obtain ⟨ihv, ihe, iho⟩ := ih
    refine ⟨fun D cs => ?_, fun D first cs => ?_, fun D first cs => ?_⟩
    · rw [valueBytes, value, skip_wide]
      cases skip cs with
      | nil => rfl
      | cons c rest =>
        by_cases h : c.toNat < 128
        · have hn := number_wide true (c :: rest)
          rw [wide_ascii h] at hn ⊢
          simp only [hn, ident_wide (by decide : ∀ x ∈ ['u', 'l', 'l'], x.toNat < 128),
            ident_wide (by decide : ∀ x ∈ ['r', 'u', 'e'], x.toNat < 128),
            ident_wide (by decide : ∀ x ∈ ['a', 'l', 's', 'e'], x.toNat < 128), number_wide, strBytes_wide, ihe, iho]
          split_ifs
          all_goals first
            | rfl
            | (simp only [Option.map_map]; rfl)
        · have hc : 128 ≤ c.toNat := by omega
          obtain ⟨x, w, ew, hx⟩ := wide_high hc rest
          rw [ew]
          simp only [high_ne hx (x := 'n'), high_ne hx (x := 't'), high_ne hx (x := 'f'), high_ne hx (x := '-'), high_digit hx,
            high_ne hx (x := '"'), high_ne hx (x := '['), high_ne hx (x := '{'), high_ne hc (x := 'n'), high_ne hc (x := 't'),
            high_ne hc (x := 'f'), high_ne hc (x := '-'), high_digit hc, high_ne hc (x := '"'), high_ne hc (x := '['),
            high_ne hc (x := '{'), if_false, Option.isSome_none, Bool.false_eq_true]
          rfl
    · have next : ∀ cs : List Char,
          (match valueBytes fuel D (wide cs) with
            | none => none
            | some (v, cs) => (elementsBytes fuel D false cs).map fun r => (v :: r.1, r.2) : Option (List SJValue × List Char)) =
          (match value fuel D cs with
            | none => none
            | some (v, cs) => (elements fuel D false cs).map fun r => (v :: r.1, r.2) : Option (List SJValue × List Char)).map left := by
        intro cs
        rw [ihv]
        cases value fuel D cs with
        | none => rfl
        | some a =>
          simp only [Option.map_some, left, ihe, Option.map_map]
          rfl
      rw [elementsBytes, elements, skip_wide]
      cases skip cs with
      | nil => rfl
      | cons c rest =>
        by_cases h : c.toNat < 128
        · rw [wide_ascii h]
          simp only
          by_cases h1 : c = ']'
          · simp only [h1, if_true]
            rfl
          · simp only [h1, if_false]
            cases first with
            | true =>
              simp only [if_true]
              have := next (c :: rest)
              rw [wide_ascii h] at this
              exact this
            | false =>
              simp only [Bool.false_eq_true, if_false]
              by_cases h2 : c = ','
              · simp only [h2, if_true, skip_wide]
                cases skip rest with
                | nil => rfl
                | cons c' rest' =>
                  by_cases h' : c'.toNat < 128
                  · have := next (c' :: rest')
                    rw [wide_ascii h'] at this ⊢
                    by_cases h3 : c' = ']'
                    · simp only [h3, if_true]
                      rfl
                    · simp only [h3, if_false]
                      exact this
                  · have hc' : 128 ≤ c'.toNat := by omega
                    have := next (c' :: rest')
                    obtain ⟨x, w, ew, hx⟩ := wide_high hc' rest'
                    rw [ew] at this ⊢
                    simp only [high_ne hx (x := ']'), high_ne hc' (x := ']'), if_false]
                    exact this
              · simp only [h2, if_false]
                rfl
        · have hc : 128 ≤ c.toNat := by omega
          have := next (c :: rest)
          obtain ⟨x, w, ew, hx⟩ := wide_high hc rest
          rw [ew] at this ⊢
          simp only [high_ne hx (x := ']'), high_ne hc (x := ']'), high_ne hx (x := ','), high_ne hc (x := ','), if_false]
          cases first with
          | true => exact this
          | false => rfl
    · have next : ∀ cs : List Char,
          (match (some (wide cs) : Option (List Char)) with
            | none => none
            | some [] => none
            | some (c :: cs) =>
              if c = '"' then
                match strBytes (cs.length + 1) [] cs with
                | none => none
                | some (k, cs) =>
                  match colon cs with
                  | none => none
                  | some cs =>
                    match valueBytes fuel D cs with
                    | none => none
                    | some (v, cs) => (entriesBytes fuel D false cs).map fun r => ((k, v) :: r.1, r.2)
              else none : Option (List (List Char × SJValue) × List Char)) =
          (match (some cs : Option (List Char)) with
            | none => none
            | some [] => none
            | some (c :: cs) =>
              if c = '"' then
                match str (cs.length + 1) cs with
                | none => none
                | some (k, cs) =>
                  match colon cs with
                  | none => none
                  | some cs =>
                    match value fuel D cs with
                    | none => none
                    | some (v, cs) => (entries fuel D false cs).map fun r => ((k, v) :: r.1, r.2)
              else none : Option (List (List Char × SJValue) × List Char)).map left := by
        intro cs
        cases cs with
        | nil => rfl
        | cons c cs =>
          by_cases h : c.toNat < 128
          · rw [wide_ascii h]
            simp only
            by_cases h1 : c = '"'
            · simp only [h1, if_true, strBytes_wide]
              cases str (cs.length + 1) cs with
              | none => rfl
              | some a =>
                simp only [Option.map_some, left, colon_wide]
                cases colon a.2 with
                | none => rfl
                | some cs =>
                  simp only [Option.map_some, ihv]
                  cases value fuel D cs with
                  | none => rfl
                  | some b =>
                    simp only [Option.map_some, left, iho, Option.map_map]
                    rfl
            · simp only [h1, if_false]
              rfl
          · have hc : 128 ≤ c.toNat := by omega
            obtain ⟨x, w, ew, hx⟩ := wide_high hc cs
            rw [ew]
            simp only [high_ne hx (x := '"'), high_ne hc (x := '"'), if_false]
            rfl
      rw [entriesBytes, entries, skip_wide]
      cases skip cs with
      | nil => rfl
      | cons c rest =>
        by_cases h : c.toNat < 128
        · rw [wide_ascii h]
          simp only
          by_cases h1 : c = '}'
          · simp only [h1, if_true]
            rfl
          · simp only [h1, if_false]
            cases first with
            | true =>
              simp only [if_true]
              have := next (c :: rest)
              rw [wide_ascii h] at this
              exact this
            | false =>
              simp only [Bool.false_eq_true, if_false]
              by_cases h2 : c = ','
              · simp only [h2, if_true, skip_wide]
                exact next _
              · simp only [h2, if_false]
                rfl
        · have hc : 128 ≤ c.toNat := by omega
          have := next (c :: rest)
          obtain ⟨x, w, ew, hx⟩ := wide_high hc rest
          rw [ew] at this ⊢
          simp only [high_ne hx (x := '}'), high_ne hc (x := '}'), high_ne hx (x := ','), high_ne hc (x := ','), if_false]
          cases first with
          | true => exact this
          | false => rfl

/-! ## What is read is UTF-8 -/

/-- What is read of `cs` before `rest` are the bytes of a text. -/
def Whole (cs rest : List Char) : Prop := ∃ t, cs = wide t ++ rest

theorem Whole.refl (cs : List Char) : Whole cs cs := ⟨[], rfl⟩

theorem Whole.trans {a b c : List Char} (h : Whole a b) (h' : Whole b c) : Whole a c := by
  obtain ⟨t, rfl⟩ := h
  obtain ⟨u, rfl⟩ := h'
  exact ⟨t ++ u, by rw [wide_append, List.append_assoc]⟩

theorem Whole.ascii {u : List Char} (h : ∀ c ∈ u, c.toNat < 128) (rest : List Char) : Whole (u ++ rest) rest :=
  ⟨u, by rw [wide_self h]⟩

theorem Whole.one {c : Char} (h : c.toNat < 128 := by decide) (rest : List Char) : Whole (c :: rest) rest :=
  Whole.ascii (u := [c]) (by simpa using h) rest

theorem blank_ascii {w : List Char} (h : JsonBlank w) : ∀ c ∈ w, c.toNat < 128 := by
  intro c hc
  have := h c hc
  unfold JsonSpace at this
  simp only [List.mem_cons, List.not_mem_nil, or_false] at this
  rcases this with rfl | rfl | rfl | rfl <;> decide

theorem Whole.skip {cs rest : List Char} (h : SerdeJson.skip cs = rest) : Whole cs rest := by
  obtain ⟨w, hw, e⟩ := skip_split cs
  rw [e, h]
  exact Whole.ascii (blank_ascii hw) _

theorem Whole.number {p : Bool} {cs rest : List Char} {n : SJNumber} (h : SerdeJson.number p cs = some (n, rest)) : Whole cs rest := by
  have hd : ∀ c ∈ numberChars, c.toNat < 128 := by decide
  have hw : ∀ int, JsonWhole int → ∀ c ∈ int, c.toNat < 128 := by
    intro int h c hc
    have : ∀ c ∈ decimalDigits, c.toNat < 128 := by decide
    exact this c (h.1.2 c hc)
  obtain ⟨int, h1, ⟨_, _, rfl⟩ | ⟨t, frac, e, r, h2, rfl, _⟩⟩ := number_shape h
  · exact Whole.ascii (hw int h1) _
  · exact Whole.ascii (fun c hc => hd c ((real_alphabet h2).2 c hc)) _

theorem hex4_ascii {u : List Char} {n : Nat} (h : Hex4 u n) : ∀ c ∈ u, c.toNat < 128 := by
  have : ∀ x ∈ hexTable, x.1.toNat < 128 := by decide
  obtain ⟨h1, h2, h3, h4⟩ := h
  intro x hx
  simp only [List.mem_cons, List.not_mem_nil, or_false] at hx
  rcases hx with rfl | rfl | rfl | rfl
  · exact this _ h1
  · exact this _ h2
  · exact this _ h3
  · exact this _ h4

theorem chars_nil {t : List Char} (h : JsonChars t []) : t = [] := by
  cases h
  rfl

theorem escape_ascii {cs rest : List Char} {x : Char} (h : escape cs = some (x, rest)) :
    ∃ u, cs = u ++ rest ∧ ∀ c ∈ u, c.toNat < 128 := by
  obtain ⟨u, rfl, hu⟩ := escape_sound h
  refine ⟨u, rfl, ?_⟩
  have h1 := hu.2 [] [] .nil
  rw [List.append_nil] at h1
  have table : ∀ y ∈ escapeTable, y.1.toNat < 128 := by decide
  generalize hs : [x] = s at h1
  generalize ht : '\\' :: u = t at h1
  cases h1 with
  | nil => cases hs
  | plain h1 h2 h3 h =>
    cases ht
    exact absurd rfl h2
  | short hx h' =>
    cases hs
    cases ht
    rw [chars_nil h']
    intro c hc
    simp only [List.mem_cons, List.not_mem_nil, or_false] at hc
    subst hc
    exact table _ hx
  | unit hu1 h' =>
    cases hs
    cases ht
    rw [chars_nil h', List.append_nil]
    intro c hc
    rcases List.mem_cons.mp hc with rfl | hc
    · decide
    · exact hex4_ascii hu1 c hc
  | pair hu1 hu' _ _ _ h' =>
    cases hs
    cases ht
    rw [chars_nil h', List.append_nil]
    intro c hc
    simp only [List.mem_cons, List.mem_append] at hc
    rcases hc with rfl | hc | rfl | rfl | hc
    · decide
    · exact hex4_ascii hu1 c hc
    · decide
    · decide
    · exact hex4_ascii hu' c hc

/-- The bytes that are gathered for a string: bytes as they are, and the bytes of characters for escapes. -/
inductive Pieces : List Char → List UInt8 → Prop
  | nil : Pieces [] []
  | raw (x : UInt8) {u : List Char} {bs : List UInt8} (h : Pieces u bs) : Pieces (Char.ofNat x.toNat :: u) (x :: bs)
  | escape {e : List Char} (he : ∀ c ∈ e, c.toNat < 128) (x : Char) {u : List Char} {bs : List UInt8} (h : Pieces u bs) :
      Pieces (e ++ u) (String.utf8EncodeChar x ++ bs)

theorem strBytes_pieces {fuel : Nat} {scratch : List UInt8} {cs s rest : List Char} (hn : ∀ c ∈ cs, c.toNat < 256)
    (h : strBytes fuel scratch cs = some (s, rest)) :
    ∃ u bs, cs = u ++ '"' :: rest ∧ Pieces u bs ∧ utf8Decode (scratch ++ bs) = some s := by
  induction fuel generalizing scratch cs with
  | zero => cases h
  | succ fuel ih =>
    cases cs with
    | nil => cases h
    | cons c cs =>
      rw [strBytes] at h
      split_ifs at h with h1 h2 h3
      · obtain ⟨s', hs', e⟩ := Option.map_eq_some_iff.mp h
        cases e
        exact ⟨[], [], by rw [h1]; rfl, .nil, by rw [List.append_nil]; exact hs'⟩
      · split at h
        · cases h
        · rename_i x rest' he
          obtain ⟨e, rfl, hasc⟩ := escape_ascii he
          obtain ⟨u, bs, rfl, hp, hd⟩ := ih (fun c hc => hn c (by simp [hc])) h
          refine ⟨c :: e ++ u, String.utf8EncodeChar x ++ bs, by simp, ?_, by rw [← List.append_assoc]; exact hd⟩
          refine Pieces.escape (e := c :: e) (fun y hy => ?_) x hp
          rcases List.mem_cons.mp hy with rfl | hy
          · rw [h2]
            decide
          · exact hasc y hy
      · obtain ⟨u, bs, rfl, hp, hd⟩ := ih (fun c hc => hn c (by simp [hc])) h
        have hc := hn c (by simp)
        have hx : (UInt8.ofNat c.toNat).toNat = c.toNat := by
          rw [UInt8.toNat_ofNat']
          omega
        have hp' := Pieces.raw (UInt8.ofNat c.toNat) hp
        rw [hx, ← char_eq rfl] at hp'
        exact ⟨c :: u, UInt8.ofNat c.toNat :: bs, rfl, hp', by simpa using hd⟩

theorem encode_cons (c : Char) : ∃ x bs, String.utf8EncodeChar c = x :: bs ∧ x.IsUTF8FirstByte ∧ ∀ y ∈ bs, ¬ y.IsUTF8FirstByte := by
  cases e : String.utf8EncodeChar c with
  | nil => exact absurd e String.utf8EncodeChar_ne_nil
  | cons x bs =>
    refine ⟨x, bs, rfl, ?_, fun y hy => ?_⟩
    · have := UInt8.isUTF8FirstByte_getElem_zero_utf8EncodeChar (c := c)
      simpa [e] using this
    · obtain ⟨i, hi, rfl⟩ := List.mem_iff_getElem.mp hy
      have := (UInt8.isUTF8FirstByte_getElem_utf8EncodeChar (c := c) (i := i + 1) (hi := by rw [e]; simpa using hi)).not.mpr (by omega)
      simpa [e] using this

/-- Escapes do not provide the later bytes of a character. -/
theorem pieces_rest {u : List Char} {bs tail : List UInt8} (hb : ∀ y ∈ bs, ¬ y.IsUTF8FirstByte) (h : Pieces u (bs ++ tail)) :
    ∃ u', u = latin bs ++ u' ∧ Pieces u' tail := by
  induction bs generalizing u with
  | nil => exact ⟨u, rfl, h⟩
  | cons b bs ih =>
    generalize e : b :: bs ++ tail = all at h
    cases h with
    | nil => cases e
    | raw x h =>
      cases e
      obtain ⟨u', rfl, h'⟩ := ih (fun y hy => hb y (by simp [hy])) h
      exact ⟨u', rfl, h'⟩
    | escape he x h =>
      obtain ⟨y, ys, ey, hy, _⟩ := encode_cons x
      rw [ey, List.cons_append, List.cons_append] at e
      rw [(List.cons.inj e).1] at hb
      exact absurd hy (hb y (by simp))

/-- Characters can be told apart by their bytes, whatever follows. -/
theorem encode_cut {c d : Char} {a b : List UInt8} (h : String.utf8EncodeChar c ++ a = String.utf8EncodeChar d ++ b) :
    c = d ∧ a = b := by
  have key : ∀ (c : Char) (a : List UInt8), (ByteArray.mk (String.utf8EncodeChar c ++ a).toArray).utf8DecodeChar? 0 = some c := by
    intro c a
    have := ByteArray.utf8DecodeChar?_utf8EncodeChar_append (b := ByteArray.mk a.toArray) (c := c)
    rw [← this]
    congr 1
    apply ByteArray.ext
    simp
  have h1 := key c a
  rw [h, key d b] at h1
  cases h1
  exact ⟨rfl, List.append_cancel_left h⟩

theorem pieces_whole {s u : List Char} (h : Pieces u (utf8 s)) : ∃ t, u = wide t := by
  induction s generalizing u with
  | nil =>
    generalize e : utf8 [] = all at h
    cases h with
    | nil => exact ⟨[], rfl⟩
    | raw x h => cases e
    | escape he x h =>
      have := congrArg List.length e
      simp only [utf8, List.flatMap_nil, List.length_nil, List.length_append, String.length_utf8EncodeChar] at this
      have := x.utf8Size_pos
      omega
  | cons c s ih =>
    generalize e : utf8 (c :: s) = all at h
    rw [utf8, List.flatMap_cons] at e
    cases h with
    | nil =>
      obtain ⟨y, ys, ey, _⟩ := encode_cons c
      rw [ey] at e
      cases e
    | raw x h =>
      obtain ⟨y, ys, ey, hy, hys⟩ := encode_cons c
      rw [ey, List.cons_append] at e
      obtain ⟨rfl, rfl⟩ := List.cons.inj e
      obtain ⟨u', rfl, h'⟩ := pieces_rest hys h
      obtain ⟨t, rfl⟩ := ih h'
      refine ⟨c :: t, ?_⟩
      rw [wide_cons, wideChar, ey]
      rfl
    | escape he x h =>
      obtain ⟨rfl, rfl⟩ := encode_cut e
      obtain ⟨t, rfl⟩ := ih h
      exact ⟨_ ++ t, by rw [wide_append, wide_self he]⟩

theorem Whole.str {cs s rest : List Char} {fuel : Nat} (hn : ∀ c ∈ cs, c.toNat < 256) (h : strBytes fuel [] cs = some (s, rest)) :
    Whole cs rest := by
  obtain ⟨u, bs, rfl, hp, hd⟩ := strBytes_pieces hn h
  rw [List.nil_append] at hd
  rw [← utf8_utf8Decode hd] at hp
  obtain ⟨t, rfl⟩ := pieces_whole hp
  exact Whole.trans ⟨t, rfl⟩ (Whole.one (by decide) _)

theorem Whole.narrow {cs rest : List Char} (h : Whole cs rest) (hn : ∀ c ∈ cs, c.toNat < 256) : ∀ c ∈ rest, c.toNat < 256 := by
  obtain ⟨t, rfl⟩ := h
  exact fun c hc => hn c (by simp [hc])

theorem Whole.ident {x cs rest : List Char} (h : SerdeJson.ident x cs = some rest) (hx : ∀ c ∈ x, c.toNat < 128) : Whole cs rest := by
  rw [ident_sound h]
  exact Whole.ascii hx _

theorem Whole.colon {cs rest : List Char} (h : SerdeJson.colon cs = some rest) : Whole cs rest := by
  obtain ⟨w, hw, rfl⟩ := colon_sound h
  exact (Whole.ascii (blank_ascii hw) _).trans (Whole.one (by decide) _)

theorem value_whole (fuel : Nat) :
    (∀ D cs j rest, (∀ c ∈ cs, c.toNat < 256) → valueBytes fuel D cs = some (j, rest) → Whole cs rest) ∧
    (∀ D first cs vs rest, (∀ c ∈ cs, c.toNat < 256) → elementsBytes fuel D first cs = some (vs, rest) → Whole cs rest) ∧
    (∀ D first cs vs rest, (∀ c ∈ cs, c.toNat < 256) → entriesBytes fuel D first cs = some (vs, rest) → Whole cs rest) := by
  induction fuel with
  | zero => exact ⟨nofun, nofun, nofun⟩
  | succ fuel ih =>
    obtain ⟨ihv, ihe, iho⟩ := ih
    refine ⟨fun D cs j rest hn h => ?_, fun D first cs vs rest hn h => ?_, fun D first cs vs rest hn h => ?_⟩
    · rw [valueBytes] at h
      split at h
      · cases h
      · rename_i c r hs
        have h0 := Whole.skip hs
        have hn0 := h0.narrow hn
        have hr : ∀ x ∈ r, x.toNat < 256 := fun x hx => hn0 x (by simp [hx])
        refine h0.trans ?_
        split_ifs at h with h1 h2 h3 h4 h5 h6 h7 h8 h9 h10
        · obtain ⟨r', hr', e⟩ := Option.map_eq_some_iff.mp h
          cases e
          rw [h1]
          exact (Whole.one (by decide) _).trans (Whole.ident hr' (by decide))
        · obtain ⟨r', hr', e⟩ := Option.map_eq_some_iff.mp h
          cases e
          rw [h2]
          exact (Whole.one (by decide) _).trans (Whole.ident hr' (by decide))
        · obtain ⟨r', hr', e⟩ := Option.map_eq_some_iff.mp h
          cases e
          rw [h3]
          exact (Whole.one (by decide) _).trans (Whole.ident hr' (by decide))
        · obtain ⟨r', hr', e⟩ := Option.map_eq_some_iff.mp h
          cases e
          rw [h4]
          exact (Whole.one (by decide) _).trans (Whole.number hr')
        · obtain ⟨r', hr', e⟩ := Option.map_eq_some_iff.mp h
          cases e
          exact Whole.number hr'
        · obtain ⟨r', hr', e⟩ := Option.map_eq_some_iff.mp h
          cases e
          rw [h6]
          exact (Whole.one (by decide) _).trans (Whole.str hr hr')
        · obtain ⟨r', hr', e⟩ := Option.map_eq_some_iff.mp h
          cases e
          rw [h7]
          exact (Whole.one (by decide) _).trans (ihe _ _ _ _ _ hr hr')
        · obtain ⟨r', hr', e⟩ := Option.map_eq_some_iff.mp h
          cases e
          rw [h9]
          exact (Whole.one (by decide) _).trans (iho _ _ _ _ _ hr hr')
    · have next : ∀ start : List Char, (∀ x ∈ start, x.toNat < 256) →
          (match valueBytes fuel D start with
            | none => none
            | some (v, cs) => (elementsBytes fuel D false cs).map fun r => (v :: r.1, r.2) : Option (List SJValue × List Char)) =
              some (vs, rest) → Whole start rest := by
        intro start hns h
        split at h
        · cases h
        · rename_i v cs' hv
          have hv' := ihv _ _ _ _ hns hv
          obtain ⟨r', hr', e⟩ := Option.map_eq_some_iff.mp h
          cases e
          exact hv'.trans (ihe _ _ _ _ _ (hv'.narrow hns) hr')
      rw [elementsBytes] at h
      cases hs : skip cs with
      | nil =>
        rw [hs] at h
        cases h
      | cons c r =>
        rw [hs] at h
        have h0 := Whole.skip hs
        have hn0 := h0.narrow hn
        refine h0.trans ?_
        simp only at h
        by_cases h1 : c = ']'
        · rw [if_pos h1] at h
          cases h
          rw [h1]
          exact Whole.one (by decide) _
        · rw [if_neg h1] at h
          cases first with
          | true =>
            simp only [if_true] at h
            exact next _ hn0 h
          | false =>
            simp only [Bool.false_eq_true, if_false] at h
            by_cases h2 : c = ','
            · simp only [h2, if_true] at h
              rw [h2]
              refine (Whole.one (by decide) _).trans ?_
              cases hs' : skip r with
              | nil =>
                rw [hs'] at h
                cases h
              | cons c' r' =>
                rw [hs'] at h
                simp only at h
                have h3 := Whole.skip hs'
                refine h3.trans ?_
                by_cases h4 : c' = ']'
                · simp only [h4, if_true] at h
                  cases h
                · simp only [h4, if_false] at h
                  exact next _ (h3.narrow fun x hx => hn0 x (by simp [hx])) h
            · simp only [h2, if_false] at h
              cases h
    · have next : ∀ start : List Char, (∀ x ∈ start, x.toNat < 256) →
          (match (some start : Option (List Char)) with
            | none => none
            | some [] => none
            | some (c :: cs) =>
              if c = '"' then
                match strBytes (cs.length + 1) [] cs with
                | none => none
                | some (k, cs) =>
                  match colon cs with
                  | none => none
                  | some cs =>
                    match valueBytes fuel D cs with
                    | none => none
                    | some (v, cs) => (entriesBytes fuel D false cs).map fun r => ((k, v) :: r.1, r.2)
              else none : Option (List (List Char × SJValue) × List Char)) = some (vs, rest) → Whole start rest := by
        intro start hns h
        cases start with
        | nil => cases h
        | cons c cs =>
          simp only at h
          by_cases h4 : c = '"'
          · rw [if_pos h4] at h
            rw [h4] at hns ⊢
            refine (Whole.one (by decide) _).trans ?_
            have hns' : ∀ x ∈ cs, x.toNat < 256 := fun x hx => hns x (by simp [hx])
            split at h
            · cases h
            · rename_i k cs1 hk
              have hk' := Whole.str hns' hk
              refine hk'.trans ?_
              have hn1 := hk'.narrow hns'
              split at h
              · cases h
              · rename_i cs2 hc
                have hc' := Whole.colon hc
                refine hc'.trans ?_
                have hn2 := hc'.narrow hn1
                split at h
                · cases h
                · rename_i v cs3 hv
                  have hv' := ihv _ _ _ _ hn2 hv
                  obtain ⟨r', hr', e⟩ := Option.map_eq_some_iff.mp h
                  cases e
                  exact hv'.trans (iho _ _ _ _ _ (hv'.narrow hn2) hr')
          · rw [if_neg h4] at h
            cases h
      rw [entriesBytes] at h
      cases hs : skip cs with
      | nil =>
        rw [hs] at h
        cases h
      | cons c r =>
        rw [hs] at h
        have h0 := Whole.skip hs
        have hn0 := h0.narrow hn
        refine h0.trans ?_
        simp only at h
        by_cases h1 : c = '}'
        · rw [if_pos h1] at h
          cases h
          rw [h1]
          exact Whole.one (by decide) _
        · rw [if_neg h1] at h
          cases first with
          | true =>
            simp only [if_true] at h
            exact next _ hn0 h
          | false =>
            simp only [Bool.false_eq_true, if_false] at h
            by_cases h2 : c = ','
            · simp only [h2, if_true] at h
              rw [h2]
              refine (Whole.one (by decide) _).trans ((Whole.skip rfl).trans ?_)
              exact next _ ((Whole.skip rfl).narrow fun x hx => hn0 x (by simp [hx])) h
            · simp only [h2, if_false] at h
              cases h

/-! ## Enough fuel is as good as any more -/

theorem value_shorter {fuel D : Nat} {cs rest : List Char} {j : SJValue} (h : value fuel D cs = some (j, rest)) :
    rest.length < cs.length := by
  obtain ⟨w, t, _, rfl, hd⟩ := (value_sound (N := fun t _ => t ≠ []) (fun pos cs n rest h => by
    obtain ⟨int, h1, ⟨_, _, rfl⟩ | ⟨t, frac, e, r, h2, rfl, _⟩⟩ := number_shape h
    · refine ⟨int, rfl, ?_⟩
      cases pos
      · simp
      · exact h1.1.1
    · refine ⟨t, rfl, ?_⟩
      cases pos
      · simp
      · exact (real_alphabet h2).1) fuel).1 D cs j rest h
  have : t ≠ [] := by
    generalize D - 1 = d at hd
    cases hd with
    | number d hne => exact hne
    | null | true | false => exact (by decide)
    | string => simp
    | emptyArray => simp
    | array => simp
    | emptyObject => simp
    | object => simp
  have := List.length_pos_iff.mpr this
  simp only [List.length_append]
  omega

theorem skip_shorter (cs : List Char) : (skip cs).length ≤ cs.length := by
  obtain ⟨w, _, e⟩ := skip_split cs
  have := congrArg List.length e
  rw [List.length_append] at this
  omega

theorem value_fuel (fuel : Nat) :
    (∀ D cs, 2 * cs.length + 1 ≤ fuel → value (fuel + 1) D cs = value fuel D cs) ∧
    (∀ D first cs, 2 * cs.length + 2 ≤ fuel → elements (fuel + 1) D first cs = elements fuel D first cs) ∧
    (∀ D first cs, 2 * cs.length + 2 ≤ fuel → entries (fuel + 1) D first cs = entries fuel D first cs) := by
  induction fuel with
  | zero => exact ⟨fun _ _ h => by omega, fun _ _ _ h => by omega, fun _ _ _ h => by omega⟩
  | succ fuel ih =>
    obtain ⟨ihv, ihe, iho⟩ := ih
    refine ⟨fun D cs hf => ?_, fun D first cs hf => ?_, fun D first cs hf => ?_⟩
    · conv_lhs => rw [value]
      conv_rhs => rw [value]
      have hl := skip_shorter cs
      cases hs : skip cs with
      | nil => rfl
      | cons c rest =>
        rw [hs, List.length_cons] at hl
        simp only
        rw [ihe _ _ rest (by omega), iho _ _ rest (by omega)]
    · have next : ∀ start : List Char, start.length ≤ cs.length →
          (match value (fuel + 1) D start with
            | none => none
            | some (v, cs) => (elements (fuel + 1) D false cs).map fun r => (v :: r.1, r.2) : Option (List SJValue × List Char)) =
          (match value fuel D start with
            | none => none
            | some (v, cs) => (elements fuel D false cs).map fun r => (v :: r.1, r.2) : Option (List SJValue × List Char)) := by
        intro start hst
        rw [ihv _ start (by omega)]
        cases hv : value fuel D start with
        | none => rfl
        | some a =>
          have := value_shorter (j := a.1) (rest := a.2) hv
          simp only
          rw [ihe _ _ a.2 (by omega)]
      conv_lhs => rw [elements]
      conv_rhs => rw [elements]
      have hl := skip_shorter cs
      cases hs : skip cs with
      | nil => rfl
      | cons c rest =>
        rw [hs] at hl
        simp only
        by_cases h1 : c = ']'
        · rw [if_pos h1, if_pos h1]
        · rw [if_neg h1, if_neg h1]
          cases first with
          | true =>
            simp only [if_true]
            exact next _ hl
          | false =>
            simp only [Bool.false_eq_true, if_false]
            by_cases h2 : c = ','
            · simp only [h2, if_true]
              have hl' := skip_shorter rest
              cases hs' : skip rest with
              | nil => rfl
              | cons c' r' =>
                rw [hs'] at hl'
                simp only
                by_cases h4 : c' = ']'
                · simp only [h4, if_true]
                · simp only [h4, if_false]
                  exact next _ (by simp at hl hl' ⊢; omega)
            · simp only [h2, if_false]
    · have next : ∀ start : List Char, start.length ≤ cs.length →
          (match (some start : Option (List Char)) with
            | none => none
            | some [] => none
            | some (c :: cs) =>
              if c = '"' then
                match str (cs.length + 1) cs with
                | none => none
                | some (k, cs) =>
                  match colon cs with
                  | none => none
                  | some cs =>
                    match value (fuel + 1) D cs with
                    | none => none
                    | some (v, cs) => (entries (fuel + 1) D false cs).map fun r => ((k, v) :: r.1, r.2)
              else none : Option (List (List Char × SJValue) × List Char)) =
          (match (some start : Option (List Char)) with
            | none => none
            | some [] => none
            | some (c :: cs) =>
              if c = '"' then
                match str (cs.length + 1) cs with
                | none => none
                | some (k, cs) =>
                  match colon cs with
                  | none => none
                  | some cs =>
                    match value fuel D cs with
                    | none => none
                    | some (v, cs) => (entries fuel D false cs).map fun r => ((k, v) :: r.1, r.2)
              else none : Option (List (List Char × SJValue) × List Char)) := by
        intro start hst
        cases start with
        | nil => rfl
        | cons c r =>
          simp only
          by_cases h4 : c = '"'
          · rw [if_pos h4, if_pos h4]
            cases hk : str (r.length + 1) r with
            | none => rfl
            | some a =>
              obtain ⟨t, et, _⟩ := str_sound (s := a.1) (rest := a.2) hk
              have l1 := congrArg List.length et
              simp only [List.length_append, List.length_cons] at l1 hst
              simp only
              cases hc : colon a.2 with
              | none => rfl
              | some r2 =>
                obtain ⟨w, _, ew⟩ := colon_sound hc
                have l2 := congrArg List.length ew
                simp only [List.length_append, List.length_cons] at l2
                simp only
                rw [ihv _ r2 (by omega)]
                cases hv : value fuel D r2 with
                | none => rfl
                | some b =>
                  have := value_shorter (j := b.1) (rest := b.2) hv
                  simp only
                  rw [iho _ _ b.2 (by omega)]
          · rw [if_neg h4, if_neg h4]
      conv_lhs => rw [entries]
      conv_rhs => rw [entries]
      have hl := skip_shorter cs
      cases hs : skip cs with
      | nil => rfl
      | cons c rest =>
        rw [hs] at hl
        simp only
        by_cases h1 : c = '}'
        · rw [if_pos h1, if_pos h1]
        · rw [if_neg h1, if_neg h1]
          cases first with
          | true =>
            simp only [if_true]
            exact next _ hl
          | false =>
            simp only [Bool.false_eq_true, if_false]
            by_cases h2 : c = ','
            · simp only [h2, if_true]
              have hl' := skip_shorter rest
              exact next _ (by simp at hl; omega)
            · simp only [h2, if_false]

theorem value_more {D n m : Nat} {cs : List Char} (h : 2 * cs.length + 1 ≤ n) (hm : n ≤ m) : value m D cs = value n D cs := by
  induction m, hm using Nat.le_induction with
  | base => rfl
  | succ m hm ih => rw [(value_fuel m).1 D cs (by omega), ih]

end SerdeJson

end Souris
