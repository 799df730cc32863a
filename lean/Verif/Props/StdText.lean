import Verif.Lemmas.StdFloatPrint
import Verif.Lemmas.StdIpPrint
import Verif.Props.Display
import Verif.Props.MouseEntry
import Verif.Props.ChronoUse

/-! # Floats and addresses as text (C87), and what follows for printed and typed values (C66, C78) -/

namespace Souris

open StdText Mouse

/-! ## C87: floats -/

/-- C87: doubles are printed as the shortest decimal that is rounded to them, without an exponent. -/
theorem C87_print_double (x : UInt64) : kind64.Printed x.toNat (f64Text x) := f64Text_printed x

/-- C87: singles are printed as the shortest decimal that is rounded to them, without an exponent. -/
theorem C87_print_single (x : UInt32) : kind32.Printed x.toNat (f32Text x) := f32Text_printed x

/-- C87, partial: a text of up to 65000 characters is accepted for a double exactly if it is a number or one of
the words for infinity and not-a-number, and is rounded to the nearest double. Missing: longer texts, see
`C87_refuted_long`. -/
theorem C87_read_double_partial {t : List Char} (hl : t.length ≤ 65000) {x : UInt64} : f64Parse t = some x ↔ Typed64 t x := f64Parse_iff hl

namespace StdText

theorem nan64_iff (x : UInt64) : Value.IsNan64 x ↔ kind64.inf < x.toNat % kind64.sign := by
  have hx := x.toNat_lt
  have e1 : kind64.inf = 2047 * 2 ^ 52 := rfl
  have e2 : kind64.sign = 2 ^ 63 := rfl
  rw [e1, e2]
  unfold Value.IsNan64
  omega

theorem nan32_iff (x : UInt32) : Value.IsNan32 x ↔ kind32.inf < x.toNat % kind32.sign := by
  have hx := x.toNat_lt
  have e1 : kind32.inf = 255 * 2 ^ 23 := rfl
  have e2 : kind32.sign = 2 ^ 31 := rfl
  rw [e1, e2]
  unfold Value.IsNan32
  omega

theorem f64_reread (x : UInt64) : (Value.IsNan64 x ∧ f64Parse (f64Text x) = some 0x7FF8000000000000) ∨
    (¬ Value.IsNan64 x ∧ f64Parse (f64Text x) = some x) := by
  rw [nan64_iff]
  unfold f64Parse
  rcases printed_parse (D := dec64) link64 (f64Text_printed x) with ⟨h1, h2⟩ | ⟨h1, h2⟩
  · left
    refine ⟨h1, ?_⟩
    rw [show parseFloat f64Format (f64Text x) = _ from h2]
    rfl
  · right
    refine ⟨by omega, ?_⟩
    rw [show parseFloat f64Format (f64Text x) = _ from h2]
    simp

end StdText

/-- C87: the text of a double, typed in again, is the same double; that of a not-a-number is one. -/
theorem C87_reread_double (x : UInt64) : ∃ y, f64Parse (f64Text x) = some y ∧ (¬ Value.IsNan64 x → y = x) ∧ (Value.IsNan64 x → Value.IsNan64 y) := by
  rcases f64_reread x with ⟨h1, h2⟩ | ⟨h1, h2⟩
  · exact ⟨_, h2, fun h => absurd h1 h, fun _ => by unfold Value.IsNan64; decide⟩
  · exact ⟨_, h2, fun _ => rfl, fun h => absurd h h1⟩

/-- C87: singles that are printed alike are the same, or not-a-numbers. -/
theorem C87_single_text {x y : UInt32} (h : f32Text x = f32Text y) : x = y ∨ Value.IsNan32 x ∧ Value.IsNan32 y := by
  rw [nan32_iff, nan32_iff]
  rcases printed_parse (D := dec32) link32 (f32Text_printed x) with ⟨h1, h2⟩ | ⟨h1, h2⟩ <;>
    rcases printed_parse (D := dec32) link32 (f32Text_printed y) with ⟨k1, k2⟩ | ⟨k1, k2⟩ <;> rw [← h, h2, Option.some.injEq] at k2
  · exact .inr ⟨h1, k1⟩
  · exfalso
    have e1 : kind32.inf = 255 * 2 ^ 23 := rfl
    have e2 : kind32.sign = 2 ^ 31 := rfl
    have e3 : dec32.fmt.inf + 2 ^ (dec32.fmt.mant - 1) = 255 * 2 ^ 23 + 2 ^ 22 := rfl
    rw [e3] at k2
    rw [e1, e2] at k1
    omega
  · exfalso
    have e1 : kind32.inf = 255 * 2 ^ 23 := rfl
    have e2 : kind32.sign = 2 ^ 31 := rfl
    have e3 : dec32.fmt.inf + 2 ^ (dec32.fmt.mant - 1) = 255 * 2 ^ 23 + 2 ^ 22 := rfl
    rw [e3] at k2
    rw [e1, e2] at h1
    omega
  · exact .inl (UInt32.toNat_inj.mp k2)

/-- C87: doubles that are printed alike are the same, or not-a-numbers. -/
theorem C87_double_text {x y : UInt64} (h : f64Text x = f64Text y) : x = y ∨ Value.IsNan64 x ∧ Value.IsNan64 y := by
  rcases f64_reread x with ⟨h1, h2⟩ | ⟨h1, h2⟩ <;> rcases f64_reread y with ⟨k1, k2⟩ | ⟨k1, k2⟩ <;> rw [← h, h2, Option.some.injEq] at k2
  · exact .inr ⟨h1, k1⟩
  · exact absurd (by rw [← k2]; unfold Value.IsNan64; decide) k1
  · exact absurd (by rw [k2]; unfold Value.IsNan64; decide) h1
  · exact .inl k2

/-- C87 is violated: very long texts can be read wrong: here 0.1, with many zeros and an exponent that makes up
for them, as 0. -/
theorem C87_refuted_long : ∃ t, Typed64 t 0x3FB999999999999A ∧ f64Parse t = some 0 := by
  have hdig : ∀ n : Nat, JsonDigits (['0'] ++ (List.replicate n '0' ++ ['1'])) := by
    intro n
    refine ⟨by simp, fun c hc => ?_⟩
    simp only [List.mem_append, List.mem_singleton] at hc
    rcases hc with rfl | hc | rfl
    · decide
    · exact SerdeJson.zeros_digits _ c hc
    · decide
  have hval : ∀ n : Nat, digitsValue (['0'] ++ (List.replicate n '0' ++ ['1'])) = 1 := by
    intro n
    rw [SerdeJson.digitsValue_eq, SerdeJson.dig_append, SerdeJson.dig_append, show SerdeJson.dig 0 ['0'] = 0 by decide, SerdeJson.dig_zeros, Nat.zero_mul]
    decide
  have hexp : JsonExponent ['e', '6', '5', '5', '3', '6', '0'] 655360 := by
    have := JsonExponent.plain (c := 'e') (ds := ['6', '5', '5', '3', '6', '0']) (.inl rfl) ⟨by simp, by decide⟩
    rwa [show digitsValue ['6', '5', '5', '3', '6', '0'] = 655360 by decide] at this
  have hex : exponent ['6', '5', '5', '3', '6', '0'] = some 65536 := by decide
  obtain ⟨n, hn⟩ : ∃ n : Nat, n = 655360 := ⟨_, rfl⟩
  have hreal : StdReal (['0'] ++ '.' :: (List.replicate n '0' ++ ['1']) ++ ['e', '6', '5', '5', '3', '6', '0']) ['0']
      (List.replicate n '0' ++ ['1']) 655360 := ⟨_, _, rfl, hdig n, .inr rfl, hexp⟩
  have hlen : ((List.replicate n '0' ++ ['1']).length : Int) = n + 1 := by simp
  refine ⟨_, .plain (b := 0x3FB999999999999A) (.number hreal ?_), ?_⟩
  · unfold realValue
    rw [hval, hlen, hn, show (655360 : Int) - ((655360 : Nat) + 1) = -1 by norm_num]
    exact (rounds_iff link64 _ 1 (-1)).mpr (by decide +kernel)
  · have h1 : digitsIn (['0'] ++ '.' :: (List.replicate n '0' ++ ['1']) ++ ['e', '6', '5', '5', '3', '6', '0']) =
        (['0'], '.' :: (List.replicate n '0' ++ ['1']) ++ ['e', '6', '5', '5', '3', '6', '0']) :=
      digitsIn_of (ds := ['0']) (by decide) (.cons (by decide))
    have h2 : fracIn ('.' :: (List.replicate n '0' ++ ['1']) ++ ['e', '6', '5', '5', '3', '6', '0']) =
        (List.replicate n '0' ++ ['1'], ['e', '6', '5', '5', '3', '6', '0']) :=
      digitsIn_of (ds := List.replicate n '0' ++ ['1']) (fun c hc => (hdig n).2 c (by simp at hc ⊢; tauto)) (.cons (by decide))
    have hp := parseNumber_eq h1 h2
    rw [if_neg (by simp)] at hp
    simp only [true_or, if_true, hex, Option.map_some] at hp
    rw [digitsNat_eq (hdig n).2, hval, hlen, hn, show (65536 : Int) - ((655360 : Nat) + 1) = -589825 by norm_num] at hp
    unfold f64Parse
    have h0 : parseFloat f64Format (['0'] ++ '.' :: (List.replicate n '0' ++ ['1']) ++ ['e', '6', '5', '5', '3', '6', '0']) = some 0 := by
      rw [List.append_assoc, List.singleton_append, parseFloat_digit (by decide)]
      rw [List.append_assoc, List.singleton_append] at hp
      unfold parseUnsigned
      rw [hn] at *
      rw [hp]
      simp only
      have hs : roundTo f64Format 1 (-536) = 0 := by decide +kernel
      have := roundTo_mono (F := f64Format) (d := 1) (d' := 1) (k := -589825) (k' := -536) (by
        rw [Nat.cast_one, one_mul, one_mul]
        exact zpow_le_zpow_right₀ (by norm_num) (by norm_num))
      rw [hs] at this
      rw [Nat.le_zero.mp this]
    rw [h0]
    rfl

/-! ## C87: addresses -/

/-- C87: a text is accepted for an IPv4 address exactly if it is four numbers up to 255, without superfluous
zeros, with points in between; and addresses are printed so. -/
theorem C87_ipv4 {t : List Char} {a b c d : UInt8} :
    (ip4Parse t = some (a, b, c, d) ↔ DottedText t a b c d) ∧ DottedText (ip4Text a b c d) a b c d :=
  ⟨ip4Parse_iff, ip4Text_dotted a b c d⟩

/-- C87: a text is accepted for an IPv6 address exactly if it is one of the forms of RFC 4291. -/
theorem C87_read_ipv6 {t : List Char} {a b c d e f g h : UInt16} :
    ip6Parse t = some (a, b, c, d, e, f, g, h) ↔ Ip6Written t [a, b, c, d, e, f, g, h] := ip6Parse_iff

/-- C87: IPv6 addresses are printed as RFC 5952 recommends. -/
theorem C87_print_ipv6 (a b c d e f g h : UInt16) : Ip6Printed (ip6Text [a, b, c, d, e, f, g, h]) [a, b, c, d, e, f, g, h] :=
  ip6Text_printed rfl

/-- C87: an address that was printed is the same when it is typed in again. -/
theorem C87_reread_ipv6 (a b c d e f g h : UInt16) :
    ip6Parse (ip6Text [a, b, c, d, e, f, g, h]) = some (a, b, c, d, e, f, g, h) :=
  ip6Parse_iff.mpr (printed_written (ip6Text_printed rfl))

/-! ## C78: printed values -/

/-- What std prints tells floats and addresses apart. -/
theorem std_faithful (sh : Shows) : sh.withStd.Faithful where
  f32 := fun _ _ h => C87_single_text h
  f64 := fun _ _ h => C87_double_text h
  f64_space := by
    intro x h
    have := printed_chars (f64Text_printed x) ' ' h
    revert this
    decide
  ipv6 := by
    intro a b ha hb h
    have h : ip6Text a = ip6Text b := h
    have h1 := ip6_reread ha
    rw [h, ip6_reread hb, Option.some.injEq] at h1
    exact h1.symm

/-- C78, partial: for every type but arrays, maps and JSON, the text of a value tells which value of this type it
is. Nothing is assumed about std and chrono. Missing: arrays and maps; JSON; leap seconds elsewhere than in second
59, which are printed as others (`C86_refuted_leap`). -/
theorem C78_std_partial {env : Env} (hc : env.Chrono) (sh : Shows) {v v' : Value} (hv : v.Scalar) (hv' : v'.Scalar) (ht : v.asTy = v'.asTy)
    (hj : v.asTy ≠ .json) (hts : ∀ t, v = .timestamp t ∨ v' = .timestamp t → t.Valid ∧ t.LeapAt59)
    (h : Value.display env sh.withStd v = Value.display env sh.withStd v') : Value.Alike v v' := by
  refine C78_same_type_partial (std_faithful sh) hv hv' ht (fun j k e => absurd (by rw [e]; rfl) hj) (fun t u e e' h => ?_) h
  rw [hc.print] at h
  exact C86_different_partial (hts t (.inl e)).1 (hts t (.inl e)).2 (hts u (.inr e')).1 (hts u (.inr e')).2 h

/-- C78 is violated: the double and the single 1.0 and the integer 1 are all printed as `1`, and JSON null as
null. Nothing is assumed about std and serde_json. -/
theorem C78_refuted_std {env : Env} (hs : env.Serde) (sh : Shows) :
    Value.display env sh.withStd (.double 0x3FF0000000000000) = ['1'] ∧
    Value.display env sh.withStd (.single 0x3F800000) = ['1'] ∧
    Value.display env sh.withStd (.integer (Integer.ofSigned 4 1)) = ['1'] ∧
    Value.display env sh.withStd (.json .null) = Value.display env sh.withStd .null := by
  refine ⟨?_, ?_, ?_, ?_⟩
  · simp only [Value.display, Shows.withStd]
    decide +kernel
  · simp only [Value.display, Shows.withStd]
    decide +kernel
  · simp only [Value.display]
    decide +kernel
  · simp only [Value.display, hs.print]
    decide +kernel

/-! ## What was printed, typed in -/

/-- C87: the text that a double or an address is printed as, typed in as this type, enters the same value. -/
theorem C87_reenter (env : Env) (sh : Shows) (T : Term) (rest : List Answer) :
    (∀ x, ¬ Value.IsNan64 x →
      value env T.withStd (.pick 9 :: .line (Value.display env sh.withStd (.double x)) :: rest) = .ok (.double x, rest)) ∧
    (∀ a b c d, value env T.withStd (.pick 13 :: .line (Value.display env sh.withStd (.ipv4 a b c d)) :: rest) =
      .ok (.ipv4 a b c d, rest)) ∧
    (∀ a b c d e f g h, value env T.withStd (.pick 14 :: .line (Value.display env sh.withStd (.ipv6 a b c d e f g h)) :: rest) =
      .ok (.ipv6 a b c d e f g h, rest)) := by
  have ne : ∀ {α : Type} {p : List Char → Option α} {s : List Char} {a : α}, p [] = none → p s = some a → s ≠ [] := by
    rintro α p s a h0 h rfl
    rw [h0] at h
    cases h
  refine ⟨fun x hx => ?_, fun a b c d => ?_, fun a b c d e f g h => ?_⟩
  · have hr : f64Parse (f64Text x) = some x := ((f64_reread x).resolve_left fun h => hx h.1).2
    exact (C65_entry_partial _ _ _ _ _).mpr ⟨[_, .line _], rfl, .double (typed_line (ne rfl hr) hr)⟩
  · have hr : ip4Parse (ip4Text a b c d) = some (a, b, c, d) := ip4Parse_iff.mpr (ip4Text_dotted a b c d)
    exact (C65_entry_partial _ _ _ _ _).mpr ⟨[_, .line _], rfl, .ipv4 (typed_line (ne rfl hr) hr)⟩
  · have hr := C87_reread_ipv6 a b c d e f g h
    exact (C65_entry_partial _ _ _ _ _).mpr ⟨[_, .line _], rfl, .ipv6 (typed_line (ne rfl hr) hr)⟩

/-! ## Examples -/

-- no exponent, however large
example : f64Text 0x3FB999999999999A = "0.1".toList ∧ f64Text 0x8000000000000000 = "-0".toList ∧
    f64Text 0x444B1AE4D6E2EF50 = "1000000000000000000000".toList := by decide +kernel

-- 1125899906842624.25 is halfway between two decimals of 17 digits: the larger one
example : f64Text 0x4310000000000001 = "1125899906842624.3".toList := by decide +kernel

example : f32Text 0x7F7FFFFF = "340282350000000000000000000000000000000".toList := by decide +kernel

-- the smallest double; a sign, no digits in front of the point; a word; not numbers
example : f64Parse "4.9e-324".toList = some 1 ∧ f64Parse "+.5E1".toList = some 0x4014000000000000 ∧ f64Parse "-iNf".toList = some 0xFFF0000000000000 ∧
    f64Parse "1e".toList = none ∧ f64Parse ".".toList = none := by decide +kernel

example : Typed64 "-2.50e+1".toList 0xC039000000000000 := by
  have h := (C87_read_double_partial (t := "-2.50e+1".toList) (by decide) (x := 0xC039000000000000)).mp (by decide +kernel)
  exact h

-- the first one of two runs of the same length is left out
example : ip6Text [1, 0, 0, 2, 0, 0, 3, 0xab] = "1::2:0:0:3:ab".toList := by decide +kernel

example : ip6Text [0, 0, 0, 0, 0, 0xFFFF, 0xC0A8, 0x0101] = "::ffff:192.168.1.1".toList := by decide +kernel

example : ip6Groups "1:2::3.4.5.6".toList = some [1, 2, 0, 0, 0, 0, 0x304, 0x506] ∧ ip6Groups "1:2:3:4:5:6:7::".toList = some [1, 2, 3, 4, 5, 6, 7, 0] ∧
    ip6Groups "1::2::3".toList = none ∧ ip6Groups "00001::".toList = none := by decide +kernel

example : ip4Parse "192.168.0.1".toList = some (192, 168, 0, 1) ∧ ip4Parse "192.168.00.1".toList = none ∧ ip4Parse "256.0.0.1".toList = none := by
  decide +kernel

-- values to which `C78_std_partial` applies
example : ∃ sh : Shows, (Value.single 0x3DCCCCCD).Scalar ∧ Value.display chronoEnv sh.withStd (.single 0x3DCCCCCD) = "0.1".toList := by
  refine ⟨⟨fun _ => true, fun _ => [], fun _ => [], fun _ => [], fun _ => []⟩, ⟨by decide, by decide, (fun i h => by cases h), (fun a b h => by cases h)⟩, ?_⟩
  simp only [Value.display, Shows.withStd]
  decide +kernel

end Souris
