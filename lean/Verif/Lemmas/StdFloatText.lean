import Verif.Lemmas.StdRound
import Verif.Lemmas.ChronoText

/-! # Floats as text -/

namespace Souris

namespace StdText

open FloatFormat

/-! ## Digits -/

theorem isDigit_iff {c : Char} : isDigit c = true ↔ c ∈ decimalDigits := by
  unfold isDigit
  rw [decide_eq_true_eq]
  constructor
  · rintro ⟨h1, h2⟩
    have : c.toNat = 48 ∨ c.toNat = 49 ∨ c.toNat = 50 ∨ c.toNat = 51 ∨ c.toNat = 52 ∨ c.toNat = 53 ∨ c.toNat = 54 ∨
        c.toNat = 55 ∨ c.toNat = 56 ∨ c.toNat = 57 := by omega
    have inj : ∀ d : Char, c.toNat = d.toNat → c = d := fun d h => Char.toNat_inj.mp h
    rcases this with h | h | h | h | h | h | h | h | h | h
    · rw [inj '0' h]; decide
    · rw [inj '1' h]; decide
    · rw [inj '2' h]; decide
    · rw [inj '3' h]; decide
    · rw [inj '4' h]; decide
    · rw [inj '5' h]; decide
    · rw [inj '6' h]; decide
    · rw [inj '7' h]; decide
    · rw [inj '8' h]; decide
    · rw [inj '9' h]; decide
  · have : ∀ c ∈ decimalDigits, 48 ≤ c.toNat ∧ c.toNat ≤ 57 := by decide
    exact this c

theorem digit_nat {c : Char} (h : c ∈ decimalDigits) : c.toNat - 48 = decimalDigits.idxOf c := by
  have : ∀ c ∈ decimalDigits, c.toNat - 48 = decimalDigits.idxOf c := by decide
  exact this c h

theorem digitsNat_eq {ds : List Char} (h : ∀ c ∈ ds, c ∈ decimalDigits) : digitsNat ds = digitsValue ds := by
  unfold digitsNat digitsValue
  generalize 0 = acc
  induction ds generalizing acc with
  | nil => rfl
  | cons c ds ih =>
    rw [List.foldl_cons, List.foldl_cons, digit_nat (h c (by simp))]
    exact ih (fun x hx => h x (by simp [hx])) _

theorem digitsIn_of {ds r : List Char} (h : ∀ c ∈ ds, c ∈ decimalDigits) (hr : NoDigit r) : digitsIn (ds ++ r) = (ds, r) := by
  have hall : ∀ c ∈ ds, isDigit c = true := fun c hc => isDigit_iff.mpr (h c hc)
  unfold digitsIn
  have h1 : r.takeWhile isDigit = [] ∧ r.dropWhile isDigit = r := by
    cases r with
    | nil => exact ⟨rfl, rfl⟩
    | cons c t =>
      have : ¬ isDigit c = true := fun h => hr c t rfl (isDigit_iff.mp h)
      simp [this]
  rw [List.takeWhile_append_of_pos hall, List.dropWhile_append_of_pos hall, h1.1, h1.2, List.append_nil]

theorem digitsIn_spec (cs : List Char) : ∃ ds r, digitsIn cs = (ds, r) ∧ cs = ds ++ r ∧ (∀ c ∈ ds, c ∈ decimalDigits) ∧ NoDigit r := by
  refine ⟨_, _, rfl, List.takeWhile_append_dropWhile.symm, fun c hc => ?_, fun c t e hc => ?_⟩
  · exact isDigit_iff.mp (List.mem_takeWhile_imp hc)
  · have h1 := isDigit_iff.mpr hc
    have h2 := List.head_dropWhile_not (p := isDigit) (l := cs) (by rw [e]; simp)
    simp only [e, List.head_cons] at h2
    rw [h1] at h2
    exact absurd h2 (by decide)

/-! ## Exponents -/

theorem exponentDigits_spec (acc : Nat) {ds : List Char} (h : ∀ c ∈ ds, c ∈ decimalDigits) :
    exponentDigits acc ds = SerdeJson.dig acc ds ∨ 0x10000 ≤ exponentDigits acc ds ∧ 0x10000 ≤ SerdeJson.dig acc ds := by
  induction ds generalizing acc with
  | nil => exact .inl rfl
  | cons c ds ih =>
    unfold exponentDigits
    rw [SerdeJson.dig_cons, digit_nat (h c (by simp))]
    have ih' := fun acc => ih acc fun x hx => h x (by simp [hx])
    split
    · exact ih' _
    · rename_i hlt
      right
      have stay : ∀ (cs : List Char) (a : Nat), 0x10000 ≤ a → exponentDigits a cs = a := by
        intro cs
        induction cs with
        | nil => intro a _; rfl
        | cons x cs ih =>
          intro a ha
          unfold exponentDigits
          rw [if_neg (by omega)]
          exact ih a ha
      rw [stay ds acc (by omega)]
      have := SerdeJson.dig_le (acc * 10 + decimalDigits.idxOf c) ds
      omega

/-- What the exponent is read as, and what it is. -/
structure ExpRead (x e : Int) : Prop where
  same : x = e ∨ (0x10000 ≤ x ∧ 0x10000 ≤ e) ∨ (x ≤ -0x10000 ∧ e ≤ -0x10000)

theorem exponent_sound {cs : List Char} {x : Int} (h : exponent cs = some x) {c : Char} (hc : c = 'e' ∨ c = 'E') :
    ∃ e, JsonExponent (c :: cs) e ∧ ExpRead x e := by
  unfold exponent at h
  have key : ∀ ds : List Char, ds ≠ [] ∧ ds.all isDigit = true → JsonDigits ds ∧
      (exponentDigits 0 ds = digitsValue ds ∨ 0x10000 ≤ exponentDigits 0 ds ∧ 0x10000 ≤ digitsValue ds) := by
    rintro ds ⟨h1, h2⟩
    have hd : ∀ c ∈ ds, c ∈ decimalDigits := fun c hc => isDigit_iff.mp (List.all_eq_true.mp h2 c hc)
    exact ⟨⟨h1, hd⟩, exponentDigits_spec 0 hd⟩
  split at h
  · rename_i neg ds heq
    split at heq <;> obtain ⟨rfl, rfl⟩ := Prod.mk.inj heq
    all_goals
      split at h
      · rename_i hd
        obtain ⟨k1, k2⟩ := key _ hd
        simp only [Option.some.injEq, if_true, Bool.false_eq_true, if_false] at h
        subst h
        first
        | exact ⟨_, .minus hc k1, ⟨by omega⟩⟩
        | exact ⟨_, .plus hc k1, ⟨by omega⟩⟩
        | exact ⟨_, .plain hc k1, ⟨by omega⟩⟩
      · cases h

theorem exponent_complete {cs : List Char} {e : Int} {c : Char} (h : JsonExponent (c :: cs) e) :
    (c = 'e' ∨ c = 'E') ∧ ∃ x, exponent cs = some x ∧ ExpRead x e := by
  have key : ∀ ds : List Char, JsonDigits ds → (ds ≠ [] ∧ ds.all isDigit = true) ∧
      (exponentDigits 0 ds = digitsValue ds ∨ 0x10000 ≤ exponentDigits 0 ds ∧ 0x10000 ≤ digitsValue ds) := by
    rintro ds ⟨h1, hd⟩
    exact ⟨⟨h1, List.all_eq_true.mpr fun c hc => isDigit_iff.mpr (hd c hc)⟩, exponentDigits_spec 0 hd⟩
  cases h with
  | plain hc h =>
    obtain ⟨k1, k2⟩ := key _ h
    refine ⟨hc, exponentDigits 0 cs, ?_, ⟨by omega⟩⟩
    obtain ⟨x, xs, rfl, hx, _⟩ := SerdeJson.digits_cons h
    unfold exponent
    have n1 : x ≠ '-' := fun e => absurd hx (e ▸ by decide)
    have n2 : x ≠ '+' := fun e => absurd hx (e ▸ by decide)
    split
    · rename_i neg ds heq
      split at heq
      · rename_i e; cases e; exact absurd rfl n1
      · rename_i e; cases e; exact absurd rfl n2
      · obtain ⟨rfl, rfl⟩ := Prod.mk.inj heq
        rw [if_pos k1]
        rfl
  | plus hc h =>
    rename_i ds
    obtain ⟨k1, k2⟩ := key _ h
    refine ⟨hc, exponentDigits 0 ds, ?_, ⟨by omega⟩⟩
    unfold exponent
    simp only
    rw [if_pos k1]
    rfl
  | minus hc h =>
    rename_i ds
    obtain ⟨k1, k2⟩ := key _ h
    refine ⟨hc, -(exponentDigits 0 ds : Int), ?_, ⟨by omega⟩⟩
    unfold exponent
    simp only
    rw [if_pos k1]
    rfl

/-! ## Numbers -/

/-- The part behind the point. -/
def fracIn (r : List Char) : List Char × List Char :=
  match r with
  | '.' :: r => digitsIn r
  | r => ([], r)

theorem parseNumber_eq {cs int r frac r' : List Char} (h1 : digitsIn cs = (int, r)) (h2 : fracIn r = (frac, r')) :
    parseNumber cs = if int = [] ∧ frac = [] then none
      else match r' with
        | [] => some (digitsNat (int ++ frac), -(frac.length : Int))
        | c :: r =>
          if c = 'e' ∨ c = 'E' then (exponent r).map fun x => (digitsNat (int ++ frac), x - frac.length)
          else none := by
  have : parseNumber cs = match digitsIn cs with
      | (int, r) => match fracIn r with
        | (frac, r') => if int = [] ∧ frac = [] then none
          else match r' with
            | [] => some (digitsNat (int ++ frac), -(frac.length : Int))
            | c :: r =>
              if c = 'e' ∨ c = 'E' then (exponent r).map fun x => (digitsNat (int ++ frac), x - frac.length)
              else none := rfl
  rw [this, h1]
  show (match fracIn r with
        | (frac, r') => if int = [] ∧ frac = [] then none
          else match r' with
            | [] => some (digitsNat (int ++ frac), -(frac.length : Int))
            | c :: r =>
              if c = 'e' ∨ c = 'E' then (exponent r).map fun x => (digitsNat (int ++ frac), x - frac.length)
              else none) = _
  rw [h2]

theorem fracIn_other {r : List Char} (h : ∀ t, r ≠ '.' :: t) : fracIn r = ([], r) := by
  unfold fracIn
  split
  · exact absurd rfl (h _)
  · rfl

theorem exponent_noDigit {ex : List Char} {e : Int} (h : JsonExponent ex e) : NoDigit ex ∧ ∀ t, ex ≠ '.' :: t := by
  cases h with
  | none => exact ⟨(fun _ _ h => by cases h), (fun _ h => by cases h)⟩
  | plain hc _ => exact ⟨.cons (by rcases hc with rfl | rfl <;> decide), (fun _ h => by cases h; simp at hc)⟩
  | plus hc _ => exact ⟨.cons (by rcases hc with rfl | rfl <;> decide), (fun _ h => by cases h; simp at hc)⟩
  | minus hc _ => exact ⟨.cons (by rcases hc with rfl | rfl <;> decide), (fun _ h => by cases h; simp at hc)⟩

theorem parseNumber_sound {cs : List Char} {d : Nat} {k : Int} (h : parseNumber cs = some (d, k)) :
    ∃ int frac e x, StdReal cs int frac e ∧ ExpRead x e ∧ d = digitsValue (int ++ frac) ∧ k = x - frac.length := by
  obtain ⟨int, r, h1, rfl, hint, hr⟩ := digitsIn_spec cs
  have hfrac : ∃ fr frac r', r = fr ++ r' ∧ (fr = [] ∧ frac = [] ∨ fr = '.' :: frac) ∧ (∀ c ∈ frac, c ∈ decimalDigits) ∧
      fracIn r = (frac, r') := by
    by_cases hp : ∃ t, r = '.' :: t
    · obtain ⟨r1, rfl⟩ := hp
      obtain ⟨frac, r', h2, rfl, hf, _⟩ := digitsIn_spec r1
      exact ⟨'.' :: frac, frac, r', rfl, .inr rfl, hf, h2⟩
    · exact ⟨[], [], r, rfl, .inl ⟨rfl, rfl⟩, by simp, fracIn_other fun t e => hp ⟨t, e⟩⟩
  obtain ⟨fr, frac, r', rfl, hfr, hf, hm⟩ := hfrac
  rw [parseNumber_eq h1 hm] at h
  split at h
  · cases h
  rename_i hne
  have hdig : JsonDigits (int ++ frac) := by
    refine ⟨fun e => hne (List.append_eq_nil_iff.mp e), fun c hc => ?_⟩
    rcases List.mem_append.mp hc with h | h
    · exact hint c h
    · exact hf c h
  rw [digitsNat_eq hdig.2] at h
  split at h
  · obtain ⟨rfl, rfl⟩ := Prod.mk.inj (Option.some.inj h)
    exact ⟨int, frac, 0, 0, ⟨fr, [], by simp, hdig, hfr, .none⟩, ⟨.inl rfl⟩, rfl, by ring⟩
  · rename_i c rest
    split at h
    · rename_i hc
      rw [Option.map_eq_some_iff] at h
      obtain ⟨x, hx, e⟩ := h
      obtain ⟨rfl, rfl⟩ := Prod.mk.inj e
      obtain ⟨e, he, hr⟩ := exponent_sound hx hc
      exact ⟨int, frac, e, x, ⟨fr, c :: rest, by simp, hdig, hfr, he⟩, hr, rfl, rfl⟩
    · cases h

theorem parseNumber_complete {cs int frac : List Char} {e : Int} (h : StdReal cs int frac e) :
    ∃ x, ExpRead x e ∧ parseNumber cs = some (digitsValue (int ++ frac), x - frac.length) := by
  obtain ⟨fr, ex, rfl, hdig, hfr, hex⟩ := h
  obtain ⟨hn1, hn2⟩ := exponent_noDigit hex
  have hint : ∀ c ∈ int, c ∈ decimalDigits := fun c hc => hdig.2 c (by simp [hc])
  have hf : ∀ c ∈ frac, c ∈ decimalDigits := fun c hc => hdig.2 c (by simp [hc])
  have hne : ¬ (int = [] ∧ frac = []) := fun h => hdig.1 (by rw [h.1, h.2]; rfl)
  have h1 : digitsIn (int ++ fr ++ ex) = (int, fr ++ ex) := by
    rw [List.append_assoc]
    refine digitsIn_of hint ?_
    rcases hfr with ⟨rfl, _⟩ | rfl
    · exact hn1
    · exact .cons (by decide)
  have h2 : fracIn (fr ++ ex) = (frac, ex) := by
    rcases hfr with ⟨rfl, rfl⟩ | rfl
    · exact fracIn_other hn2
    · exact digitsIn_of hf hn1
  rw [parseNumber_eq h1 h2, if_neg hne, digitsNat_eq hdig.2]
  cases ex with
  | nil =>
    cases hex
    exact ⟨0, ⟨.inl rfl⟩, by simp⟩
  | cons c rest =>
    obtain ⟨hc, x, hx, hr⟩ := exponent_complete hex
    refine ⟨x, hr, ?_⟩
    simp only
    rw [if_pos hc, hx]
    rfl

/-! ## Words -/

/-- The small letter. -/
def low (c : Char) : Char := if 65 ≤ c.toNat ∧ c.toNat ≤ 90 then Char.ofNat (c.toNat + 32) else c

theorem low_iff {c l u : Char} (h1 : 97 ≤ l.toNat ∧ l.toNat ≤ 122) (h2 : u.toNat + 32 = l.toNat) : low c = l ↔ c = l ∨ c = u := by
  unfold low
  split
  · rename_i h
    have e : (Char.ofNat (c.toNat + 32)).toNat = c.toNat + 32 := by
      rw [Char.ofNat, dif_pos (.inl (by omega))]
      rfl
    rw [← Char.toNat_inj, e, ← Char.toNat_inj, ← Char.toNat_inj]
    omega
  · rename_i h
    constructor
    · exact .inl
    · rintro (rfl | rfl)
      · rfl
      · omega

theorem spelled_iff {cs : List Char} {word : List (Char × Char)}
    (hw : ∀ p ∈ word, (97 ≤ p.1.toNat ∧ p.1.toNat ≤ 122) ∧ p.2.toNat + 32 = p.1.toNat) :
    cs.map low = word.map Prod.fst ↔ Spelled cs word := by
  unfold Spelled
  induction word generalizing cs with
  | nil => simp
  | cons p word ih =>
    cases cs with
    | nil => simp
    | cons c cs =>
      simp only [List.map_cons, List.cons.injEq, List.forall₂_cons]
      rw [ih (fun q hq => hw q (by simp [hq])), low_iff (hw p (by simp)).1 (hw p (by simp)).2]

theorem parseWord_eq (F : FloatFormat) (cs : List Char) : parseWord F cs =
    if cs.map low = infWord.map Prod.fst ∨ cs.map low = infinityWord.map Prod.fst then some F.inf
    else if cs.map low = nanWord.map Prod.fst then some (F.inf + 2 ^ (F.mant - 1)) else none := rfl

theorem parseWord_iff {F : FloatFormat} {cs : List Char} {b : Nat} : parseWord F cs = some b ↔
    (Spelled cs infWord ∨ Spelled cs infinityWord) ∧ b = F.inf ∨ Spelled cs nanWord ∧ b = F.inf + 2 ^ (F.mant - 1) := by
  rw [parseWord_eq, ← spelled_iff (word := infWord) (by decide), ← spelled_iff (word := infinityWord) (by decide),
    ← spelled_iff (word := nanWord) (by decide)]
  have hne : ∀ x : List Char, x = nanWord.map Prod.fst → ¬ (x = infWord.map Prod.fst ∨ x = infinityWord.map Prod.fst) := by
    rintro x rfl
    decide
  have hne := hne (cs.map low)
  generalize cs.map low = x at *
  constructor
  · intro h
    split_ifs at h with h1 h2
    · exact .inl ⟨h1, (Option.some.inj h).symm⟩
    · exact .inr ⟨h2, (Option.some.inj h).symm⟩
  · rintro (⟨h, rfl⟩ | ⟨h, rfl⟩)
    · rw [if_pos h]
    · rw [if_neg (hne h), if_pos h]

/-- A word does not begin like a number. -/
theorem spelled_not_number {cs : List Char} {w : List (Char × Char)} (h : Spelled cs w) (hw : w = infWord ∨ w = infinityWord ∨ w = nanWord) :
    parseNumber cs = none := by
  have hd : ∃ c t, cs = c :: t ∧ c ∉ decimalDigits ∧ c ≠ '.' := by
    unfold Spelled at h
    rcases hw with rfl | rfl | rfl <;> cases h <;> rename_i hc _ <;> rcases hc with rfl | rfl <;> exact ⟨_, _, rfl, by decide, by decide⟩
  obtain ⟨c, t, rfl, hc, hp⟩ := hd
  have h1 := digitsIn_of (ds := []) (r := c :: t) (by simp) (.cons hc)
  rw [List.nil_append] at h1
  rw [parseNumber_eq h1 (fracIn_other fun t e => by cases e; exact hp rfl), if_pos ⟨rfl, rfl⟩]

end StdText

end Souris
