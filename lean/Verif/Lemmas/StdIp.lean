import Verif.Spec.StdText
import Verif.Model.StdText
import Verif.Lemmas.StdFloatText
import Verif.Lemmas.JsonString
import Verif.Lemmas.JsonPrint

/-! # Addresses read from text -/

namespace Souris

namespace StdText

/-! ## Digits -/

theorem toDigit10_iff {c : Char} {d : Nat} : toDigit 10 c = some d ↔ c ∈ decimalDigits ∧ d = decimalDigits.idxOf c := by
  by_cases h : 48 ≤ c.toNat ∧ c.toNat ≤ 57
  · have hm : c ∈ decimalDigits := isDigit_iff.mp (decide_eq_true h)
    have hn := digit_nat hm
    unfold toDigit
    simp only
    rw [if_pos h, if_pos (by omega), Option.some.injEq, hn]
    exact ⟨fun h => ⟨hm, h.symm⟩, fun h => h.2.symm⟩
  · have hm : c ∉ decimalDigits := fun hm => h (of_decide_eq_true (isDigit_iff.mpr hm))
    unfold toDigit
    simp only
    rw [if_neg h]
    constructor
    · intro h'
      exfalso
      split_ifs at h' <;> omega
    · exact fun h' => absurd h'.1 hm

theorem toDigit16_iff {c : Char} {d : Nat} : toDigit 16 c = some d ↔ (c, d) ∈ hexTable := by
  rw [← SerdeJson.hexDigit_iff]
  unfold toDigit SerdeJson.hexDigit
  simp only
  split_ifs <;> simp <;> omega

/-- No digit in front. -/
def NoHex (r : List Char) : Prop := ∀ c t, r = c :: t → ∀ x, (c, x) ∉ hexTable

/-! ## Numbers -/

theorem numberLoop_of {radix max : Nat} {ds : List Char} {vs : List Nat} (h : List.Forall₂ (fun c v => toDigit radix c = some v) ds vs)
    {r : List Char} (hr : ∀ c t, r = c :: t → toDigit radix c = none) (count acc : Nat) (hc : count ≤ max) :
    numberLoop radix max count acc (ds ++ r) =
      if count + ds.length ≤ max then some (count + ds.length, vs.foldl (fun a v => a * radix + v) acc, r) else none := by
  induction h generalizing count acc with
  | nil =>
    rw [List.nil_append, List.length_nil, Nat.add_zero, if_pos hc]
    cases r with
    | nil => rfl
    | cons c t =>
      unfold numberLoop
      rw [hr c t rfl]
      rfl
  | cons h1 h2 ih =>
    rename_i c v ds vs
    rw [List.cons_append]
    unfold numberLoop
    rw [h1]
    simp only [List.length_cons]
    split
    · rw [if_neg (by omega)]
    · rw [ih _ _ (by omega), List.foldl_cons]
      rw [show count + 1 + ds.length = count + (ds.length + 1) by omega]

theorem split_digits (radix : Nat) (cs : List Char) : ∃ ds vs r, cs = ds ++ r ∧
    List.Forall₂ (fun c v => toDigit radix c = some v) ds vs ∧ ∀ c t, r = c :: t → toDigit radix c = none := by
  induction cs with
  | nil => exact ⟨[], [], [], rfl, .nil, (fun _ _ h => by cases h)⟩
  | cons c cs ih =>
    cases hc : toDigit radix c with
    | none => exact ⟨[], [], c :: cs, rfl, .nil, (fun _ _ h => by cases h; exact hc)⟩
    | some v =>
      obtain ⟨ds, vs, r, rfl, h1, h2⟩ := ih
      exact ⟨c :: ds, v :: vs, r, rfl, .cons hc h1, h2⟩

theorem readNumber_of {radix max bound : Nat} {zeros : Bool} {ds : List Char} {vs : List Nat}
    (h : List.Forall₂ (fun c v => toDigit radix c = some v) ds vs) {r : List Char} (hr : ∀ c t, r = c :: t → toDigit radix c = none) :
    readNumber radix max bound zeros (ds ++ r) =
      if ds.length ≤ max ∧ vs.foldl (fun a v => a * radix + v) 0 < bound ∧ ds ≠ [] ∧ ¬ (zeros = false ∧ ds.head? = some '0' ∧ 1 < ds.length) then
        some (vs.foldl (fun a v => a * radix + v) 0, r)
      else none := by
  unfold readNumber
  rw [numberLoop_of h hr 0 0 (Nat.zero_le _), Nat.zero_add]
  by_cases h1 : ds.length ≤ max
  · rw [if_pos h1]
    simp only
    by_cases h2 : vs.foldl (fun a v => a * radix + v) 0 < bound
    · rw [if_neg (by omega)]
      by_cases h3 : ds = []
      · subst h3
        simp
      · have h4 : ds.length ≠ 0 := fun e => h3 (List.length_eq_zero_iff.mp e)
        have h5 : (ds ++ r).head? = ds.head? := by
          cases ds with
          | nil => exact absurd rfl h3
          | cons => rfl
        rw [if_neg h4, h5]
        by_cases h6 : zeros = false ∧ ds.head? = some '0' ∧ 1 < ds.length
        · rw [if_pos h6, if_neg (fun h => h.2.2.2 h6)]
        · rw [if_neg h6, if_pos ⟨h1, h2, h3, h6⟩]
    · rw [if_pos (by omega), if_neg (fun h => h2 h.2.1)]
  · rw [if_neg h1, if_neg (fun h => h1 h.1)]

theorem none10 {c : Char} : toDigit 10 c = none ↔ c ∉ decimalDigits := by
  constructor
  · intro h hc
    rw [toDigit10_iff.mpr ⟨hc, rfl⟩] at h
    cases h
  · intro h
    cases hd : toDigit 10 c with
    | none => rfl
    | some d => exact absurd (toDigit10_iff.mp hd).1 h

theorem none16 {c : Char} : toDigit 16 c = none ↔ ∀ x, (c, x) ∉ hexTable := by
  constructor
  · intro h x hc
    rw [toDigit16_iff.mpr hc] at h
    cases h
  · intro h
    cases hd : toDigit 16 c with
    | none => rfl
    | some d => exact absurd (toDigit16_iff.mp hd) (h d)

theorem digits10 {ds : List Char} {vs : List Nat} (h : List.Forall₂ (fun c v => toDigit 10 c = some v) ds vs) (acc : Nat) :
    (∀ c ∈ ds, c ∈ decimalDigits) ∧ vs.foldl (fun a v => a * 10 + v) acc = SerdeJson.dig acc ds := by
  induction h generalizing acc with
  | nil => exact ⟨by simp, rfl⟩
  | cons h1 h2 ih =>
    obtain ⟨k1, rfl⟩ := toDigit10_iff.mp h1
    refine ⟨?_, ?_⟩
    · intro x hx
      rcases List.mem_cons.mp hx with rfl | hx
      · exact k1
      · exact (ih 0).1 x hx
    · rw [List.foldl_cons, SerdeJson.dig_cons]
      exact (ih _).2

theorem digits10_of {ds : List Char} (h : ∀ c ∈ ds, c ∈ decimalDigits) : ∃ vs, List.Forall₂ (fun c v => toDigit 10 c = some v) ds vs := by
  induction ds with
  | nil => exact ⟨[], .nil⟩
  | cons c ds ih =>
    obtain ⟨vs, hv⟩ := ih fun x hx => h x (by simp [hx])
    exact ⟨_ :: vs, .cons (toDigit10_iff.mpr ⟨h c (by simp), rfl⟩) hv⟩

theorem hex_append {ds : List Char} {n : Nat} (h : HexNumber ds n) {es : List Char} {vs : List Nat}
    (hv : List.Forall₂ (fun c v => toDigit 16 c = some v) es vs) : HexNumber (ds ++ es) (vs.foldl (fun a v => a * 16 + v) n) := by
  induction hv generalizing ds n with
  | nil => rw [List.append_nil]; exact h
  | cons h1 h2 ih =>
    rename_i c v es vs
    rw [show ds ++ c :: es = (ds ++ [c]) ++ es by simp, List.foldl_cons]
    exact ih (.digit h (toDigit16_iff.mp h1))

theorem hex_of {ds : List Char} {n : Nat} (h : HexNumber ds n) :
    ∃ vs, List.Forall₂ (fun c v => toDigit 16 c = some v) ds vs ∧ vs.foldl (fun a v => a * 16 + v) 0 = n := by
  induction h with
  | nil => exact ⟨[], .nil, rfl⟩
  | digit h hc ih =>
    rename_i x c
    obtain ⟨vs, h1, h2⟩ := ih
    refine ⟨vs ++ [x], List.rel_append h1 (.cons (toDigit16_iff.mpr hc) .nil), ?_⟩
    rw [List.foldl_append, h2]
    rfl

/-! ## IPv4 -/

theorem noDigit_none {r : List Char} (h : NoDigit r) : ∀ c t, r = c :: t → toDigit 10 c = none := fun c t e => none10.mpr (h c t e)

theorem whole_length {t : List Char} (h : JsonWhole t) {n : Nat} (hn : 0 < n) (hv : digitsValue t < 10 ^ n) : t.length ≤ n := by
  obtain ⟨c, cs, rfl, hc, hcs⟩ := SerdeJson.digits_cons h.1
  by_cases h0 : c = '0'
  · have := h.2 (by rw [h0]; rfl)
    rw [this]
    simp
    omega
  by_contra hl
  have h1 : 1 ≤ decimalDigits.idxOf c := by
    rcases Nat.eq_zero_or_pos (decimalDigits.idxOf c) with e | e
    · exfalso
      have : ∀ c ∈ decimalDigits, decimalDigits.idxOf c = 0 → c = '0' := by decide
      exact h0 (this c hc e)
    · exact e
  have h2 : digitsValue (c :: cs) = decimalDigits.idxOf c * 10 ^ cs.length + digitsValue cs := by
    rw [show c :: cs = [c] ++ cs from rfl, Chrono.digitsValue_append]
    congr 2
    simp [digitsValue]
  have h3 : 10 ^ n ≤ 10 ^ cs.length := Nat.pow_le_pow_right (by decide) (by simp at hl; omega)
  have h4 : 10 ^ cs.length ≤ decimalDigits.idxOf c * 10 ^ cs.length := Nat.le_mul_of_pos_left _ h1
  omega

theorem readOctet_sound {cs r : List Char} {n : Nat} (h : readOctet cs = some (n, r)) :
    ∃ t, cs = t ++ r ∧ NoDigit r ∧ n < 256 ∧ OctetText t (UInt8.ofNat n) := by
  obtain ⟨ds, vs, r', rfl, h1, h2⟩ := split_digits 10 cs
  unfold readOctet at h
  rw [readNumber_of h1 h2] at h
  obtain ⟨k1, k2⟩ := digits10 h1 0
  split at h
  · rename_i hc
    obtain ⟨e1, rfl⟩ := Prod.mk.inj (Option.some.inj h)
    obtain ⟨_, c2, c3, c4⟩ := hc
    rw [e1] at c2
    refine ⟨ds, rfl, fun c t e => none10.mp (h2 c t e), c2, ⟨⟨c3, k1⟩, fun h0 => ?_⟩, ?_⟩
    · by_contra hne
      refine c4 ⟨rfl, h0, ?_⟩
      cases ds with
      | nil => exact absurd rfl c3
      | cons c ds =>
        cases ds with
        | nil =>
          rw [List.head?_cons, Option.some.injEq] at h0
          exact absurd (by rw [h0]) hne
        | cons => simp
    · rw [SerdeJson.digitsValue_eq, ← k2, e1, UInt8.toNat_ofNat']
      omega
  · cases h

theorem readOctet_complete {t r : List Char} {a : UInt8} (h : OctetText t a) (hr : NoDigit r) : readOctet (t ++ r) = some (a.toNat, r) := by
  obtain ⟨hw, hv⟩ := h
  have ha := a.toNat_lt
  obtain ⟨vs, h1⟩ := digits10_of hw.1.2
  have h2 : vs.foldl (fun a v => a * 10 + v) 0 = a.toNat := by rw [(digits10 h1 0).2, ← SerdeJson.digitsValue_eq, hv]
  unfold readOctet
  rw [readNumber_of h1 (noDigit_none hr), h2, if_pos]
  refine ⟨whole_length hw (by decide) (by omega), ha, hw.1.1, ?_⟩
  rintro ⟨_, h0, hl⟩
  rw [hw.2 h0] at hl
  simp at hl

theorem readIp4_sound {cs r : List Char} {a b c d : Nat} (h : readIp4 cs = some ((a, b, c, d), r)) :
    (a < 256 ∧ b < 256 ∧ c < 256 ∧ d < 256) ∧
    ∃ t, cs = t ++ r ∧ DottedText t (UInt8.ofNat a) (UInt8.ofNat b) (UInt8.ofNat c) (UInt8.ofNat d) := by
  unfold readIp4 at h
  simp only [Option.bind_eq_bind, Option.bind_eq_some_iff, Option.pure_def, Option.some.injEq, Prod.exists, Prod.mk.injEq] at h
  obtain ⟨a', r1, h1, b', r2, h2, c', r3, h3, d', r4, h4, ⟨rfl, rfl, rfl, rfl⟩, rfl⟩ := h
  have sep : ∀ {cs : List Char} {n : Nat} {r : List Char}, readSeparator '.' false readOctet cs = some (n, r) →
      ∃ t, cs = '.' :: (t ++ r) ∧ n < 256 ∧ OctetText t (UInt8.ofNat n) := by
    intro cs n r h
    unfold readSeparator at h
    rw [if_neg (by decide)] at h
    split at h
    · split at h
      · rename_i hc
        obtain ⟨t, rfl, _, hn, ht⟩ := readOctet_sound h
        exact ⟨t, by rw [hc], hn, ht⟩
      · cases h
    · cases h
  obtain ⟨t1, rfl, _, n1, o1⟩ := readOctet_sound (show readOctet cs = some (a', r1) from h1)
  obtain ⟨t2, rfl, n2, o2⟩ := sep h2
  obtain ⟨t3, rfl, n3, o3⟩ := sep h3
  obtain ⟨t4, rfl, n4, o4⟩ := sep h4
  exact ⟨⟨n1, n2, n3, n4⟩, t1 ++ '.' :: (t2 ++ '.' :: (t3 ++ '.' :: t4)), by simp, t1, t2, t3, t4, o1, o2, o3, o4, rfl⟩

theorem noDigit_dot (r : List Char) : NoDigit ('.' :: r) := .cons (by decide)

theorem readIp4_complete {t r : List Char} {a b c d : UInt8} (h : DottedText t a b c d) (hr : NoDigit r) :
    readIp4 (t ++ r) = some ((a.toNat, b.toNat, c.toNat, d.toNat), r) := by
  obtain ⟨t1, t2, t3, t4, o1, o2, o3, o4, rfl⟩ := h
  have e : t1 ++ '.' :: (t2 ++ '.' :: (t3 ++ '.' :: t4)) ++ r = t1 ++ ('.' :: (t2 ++ ('.' :: (t3 ++ ('.' :: (t4 ++ r)))))) := by simp
  have sep : ∀ cs, readSeparator '.' false readOctet ('.' :: cs) = readOctet cs := fun _ => rfl
  have fst : ∀ cs, readSeparator '.' true readOctet cs = readOctet cs := fun _ => rfl
  unfold readIp4
  rw [e, fst, readOctet_complete o1 (noDigit_dot _)]
  simp only [Option.bind_eq_bind, Option.bind_some]
  rw [sep, readOctet_complete o2 (noDigit_dot _)]
  simp only [Option.bind_some]
  rw [sep, readOctet_complete o3 (noDigit_dot _)]
  simp only [Option.bind_some]
  rw [sep, readOctet_complete o4 hr]
  rfl

theorem octet_length {t : List Char} {a : UInt8} (h : OctetText t a) : t.length ≤ 3 := by
  have := a.toNat_lt
  exact whole_length h.1 (by decide) (by rw [h.2]; omega)

theorem ip4Parse_iff {t : List Char} {a b c d : UInt8} : ip4Parse t = some (a, b, c, d) ↔ DottedText t a b c d := by
  constructor
  · intro h
    unfold ip4Parse at h
    split at h
    · cases h
    · split at h
      · rename_i hr
        obtain ⟨_, t', rfl, ht⟩ := readIp4_sound hr
        simp only [Option.some.injEq, Prod.mk.injEq] at h
        obtain ⟨rfl, rfl, rfl, rfl⟩ := h
        simpa using ht
      · cases h
  · intro h
    have hr := readIp4_complete (r := []) h (fun _ _ h => by cases h)
    rw [List.append_nil] at hr
    unfold ip4Parse
    have hl : ¬ 15 < t.length := by
      obtain ⟨t1, t2, t3, t4, o1, o2, o3, o4, rfl⟩ := h
      have := octet_length o1
      have := octet_length o2
      have := octet_length o3
      have := octet_length o4
      simp
      omega
    rw [if_neg hl, hr]
    simp

theorem ip4Text_dotted (a b c d : UInt8) : DottedText (ip4Text a b c d) a b c d := by
  have o : ∀ a : UInt8, OctetText (natText a.toNat) a := fun a => ⟨SerdeJson.whole_natText _, (natText_spec _).2.2⟩
  exact ⟨_, _, _, _, o a, o b, o c, o d, rfl⟩

/-! ## IPv6 -/

theorem readGroup_sound {cs r : List Char} {n : Nat} (h : readNumber 16 4 65536 true cs = some (n, r)) :
    ∃ t, cs = t ++ r ∧ n < 65536 ∧ GroupText t (UInt16.ofNat n) := by
  obtain ⟨ds, vs, r', rfl, h1, h2⟩ := split_digits 16 cs
  rw [readNumber_of h1 h2] at h
  split at h
  · rename_i hc
    obtain ⟨e1, rfl⟩ := Prod.mk.inj (Option.some.inj h)
    obtain ⟨c1, c2, c3, _⟩ := hc
    have := hex_append .nil h1
    rw [e1] at this c2
    refine ⟨ds, rfl, c2, c3, c1, ?_⟩
    rw [UInt16.toNat_ofNat', Nat.mod_eq_of_lt c2]
    exact this
  · cases h

theorem readGroup_complete {t r : List Char} {g : UInt16} (h : GroupText t g) (hr : NoHex r) :
    readNumber 16 4 65536 true (t ++ r) = some (g.toNat, r) := by
  obtain ⟨h1, h2, h3⟩ := h
  obtain ⟨vs, k1, k2⟩ := hex_of h3
  rw [readNumber_of k1 (fun c t e => none16.mpr (hr c t e)), k2, if_pos ⟨h2, g.toNat_lt, h1, fun h => by cases h.1⟩]

theorem readSeparator_sound {α : Type} {sep : Char} {first : Bool} {inner : List Char → Option (α × List Char)} {cs : List Char} {x : α × List Char}
    (h : readSeparator sep first inner cs = some x) :
    ∃ cs', cs = (if first then cs' else sep :: cs') ∧ inner cs' = some x := by
  unfold readSeparator at h
  cases first with
  | true => exact ⟨cs, rfl, h⟩
  | false =>
    rw [if_neg (by decide)] at h
    split at h
    · split at h
      · rename_i hc
        exact ⟨_, by rw [hc]; rfl, h⟩
      · cases h
    · cases h

theorem readSeparator_of {α : Type} (sep : Char) (first : Bool) (inner : List Char → Option (α × List Char)) (cs : List Char) :
    readSeparator sep first inner (if first then cs else sep :: cs) = inner cs := by
  cases first with
  | true => rfl
  | false => unfold readSeparator; simp

theorem readGroups_sound (room : Nat) {first : Bool} {cs rest : List Char} {gs : List Nat} {v4 : Bool}
    (h : readGroups first room cs = (gs, v4, rest)) :
    gs.length ≤ room ∧ (gs = [] ∧ v4 = false ∧ rest = cs ∨
      ∃ t, cs = (if first then t ++ rest else ':' :: (t ++ rest)) ∧
        ∀ dotted, (v4 = true → dotted = true) → GroupsText dotted t (gs.map UInt16.ofNat)) := by
  induction room generalizing first cs rest gs v4 with
  | zero =>
    unfold readGroups at h
    simp only [Prod.mk.injEq] at h
    obtain ⟨rfl, rfl, rfl⟩ := h
    exact ⟨Nat.le_refl _, .inl ⟨rfl, rfl, rfl⟩⟩
  | succ room ih =>
    unfold readGroups at h
    split at h
    · rename_i a b c d rest' hv
      simp only [Prod.mk.injEq] at h
      obtain ⟨rfl, rfl, rfl⟩ := h
      split at hv
      · rename_i hroom
        obtain ⟨cs', hcs, hi⟩ := readSeparator_sound hv
        obtain ⟨⟨ha, hb, hc, hd⟩, t, rfl, ht⟩ := readIp4_sound hi
        refine ⟨by simp; omega, .inr ⟨t, hcs, fun dotted hdot => ?_⟩⟩
        have e : ∀ x y : Nat, x < 256 → y < 256 →
            UInt16.ofNat (x * 256 + y) = (UInt8.ofNat x).toUInt16 * 256 + (UInt8.ofNat y).toUInt16 := by
          intro x y hx hy
          apply UInt16.toNat_inj.mp
          simp [UInt16.toNat_ofNat', UInt16.toNat_add, UInt16.toNat_mul]
          omega
        have := GroupsText.ipv4 (dotted := dotted) (hdot rfl) ht
        simp only [List.map_cons, List.map_nil]
        rw [e a b ha hb, e c d hc hd]
        exact this
      · cases hv
    · split at h
      · rename_i g rest' hg
        obtain ⟨cs', hcs, hi⟩ := readSeparator_sound hg
        obtain ⟨t, rfl, hn, ht⟩ := readGroup_sound hi
        cases hrec : readGroups false room rest' with
        | mk gs' p =>
          obtain ⟨v4', rest''⟩ := p
          rw [hrec] at h
          simp only [Prod.mk.injEq] at h
          obtain ⟨rfl, rfl, rfl⟩ := h
          obtain ⟨hl, hor⟩ := ih hrec
          refine ⟨by simp; omega, .inr ?_⟩
          rcases hor with ⟨rfl, rfl, rfl⟩ | ⟨t', ht', hall⟩
          · exact ⟨t, hcs, fun dotted _ => .one ht⟩
          · refine ⟨t ++ ':' :: t', ?_, fun dotted hdot => .more ht (hall dotted hdot)⟩
            rw [hcs, ht']
            simp
      · simp only [Prod.mk.injEq] at h
        obtain ⟨rfl, rfl, rfl⟩ := h
        exact ⟨Nat.zero_le _, .inl ⟨rfl, rfl, rfl⟩⟩

/-- What can follow groups. -/
def Stop (r : List Char) : Prop := r = [] ∨ ∃ r', r = ':' :: ':' :: r'

theorem stop_noHex {r : List Char} (h : Stop r) : NoHex r ∧ NoDigit r := by
  rcases h with rfl | ⟨r', rfl⟩
  · exact ⟨(fun _ _ h => by cases h), (fun _ _ h => by cases h)⟩
  · refine ⟨fun c t e x hx => ?_, .cons (by decide)⟩
    obtain ⟨rfl, _⟩ := List.cons.inj e
    revert hx
    have : ∀ p ∈ hexTable, p.1 ≠ ':' := by decide
    exact fun hx => this _ hx rfl

theorem noHex_colon (r : List Char) : NoHex (':' :: r) := by
  intro c t e x hx
  obtain ⟨rfl, _⟩ := List.cons.inj e
  have : ∀ p ∈ hexTable, p.1 ≠ ':' := by decide
  exact this _ hx rfl

theorem readNumber_stop {radix max bound : Nat} {zeros : Bool} {r : List Char} (h : ∀ c t, r = c :: t → toDigit radix c = none) :
    readNumber radix max bound zeros r = none := by
  have := readNumber_of (max := max) (bound := bound) (zeros := zeros) (ds := []) (vs := []) .nil h
  rw [List.nil_append] at this
  rw [this, if_neg (fun h => h.2.2.1 rfl)]

theorem readIp4_octet {cs : List Char} (h : ∀ n r, readOctet cs = some (n, r) → ∀ r', r ≠ '.' :: r') : readIp4 cs = none := by
  cases hr : readIp4 cs with
  | none => rfl
  | some p =>
    exfalso
    unfold readIp4 at hr
    simp only [Option.bind_eq_bind, Option.bind_eq_some_iff, Option.pure_def, Option.some.injEq, Prod.exists] at hr
    obtain ⟨a', r1, h1, b', r2, h2, _⟩ := hr
    have := h a' r1 h1
    unfold readSeparator at h2
    rw [if_neg (by decide)] at h2
    split at h2
    · split at h2
      · rename_i hc
        exact this _ (by rw [hc])
      · cases h2
    · cases h2

/-- Before colons or the end there is no address of the old kind. -/
theorem readIp4_none {t r : List Char} (ht : '.' ∉ t) (hr : r = [] ∨ ∃ r', r = ':' :: r') : readIp4 (t ++ r) = none := by
  refine readIp4_octet fun n r1 h r' e => ?_
  subst e
  obtain ⟨t1, he, _, _, ho⟩ := readOctet_sound h
  have hcol : ':' ∉ t1 := fun hm => by have := ho.1.1.2 _ hm; revert this; decide
  rcases List.append_eq_append_iff.mp he with ⟨x, rfl, hx⟩ | ⟨x, rfl, hx⟩
  · rcases hr with rfl | ⟨r'', rfl⟩
    · simp at hx
    · cases x with
      | nil => simp at hx
      | cons y x =>
        simp at hx
        exact hcol (by simp [← hx.1])
  · cases x with
    | nil =>
      rw [List.nil_append] at hx
      rcases hr with rfl | ⟨r'', rfl⟩ <;> simp at hx
    | cons y x =>
      simp at hx
      exact ht (by simp [← hx.1])

theorem readGroups_stop (first : Bool) (room : Nat) {r : List Char} (h : Stop r) : readGroups first room r = ([], false, r) := by
  cases room with
  | zero => rfl
  | succ room =>
    have h1 : readSeparator ':' first readIp4 r = none := by
      cases hs : readSeparator ':' first readIp4 r with
      | none => rfl
      | some x =>
        exfalso
        obtain ⟨cs', hcs, hi⟩ := readSeparator_sound hs
        have : readIp4 ([] ++ cs') = none := by
          refine readIp4_none (by simp) ?_
          rcases h with rfl | ⟨r', rfl⟩
          · split at hcs
            · exact .inl hcs.symm
            · cases hcs
          · split at hcs
            · exact .inr ⟨_, hcs.symm⟩
            · exact .inr ⟨r', (List.cons.inj hcs).2.symm⟩
        rw [List.nil_append, hi] at this
        cases this
    have h2 : readSeparator ':' first (readNumber 16 4 65536 true) r = none := by
      cases hs : readSeparator ':' first (readNumber 16 4 65536 true) r with
      | none => rfl
      | some x =>
        exfalso
        obtain ⟨cs', hcs, hi⟩ := readSeparator_sound hs
        have : readNumber 16 4 65536 true cs' = none := by
          refine readNumber_stop fun c t e => none16.mpr ?_
          have : c = ':' := by
            rcases h with rfl | ⟨r', rfl⟩
            · split at hcs
              · rw [e] at hcs; cases hcs
              · cases hcs
            · split at hcs
              · rw [e] at hcs; exact (List.cons.inj hcs).1.symm
              · rw [e] at hcs; exact (List.cons.inj (List.cons.inj hcs).2).1.symm
          subst this
          have : ∀ p ∈ hexTable, p.1 ≠ ':' := by decide
          exact fun x hx => this _ hx rfl
        rw [hi] at this
        cases this
    unfold readGroups
    rw [h1, h2, ite_self]

theorem hex_mem {t : List Char} {n : Nat} (h : HexNumber t n) : ∀ c ∈ t, ∃ x, (c, x) ∈ hexTable := by
  induction h with
  | nil => simp
  | digit h hc ih =>
    intro c hm
    rcases List.mem_append.mp hm with hm | hm
    · exact ih c hm
    · rw [List.mem_singleton.mp hm]
      exact ⟨_, hc⟩

theorem hex_sep {t : List Char} {n : Nat} (h : HexNumber t n) : '.' ∉ t ∧ ':' ∉ t := by
  have h1 : ∀ p ∈ hexTable, p.1 ≠ '.' ∧ p.1 ≠ ':' := by decide
  exact ⟨fun hm => by obtain ⟨x, hx⟩ := hex_mem h _ hm; exact (h1 _ hx).1 rfl, fun hm => by obtain ⟨x, hx⟩ := hex_mem h _ hm; exact (h1 _ hx).2 rfl⟩

theorem readGroups_complete {dotted : Bool} {t : List Char} {gs : List UInt16} (h : GroupsText dotted t gs) :
    ∀ (room : Nat) (first : Bool) {rest : List Char}, gs.length ≤ room → Stop rest →
      ∃ v4, (dotted = false → v4 = false) ∧
        readGroups first room (if first then t ++ rest else ':' :: (t ++ rest)) = (gs.map UInt16.toNat, v4, rest) := by
  induction h with
  | one h =>
    rename_i t g
    intro room first rest hl hs
    obtain ⟨room, rfl⟩ : ∃ r, room = r + 1 := ⟨room - 1, by simp at hl; omega⟩
    refine ⟨false, fun _ => rfl, ?_⟩
    unfold readGroups
    rw [readSeparator_of, readSeparator_of, readIp4_none (hex_sep h.2.2).1 (hs.imp id fun ⟨r, e⟩ => ⟨_, e⟩), ite_self,
      readGroup_complete h (stop_noHex hs).1]
    simp only
    rw [readGroups_stop false room hs]
    rfl
  | ipv4 hd h =>
    rename_i t a b c d
    intro room first rest hl hs
    obtain ⟨room, rfl⟩ : ∃ r, room = r + 2 := ⟨room - 2, by simp at hl; omega⟩
    refine ⟨true, (fun e => by rw [hd] at e; cases e), ?_⟩
    unfold readGroups
    rw [if_pos (by omega), readSeparator_of, readIp4_complete h (stop_noHex hs).2]
    have e : ∀ x y : UInt8, (x.toUInt16 * 256 + y.toUInt16).toNat = x.toNat * 256 + y.toNat := by
      intro x y
      have := x.toNat_lt
      have := y.toNat_lt
      simp [UInt16.toNat_add, UInt16.toNat_mul]
      omega
    simp only [List.map_cons, List.map_nil, e]
  | more h hs' ih =>
    rename_i t t' g gs
    intro room first rest hl hs
    obtain ⟨room, rfl⟩ : ∃ r, room = r + 1 := ⟨room - 1, by simp at hl; omega⟩
    obtain ⟨v4, hv, hrec⟩ := ih room false (rest := rest) (by simp at hl; omega) hs
    refine ⟨v4, hv, ?_⟩
    rw [if_neg (by decide)] at hrec
    have e : t ++ ':' :: t' ++ rest = t ++ (':' :: (t' ++ rest)) := by simp
    unfold readGroups
    rw [e, readSeparator_of, readSeparator_of, readIp4_none (hex_sep h.2.2).1 (.inr ⟨_, rfl⟩), ite_self, readGroup_complete h (noHex_colon _)]
    simp only
    rw [hrec]
    rfl

theorem readIp6_of {t : List Char} {gs : List UInt16} (h : Ip6Written t gs) : readIp6 t = some (gs.map UInt16.toNat, []) := by
  unfold readIp6
  cases h with
  | full h hl =>
    obtain ⟨v4, _, hr⟩ := readGroups_complete h 8 true (rest := []) (by omega) (.inl rfl)
    rw [if_pos rfl, List.append_nil] at hr
    rw [hr]
    simp only
    rw [if_pos (by simp [hl])]
  | short h h' hn hl =>
    rename_i t t' gs gs' n
    have side : ∀ {dotted : Bool} {t : List Char} {gs : List UInt16}, SideText dotted t gs → ∀ (room : Nat) {rest : List Char}, gs.length ≤ room →
        Stop rest → ∃ v4, (dotted = false → v4 = false) ∧ readGroups true room (t ++ rest) = (gs.map UInt16.toNat, v4, rest) := by
      intro dotted t gs h room rest hl hs
      rcases h with ⟨rfl, rfl⟩ | h
      · exact ⟨false, fun _ => rfl, readGroups_stop true room hs⟩
      · have := readGroups_complete h room true hl hs
        simpa using this
    obtain ⟨v4, hv, hr⟩ := side h 8 (rest := ':' :: ':' :: t') (by omega) (.inr ⟨_, rfl⟩)
    rw [hv rfl] at hr
    obtain ⟨v4', _, hr'⟩ := side h' (7 - gs.length) (rest := []) (by omega) (.inl rfl)
    rw [List.append_nil] at hr'
    rw [hr]
    simp only
    rw [if_neg (by simp; omega), if_neg (by decide), List.length_map, hr']
    simp only
    rw [List.length_map, show 8 - gs.length - gs'.length = n by omega]
    simp

theorem groups_toNat (gs : List UInt16) : (gs.map UInt16.toNat).map UInt16.ofNat = gs := by
  rw [List.map_map]
  conv => rhs; rw [← List.map_id gs]
  refine List.map_congr_left fun g _ => ?_
  simp

theorem ip6Groups_iff {t : List Char} {gs : List UInt16} : ip6Groups t = some gs ↔ Ip6Written t gs := by
  constructor
  · intro h
    unfold ip6Groups at h
    split at h
    · rename_i ns hr
      rw [Option.some.injEq] at h
      subst h
      unfold readIp6 at hr
      cases h1 : readGroups true 8 t with
      | mk head p =>
        obtain ⟨v4, rest⟩ := p
        rw [h1] at hr
        simp only at hr
        obtain ⟨hl, hor⟩ := readGroups_sound 8 h1
        split at hr
        · rename_i h8
          obtain ⟨rfl, rfl⟩ := Prod.mk.inj (Option.some.inj hr)
          rcases hor with ⟨rfl, _, _⟩ | ⟨t', rfl, hall⟩
          · simp at h8
          · refine .full ?_ (by simp [h8])
            simpa using hall true fun _ => rfl
        · rename_i h8
          split at hr
          · cases hr
          · rename_i hv
            split at hr
            · rename_i rest
              have hside : ∃ t', t = t' ++ ':' :: ':' :: rest ∧ SideText false t' (head.map UInt16.ofNat) := by
                rcases hor with ⟨rfl, _, e⟩ | ⟨t', e, hall⟩
                · exact ⟨[], e.symm, .inl ⟨rfl, rfl⟩⟩
                · exact ⟨t', e, .inr (hall false fun h => absurd h hv)⟩
              obtain ⟨t', rfl, hside⟩ := hside
              cases h2 : readGroups true (7 - head.length) rest with
              | mk tail p =>
                obtain ⟨v4', rest'⟩ := p
                rw [h2] at hr
                simp only at hr
                obtain ⟨rfl, rfl⟩ := Prod.mk.inj (Option.some.inj hr)
                obtain ⟨hl', hor'⟩ := readGroups_sound _ h2
                have hside' : SideText true rest (tail.map UInt16.ofNat) := by
                  rcases hor' with ⟨rfl, _, e⟩ | ⟨t', e, hall⟩
                  · exact .inl ⟨e.symm, rfl⟩
                  · rw [if_pos rfl, List.append_nil] at e
                    exact .inr (e ▸ hall true fun _ => rfl)
                have := Ip6Written.short (n := 8 - head.length - tail.length) hside hside' (by omega) (by simp; omega)
                simpa [List.map_append, List.append_assoc] using this
            · cases hr
    · cases h
  · intro h
    unfold ip6Groups
    rw [readIp6_of h]
    simp only
    rw [groups_toNat]

theorem written_length {t : List Char} {gs : List UInt16} (h : Ip6Written t gs) : gs.length = 8 := by
  cases h with
  | full _ hl => exact hl
  | short _ _ _ hl => simp; omega

theorem ip6Parse_iff {t : List Char} {a b c d e f g h : UInt16} :
    ip6Parse t = some (a, b, c, d, e, f, g, h) ↔ Ip6Written t [a, b, c, d, e, f, g, h] := by
  rw [← ip6Groups_iff]
  unfold ip6Parse
  constructor
  · intro h
    split at h
    · rename_i hg
      simp only [Option.some.injEq, Prod.mk.injEq] at h
      obtain ⟨rfl, rfl, rfl, rfl, rfl, rfl, rfl, rfl⟩ := h
      exact hg
    · cases h
  · intro h
    rw [h]

end StdText

end Souris
