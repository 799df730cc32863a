import Verif.Spec.Display
import Verif.Lemmas.Integer2
import Verif.Props.IntegerConv

/-! # Lemmas about printing: texts can be cut in one way only -/

namespace Souris

/-- The text does not begin with a decimal digit. -/
def NoDigit (r : List Char) : Prop := ∀ c t, r = c :: t → c ∉ decimalDigits

/-- What can follow an element of an array: nothing, a comma or a bracket. -/
def EndsItem (r : List Char) : Prop := ∀ c t, r = c :: t → c = ',' ∨ c = ']'

theorem EndsItem.noDigit {r : List Char} (h : EndsItem r) : NoDigit r := by
  intro c t e
  rcases h c t e with rfl | rfl <;> decide

theorem NoDigit.cons {c : Char} {t : List Char} (h : c ∉ decimalDigits) : NoDigit (c :: t) := by
  intro _ _ e
  cases e
  exact h

/-- Digits followed by something else. -/
theorem digits_cut {a b r r' : List Char} (ha : ∀ c ∈ a, c ∈ decimalDigits) (hb : ∀ c ∈ b, c ∈ decimalDigits)
    (hr : NoDigit r) (hr' : NoDigit r') (h : a ++ r = b ++ r') : a = b ∧ r = r' := by
  induction a generalizing b with
  | nil =>
    cases b with
    | nil => exact ⟨rfl, h⟩
    | cons y b => exact absurd (hb y (by simp)) (hr y _ h)
  | cons x a ih =>
    cases b with
    | nil => exact absurd (ha x (by simp)) (hr' x _ h.symm)
    | cons y b =>
      simp only [List.cons_append, List.cons.injEq] at h
      obtain ⟨rfl, h⟩ := h
      obtain ⟨rfl, h'⟩ := ih (fun c hc => ha c (by simp [hc])) (fun c hc => hb c (by simp [hc])) h
      exact ⟨rfl, h'⟩

theorem natText_cut {n m : Nat} {r r' : List Char} (hr : NoDigit r) (hr' : NoDigit r')
    (h : natText n ++ r = natText m ++ r') : n = m ∧ r = r' := by
  obtain ⟨_, h2, h3⟩ := natText_spec n
  obtain ⟨_, k2, k3⟩ := natText_spec m
  obtain ⟨e, hr⟩ := digits_cut h2 k2 hr hr' h
  exact ⟨by rw [← h3, e, k3], hr⟩

theorem natText_head_digit (n : Nat) : ∃ c t, natText n = c :: t ∧ c ∈ decimalDigits := by
  obtain ⟨h1, h2, _⟩ := natText_spec n
  cases hn : natText n with
  | nil => exact absurd hn h1
  | cons c t => exact ⟨c, t, rfl, h2 c (by simp [hn])⟩

theorem intText_cut {n m : Int} {r r' : List Char} (hr : NoDigit r) (hr' : NoDigit r')
    (h : intText n ++ r = intText m ++ r') : n = m ∧ r = r' := by
  unfold intText at h
  have hd : ∀ k : Nat, ∀ t s : List Char, natText k ++ t ≠ '-' :: s := by
    intro k t s e
    obtain ⟨c, u, hc, hm⟩ := natText_head_digit k
    rw [hc] at e
    cases e
    exact minus_not_digit hm
  split at h <;> split at h
  · obtain ⟨h, hr⟩ := natText_cut hr hr' (List.cons.inj h).2
    exact ⟨by omega, hr⟩
  · exact absurd h.symm (hd _ _ _)
  · exact absurd h (hd _ _ _)
  · obtain ⟨h, hr⟩ := natText_cut hr hr' h
    exact ⟨by omega, hr⟩

theorem intText_head (n : Int) : ∃ c t, intText n = c :: t ∧ (c = '-' ∨ c ∈ decimalDigits) := by
  unfold intText
  split
  · exact ⟨_, _, rfl, .inl rfl⟩
  · obtain ⟨c, t, h1, h2⟩ := natText_head_digit n.natAbs
    exact ⟨c, t, h1, .inr h2⟩

/-- The text of an integer in range is the decimal text of its number. -/
theorem Integer.InRange.display_eq {i : Integer} (h : i.InRange) : i.display = intText i.value := by
  obtain ⟨hr, h1, h2⟩ := h
  have hw := hr.serialisable.toWF
  have hu := hw.used_le
  have hp : (256 : Nat) ^ 16 = 2 ^ 128 := by decide
  unfold Integer.display
  have hs : i.signedState ≠ .unsigned → i.toSigned 16 = .ok i.value := by
    intro hn
    have := h2 hn
    rw [hw.toSigned_eq (by omega), if_neg (by omega), ofPattern_toPattern] <;> rw [hp] <;> push_cast <;> omega
  cases hc : i.signedState with
  | signedPositive => simp only [hs (by simp [hc])]
  | signedNegative => simp only [hs (by simp [hc])]
  | unsigned =>
    simp only [hw.toUnsigned_eq (Nat.le_refl 16), hc]
    rw [if_neg (by omega), if_neg (by simp)]
    have : 0 ≤ i.value := by
      unfold Integer.value
      rw [hc]
      exact Int.natCast_nonneg _
    simp only [intText]
    rw [if_neg (by omega)]
    congr 1
    omega

theorem Integer.InRange.isNegative {i : Integer} (h : i.InRange) : i.isNegative = decide (i.value < 0) := by
  have hw := h.1.serialisable.toWF
  have := ofLe_lt i.content
  rw [hw.len] at this
  unfold Integer.isNegative Integer.value
  cases hc : i.signedState with
  | signedPositive => simp
  | unsigned => simp
  | signedNegative =>
    simp only [decide_true]
    rw [eq_comm, decide_eq_true_eq]
    push_cast at *
    omega

/-! ## Hexadecimal -/

theorem hexUpper_inj : ∀ a b : Fin 16, hexUpper a.val = hexUpper b.val → a = b := by decide
theorem hexLower_inj : ∀ a b : Fin 16, hexLower a.val = hexLower b.val → a = b := by decide
theorem hexUpper_sep : ∀ a : Fin 16, hexUpper a.val ≠ ',' ∧ hexUpper a.val ≠ ']' := by decide
theorem hexLower_sep : ∀ a : Fin 16, hexLower a.val ≠ '}' := by decide

theorem hexByte_cut {a b : UInt8} {r r' : List Char} (hr : ∃ t, r = ',' :: t ∨ r = ']' :: t)
    (hr' : ∃ t, r' = ',' :: t ∨ r' = ']' :: t) (h : hexByte a ++ r = hexByte b ++ r') : a = b ∧ r = r' := by
  have ha := a.toNat_lt
  have hb := b.toNat_lt
  unfold hexByte at h
  simp only [List.cons_append, List.cons.injEq, true_and] at h
  have sep : ∀ n, n < 16 → ∀ t, (∃ u, t = ',' :: u ∨ t = ']' :: u) → ∀ u, t ≠ hexUpper n :: u := by
    rintro n hn t ⟨u, h | h⟩ w e
    · rw [h] at e; exact (hexUpper_sep ⟨n, hn⟩).1 (List.cons.inj e).1.symm
    · rw [h] at e; exact (hexUpper_sep ⟨n, hn⟩).2 (List.cons.inj e).1.symm
  have inj : ∀ n m, n < 16 → m < 16 → hexUpper n = hexUpper m → n = m := by
    intro n m hn hm e
    have := hexUpper_inj ⟨n, hn⟩ ⟨m, hm⟩ e
    simpa using this
  split at h <;> split at h <;> simp only [List.cons_append, List.nil_append, List.cons.injEq] at h
  · exact ⟨UInt8.toNat_inj.mp (inj _ _ ‹_› ‹_› h.1), h.2⟩
  · exact absurd h.2 (sep _ (by omega) _ hr _)
  · exact absurd h.2.symm (sep _ (by omega) _ hr' _)
  · have h1 := inj _ _ (by omega) (by omega) h.1
    have h2 := inj _ _ (by omega) (by omega) h.2.1
    exact ⟨UInt8.toNat_inj.mp (by omega), h.2.2⟩

theorem hexTail_head (b : List UInt8) (r : List Char) : ∃ t, hexTail b ++ r = ',' :: t ∨ hexTail b ++ r = ']' :: t := by
  cases b with
  | nil => exact ⟨r, .inr rfl⟩
  | cons x b => exact ⟨_, .inl rfl⟩

theorem hexTail_cut {a b : List UInt8} {r r' : List Char} (h : hexTail a ++ r = hexTail b ++ r') : a = b ∧ r = r' := by
  induction a generalizing b with
  | nil =>
    cases b with
    | nil => exact ⟨rfl, (List.cons.inj h).2⟩
    | cons y b => exact absurd (List.cons.inj h).1 (by decide)
  | cons x a ih =>
    cases b with
    | nil => exact absurd (List.cons.inj h).1 (by decide)
    | cons y b =>
      simp only [hexTail, List.cons_append, List.cons.injEq, true_and, List.append_assoc] at h
      obtain ⟨rfl, h'⟩ := hexByte_cut (hexTail_head a r) (hexTail_head b r') h
      obtain ⟨rfl, h''⟩ := ih h'
      exact ⟨rfl, h''⟩

theorem displayBytes_cut {a b : List UInt8} {r r' : List Char} (h : displayBytes a ++ r = displayBytes b ++ r') :
    a = b ∧ r = r' := by
  cases a with
  | nil =>
    cases b with
    | nil => exact ⟨rfl, by simpa [displayBytes] using h⟩
    | cons y b => simp [displayBytes, hexByte] at h
  | cons x a =>
    cases b with
    | nil => simp [displayBytes, hexByte] at h
    | cons y b =>
      simp only [displayBytes, List.cons_append, List.cons.injEq, true_and, List.append_assoc] at h
      obtain ⟨rfl, h'⟩ := hexByte_cut (hexTail_head a r) (hexTail_head b r') h
      obtain ⟨rfl, h''⟩ := hexTail_cut h'
      exact ⟨rfl, h''⟩

/-- Hexadecimal digits up to a brace. -/
theorem hexText_value (n : Nat) : ∃ ds : List (Fin 16), hexText n = ds.map (fun d => hexLower d.val) ∧
    ds.foldl (fun acc d => acc * 16 + d.val) 0 = n := by
  induction n using Nat.strongRecOn with
  | ind n ih =>
    unfold hexText
    split
    · rename_i h
      exact ⟨[⟨n, h⟩], by simp⟩
    · obtain ⟨ds, h1, h2⟩ := ih (n / 16) (by omega)
      refine ⟨ds ++ [⟨n % 16, by omega⟩], by simp [h1], ?_⟩
      rw [List.foldl_append, h2]
      simp only [List.foldl_cons, List.foldl_nil]
      omega

theorem hexText_cut {n m : Nat} {r r' : List Char} (h : hexText n ++ '}' :: r = hexText m ++ '}' :: r') :
    n = m ∧ r = r' := by
  obtain ⟨a, h1, h2⟩ := hexText_value n
  obtain ⟨b, k1, k2⟩ := hexText_value m
  rw [h1, k1] at h
  rw [← h2, ← k2]
  clear h1 h2 k1 k2
  have : a = b ∧ r = r' := by
    induction a generalizing b with
    | nil =>
      cases b with
      | nil => exact ⟨rfl, (List.cons.inj h).2⟩
      | cons y b => exact absurd (List.cons.inj h).1.symm (hexLower_sep y)
    | cons x a ih =>
      cases b with
      | nil => exact absurd (List.cons.inj h).1 (hexLower_sep x)
      | cons y b =>
        simp only [List.map_cons, List.cons_append, List.cons.injEq] at h
        obtain ⟨rfl, h'⟩ := ih _ h.2
        exact ⟨by rw [hexLower_inj _ _ h.1], h'⟩
  exact ⟨by rw [this.1], this.2⟩

/-! ## Literals of characters and strings -/

/-- The character that a backslash and `x` stand for. -/
def unescape (x : Char) : Char :=
  if x = '0' then Char.ofNat 0 else if x = 't' then '\t' else if x = 'r' then '\r' else if x = 'n' then '\n' else x

theorem escape_form (sh : Shows) {q : Char} (hq : q = '"' ∨ q = '\'') (c : Char) :
    (sh.escape q c = [c] ∧ c ≠ '\\' ∧ c ≠ q) ∨ (∃ x, x ≠ 'u' ∧ sh.escape q c = ['\\', x] ∧ c = unescape x) ∨
      sh.escape q c = '\\' :: 'u' :: '{' :: (hexText c.toNat ++ ['}']) := by
  unfold Shows.escape
  split_ifs with h1 h2 h3 h4 h5 h6 h7
  · exact .inr (.inl ⟨_, by decide, rfl, h1⟩)
  · exact .inr (.inl ⟨_, by decide, rfl, h2⟩)
  · exact .inr (.inl ⟨_, by decide, rfl, h3⟩)
  · exact .inr (.inl ⟨_, by decide, rfl, h4⟩)
  · exact .inr (.inl ⟨_, by decide, rfl, h5⟩)
  · refine .inr (.inl ⟨q, ?_, rfl, ?_⟩)
    · rcases hq with rfl | rfl <;> decide
    · rw [h6]
      rcases hq with rfl | rfl <;> decide
  · exact .inl ⟨rfl, h5, h6⟩
  · exact .inr (.inr rfl)

theorem escape_cut (sh : Shows) {q c d : Char} (hq : q = '"' ∨ q = '\'') {r r' : List Char}
    (h : sh.escape q c ++ r = sh.escape q d ++ r') : c = d ∧ r = r' := by
  rcases escape_form sh hq c with ⟨e, n, _⟩ | ⟨x, n, e, u⟩ | e <;>
    rcases escape_form sh hq d with ⟨e', n', _⟩ | ⟨x', n', e', u'⟩ | e' <;> rw [e, e'] at h <;>
    simp only [List.cons_append, List.nil_append, List.cons.injEq, true_and, List.append_assoc] at h
  · exact h
  · exact absurd h.1 n
  · exact absurd h.1 n
  · exact absurd h.1.symm n'
  · exact ⟨by rw [u, u', h.1], h.2⟩
  · exact absurd h.1 n
  · exact absurd h.1.symm n'
  · exact absurd h.1.symm n'
  · obtain ⟨h1, h2⟩ := hexText_cut h
    exact ⟨Char.toNat_inj.mp h1, h2⟩

/-- An escaped character does not begin with the quote. -/
theorem escape_head (sh : Shows) {q : Char} (hq : q = '"' ∨ q = '\'') (c : Char) (r s : List Char) :
    sh.escape q c ++ r ≠ q :: s := by
  have : '\\' ≠ q := by rcases hq with rfl | rfl <;> decide
  rcases escape_form sh hq c with ⟨e, _, n⟩ | ⟨x, n, e, u⟩ | e <;> rw [e] <;> intro h
  · exact n (List.cons.inj h).1
  · exact this (List.cons.inj h).1
  · exact this (List.cons.inj h).1

theorem charLiteral_cut (sh : Shows) {c d : Char} {r r' : List Char}
    (h : sh.charLiteral c ++ r = sh.charLiteral d ++ r') : c = d ∧ r = r' := by
  simp only [Shows.charLiteral, List.cons_append, List.cons.injEq, true_and, List.append_assoc] at h
  obtain ⟨rfl, h'⟩ := escape_cut sh (.inr rfl) h
  exact ⟨rfl, (List.cons.inj h').2⟩

theorem strBody_cut (sh : Shows) {s t : List Char} {r r' : List Char}
    (h : s.flatMap (sh.escape '"') ++ '"' :: r = t.flatMap (sh.escape '"') ++ '"' :: r') : s = t ∧ r = r' := by
  induction s generalizing t with
  | nil =>
    cases t with
    | nil => exact ⟨rfl, (List.cons.inj h).2⟩
    | cons d t =>
      rw [List.flatMap_cons, List.append_assoc] at h
      exact absurd h.symm (escape_head sh (.inl rfl) _ _ _)
  | cons c s ih =>
    cases t with
    | nil =>
      rw [List.flatMap_cons, List.append_assoc] at h
      exact absurd h (escape_head sh (.inl rfl) _ _ _)
    | cons d t =>
      rw [List.flatMap_cons, List.flatMap_cons, List.append_assoc, List.append_assoc] at h
      obtain ⟨rfl, h'⟩ := escape_cut sh (.inl rfl) h
      obtain ⟨rfl, h''⟩ := ih h'
      exact ⟨rfl, h''⟩

theorem strLiteral_cut (sh : Shows) {s t : List Char} {r r' : List Char}
    (h : sh.strLiteral s ++ r = sh.strLiteral t ++ r') : s = t ∧ r = r' := by
  simp only [Shows.strLiteral, List.cons_append, List.cons.injEq, true_and, List.append_assoc,
    List.nil_append] at h
  exact strBody_cut sh h

/-! ## Complex numbers -/

theorem cartesian_text (sh : Shows) {a b : Integer} (ha : a.InRange) (hb : b.InRange) :
    (Imaginary.cartesian a b).display sh =
      intText a.value ++ ((if b.value < 0 then '-' else '+') :: (natText b.value.natAbs ++ ['i'])) := by
  simp only [Imaginary.display, hb.isNegative, ha.display_eq, hb.display_eq, intText]
  by_cases hn : b.value < 0 <;> simp [hn]

theorem sign_not_digit (p : Prop) [Decidable p] : (if p then '-' else '+') ∉ decimalDigits := by
  split <;> decide

theorem cartesian_cut {sh : Shows} {a b a' b' : Integer} (ha : a.InRange) (hb : b.InRange) (ha' : a'.InRange)
    (hb' : b'.InRange) {r r' : List Char}
    (h : (Imaginary.cartesian a b).display sh ++ r = (Imaginary.cartesian a' b').display sh ++ r') :
    a.value = a'.value ∧ b.value = b'.value ∧ r = r' := by
  rw [cartesian_text sh ha hb, cartesian_text sh ha' hb', List.append_assoc, List.append_assoc] at h
  obtain ⟨h1, h2⟩ := intText_cut (.cons (sign_not_digit _)) (.cons (sign_not_digit _)) h
  obtain ⟨h5, h2⟩ := List.cons.inj h2
  rw [show ∀ l : List Char, List.append (natText b.value.natAbs ++ ['i']) l = natText b.value.natAbs ++ 'i' :: l from
    fun l => List.append_assoc _ _ _, show ∀ l : List Char, List.append (natText b'.value.natAbs ++ ['i']) l =
    natText b'.value.natAbs ++ 'i' :: l from fun l => List.append_assoc _ _ _] at h2
  obtain ⟨h3, h4⟩ := natText_cut (.cons (by decide)) (.cons (by decide)) h2
  refine ⟨h1, ?_, (List.cons.inj h4).2⟩
  by_cases hn : b.value < 0 <;> by_cases hn' : b'.value < 0 <;> simp only [hn, hn', if_true, if_false] at h5
  · omega
  · exact absurd h5 (by decide)
  · exact absurd h5 (by decide)
  · omega

/-! ## Values -/

namespace Value

/-- What the first character of the text of a literal tells. -/
def cls : Value → Nat
  | .character _ => 0
  | .string _ => 1
  | .boolean true => 2
  | .boolean false => 3
  | .null => 4
  | .integer _ => 5
  | .imaginary _ => 5
  | .array _ => 6
  | .binary _ => 6
  | _ => 7

def charCls (c : Char) : Nat :=
  if c = '\'' then 0 else if c = '"' then 1 else if c = 't' then 2 else if c = 'f' then 3
  else if c = 'n' then 4 else if c = '-' ∨ c ∈ decimalDigits then 5 else 6

theorem charCls_number {c : Char} (h : c = '-' ∨ c ∈ decimalDigits) : charCls c = 5 := by
  have : c = '-' ∨ c = '0' ∨ c = '1' ∨ c = '2' ∨ c = '3' ∨ c = '4' ∨ c = '5' ∨ c = '6' ∨ c = '7' ∨ c = '8' ∨ c = '9' := by
    rcases h with h | h
    · exact .inl h
    · simp only [decimalDigits, List.mem_cons, List.not_mem_nil, or_false] at h
      exact .inr h
  rcases this with h | h | h | h | h | h | h | h | h | h | h <;> subst h <;> decide

theorem Literal.head {v : Value} (hv : Literal v) (env : Env) (sh : Shows) :
    ∃ c t, display env sh v = c :: t ∧ charCls c = v.cls := by
  cases hv with
  | character c => exact ⟨'\'', _, rfl, (by decide : charCls '\'' = 0)⟩
  | string s => exact ⟨'"', _, rfl, (by decide : charCls '"' = 1)⟩
  | @binary b h =>
    cases b with
    | nil => exact absurd rfl h
    | cons x b => exact ⟨'[', _, rfl, (by decide : charCls '[' = 6)⟩
  | boolean b => cases b <;> exact ⟨_, _, rfl, by decide⟩
  | @integer i h =>
    obtain ⟨c, t, h1, h2⟩ := intText_head i.value
    exact ⟨c, t, by simp only [display, h.display_eq, h1], charCls_number h2⟩
  | @cartesian a b ha hb =>
    obtain ⟨c, t, h1, h2⟩ := intText_head a.value
    refine ⟨c, _, by simp only [display, cartesian_text sh ha hb, h1]; rfl, charCls_number h2⟩
  | null => exact ⟨_, _, rfl, by decide⟩
  | array h => exact ⟨'[', _, by simp only [display]; rfl, (by decide : charCls '[' = 6)⟩

theorem Literal.cls_eq {v v' : Value} (hv : Literal v) (hv' : Literal v') {env : Env} {sh : Shows}
    {r r' : List Char} (h : display env sh v ++ r = display env sh v' ++ r') : v.cls = v'.cls := by
  obtain ⟨c, t, h1, h2⟩ := hv.head env sh
  obtain ⟨c', t', h1', h2'⟩ := hv'.head env sh
  rw [h1, h1'] at h
  rw [← h2, ← h2', (List.cons.inj h).1]

theorem Literal.head_ne {v : Value} (hv : Literal v) (env : Env) (sh : Shows) (r s : List Char) :
    display env sh v ++ r ≠ ']' :: s := by
  intro h
  obtain ⟨c, t, h1, h2⟩ := hv.head env sh
  rw [h1] at h
  have hc : c = ']' := (List.cons.inj h).1
  rw [hc, show charCls ']' = 6 by decide] at h2
  cases hv with
  | @binary b hb =>
    cases b with
    | nil => exact absurd rfl hb
    | cons x b =>
      simp only [display, displayBytes] at h1
      rw [hc] at h1
      exact absurd (List.cons.inj h1).1 (by decide)
  | array ha =>
    simp only [display] at h1
    rw [hc] at h1
    exact absurd (List.cons.inj h1).1 (by decide)
  | boolean b => cases b <;> simp [cls] at h2
  | _ => simp [cls] at h2

theorem displayTail_ends (env : Env) (sh : Shows) (a : List Value) (r : List Char) :
    EndsItem (displayTail env sh a ++ r) := by
  intro c t e
  cases a with
  | nil =>
    simp only [displayTail] at e
    exact .inr (List.cons.inj e).1.symm
  | cons v a =>
    simp only [displayTail] at e
    exact .inl (List.cons.inj e).1.symm

/-- An array is not mistaken for binary data. -/
theorem items_ne_hex {env : Env} {sh : Shows} {a : List Value} (ha : ∀ v ∈ a, Literal v) (b : UInt8)
    (r s : List Char) : displayItems env sh a ++ r ≠ hexByte b ++ s := by
  intro h
  cases a with
  | nil =>
    simp only [displayItems] at h
    exact absurd (List.cons.inj h).1 (by decide)
  | cons v a =>
    simp only [displayItems, List.append_assoc] at h
    have hv := ha v (by simp)
    obtain ⟨c, t, h1, h2⟩ := hv.head env sh
    have hc : v.cls = 5 := by
      rw [h1] at h
      rw [← h2, (List.cons.inj h).1]
      decide
    have h0 : hexByte b ++ s = intText 0 ++ 'x' :: (hexByte b ++ s).tail.tail := by
      have : intText 0 = ['0'] := by decide +kernel
      rw [this]
      rfl
    rw [h0] at h
    have he := displayTail_ends env sh a r
    cases hv with
    | @integer i hi =>
      simp only [display, hi.display_eq] at h
      have := (intText_cut he.noDigit (.cons (by decide)) h).2
      exact absurd (he _ _ this) (by decide)
    | @cartesian x y hx hy =>
      simp only [display, cartesian_text sh hx hy, List.append_assoc] at h
      have := (intText_cut (.cons (sign_not_digit _)) (.cons (by decide)) h).2
      have := (List.cons.inj this).1
      revert this
      split <;> decide
    | boolean b => cases b <;> simp [cls] at hc
    | _ => simp [cls] at hc

/-- The text of a literal, followed by what can follow it in an array, can be read in one way only. -/
theorem Literal.cut {env : Env} {sh : Shows} {v : Value} (hv : Literal v) : ∀ {v' : Value}, Literal v' →
    ∀ {r r' : List Char}, EndsItem r → EndsItem r' → display env sh v ++ r = display env sh v' ++ r' →
    Alike v v' ∧ r = r' := by
  induction hv with
  | character c =>
    intro v' hv' r r' _ _ h
    have hc := (Literal.character c).cls_eq hv' h
    cases hv' with
    | character d =>
      simp only [display] at h
      obtain ⟨rfl, h'⟩ := charLiteral_cut sh h
      exact ⟨.character _, h'⟩
    | boolean b => cases b <;> simp [cls] at hc
    | _ => simp [cls] at hc
  | string s =>
    intro v' hv' r r' _ _ h
    have hc := (Literal.string s).cls_eq hv' h
    cases hv' with
    | string t =>
      simp only [display] at h
      obtain ⟨rfl, h'⟩ := strLiteral_cut sh h
      exact ⟨.string _, h'⟩
    | boolean b => cases b <;> simp [cls] at hc
    | _ => simp [cls] at hc
  | @binary b hb =>
    intro v' hv' r r' _ _ h
    have hc := (Literal.binary hb).cls_eq hv' h
    cases hv' with
    | binary _ =>
      simp only [display] at h
      obtain ⟨rfl, h'⟩ := displayBytes_cut h
      exact ⟨.binary _, h'⟩
    | array ha =>
      cases b with
      | nil => exact absurd rfl hb
      | cons x b =>
        simp only [display, displayBytes, List.cons_append, List.cons.injEq, true_and, List.append_assoc] at h
        exact absurd h.symm (items_ne_hex ha x _ _)
    | boolean b => cases b <;> simp [cls] at hc
    | _ => simp [cls] at hc
  | boolean b =>
    intro v' hv' r r' _ _ h
    have hc := (Literal.boolean b).cls_eq hv' h
    cases hv' with
    | boolean b' =>
      cases b <;> cases b' <;> simp [cls] at hc <;> exact ⟨.boolean _, by simpa [display] using h⟩
    | _ => cases b <;> simp [cls] at hc
  | @integer i hi =>
    intro v' hv' r r' hr hr' h
    have hc := (Literal.integer hi).cls_eq hv' h
    cases hv' with
    | @integer j hj =>
      simp only [display, hi.display_eq, hj.display_eq] at h
      obtain ⟨h1, h2⟩ := intText_cut hr.noDigit hr'.noDigit h
      exact ⟨.integer h1, h2⟩
    | @cartesian a b ha hb =>
      simp only [display, hi.display_eq, cartesian_text sh ha hb, List.append_assoc] at h
      have := (intText_cut hr.noDigit (.cons (sign_not_digit _)) h).2
      exfalso
      have := hr _ _ this
      revert this
      split <;> decide
    | boolean b => cases b <;> simp [cls] at hc
    | _ => simp [cls] at hc
  | @cartesian a b ha hb =>
    intro v' hv' r r' hr hr' h
    have hc := (Literal.cartesian ha hb).cls_eq hv' h
    cases hv' with
    | @integer j hj =>
      simp only [display, hj.display_eq, cartesian_text sh ha hb, List.append_assoc] at h
      have := (intText_cut (.cons (sign_not_digit _)) hr'.noDigit h).2
      exfalso
      have := hr' _ _ this.symm
      revert this
      split <;> decide
    | @cartesian a' b' ha' hb' =>
      simp only [display] at h
      obtain ⟨h1, h2, h3⟩ := cartesian_cut ha hb ha' hb' h
      exact ⟨.cartesian h1 h2, h3⟩
    | boolean b => cases b <;> simp [cls] at hc
    | _ => simp [cls] at hc
  | null =>
    intro v' hv' r r' _ _ h
    have hc := Literal.null.cls_eq hv' h
    cases hv' with
    | null => exact ⟨.null, by simpa [display] using h⟩
    | boolean b => cases b <;> simp [cls] at hc
    | _ => simp [cls] at hc
  | @array a ha ih =>
    intro v' hv' r r' _ _ h
    have hc := (Literal.array ha).cls_eq hv' h
    have tail : ∀ a : List Value, (∀ v ∈ a, ∀ {v' : Value}, Literal v' → ∀ {r r' : List Char}, EndsItem r →
        EndsItem r' → display env sh v ++ r = display env sh v' ++ r' → Alike v v' ∧ r = r') →
        ∀ b : List Value, (∀ v ∈ b, Literal v) → ∀ r r', displayTail env sh a ++ r = displayTail env sh b ++ r' →
        List.Forall₂ Alike a b ∧ r = r' := by
      intro a
      induction a with
      | nil =>
        intro _ b _ r r' h
        cases b with
        | nil => exact ⟨.nil, by simpa [displayTail] using h⟩
        | cons w b => simp [displayTail] at h
      | cons v a iha =>
        intro ih b hb r r' h
        cases b with
        | nil => simp [displayTail] at h
        | cons w b =>
          simp only [displayTail, List.cons_append, List.cons.injEq, true_and, List.append_assoc] at h
          obtain ⟨h1, h2⟩ := ih v (by simp) (hb w (by simp)) (displayTail_ends env sh a r)
            (displayTail_ends env sh b r') h
          obtain ⟨h3, h4⟩ := iha (fun x hx => ih x (by simp [hx])) b (fun x hx => hb x (by simp [hx])) _ _ h2
          exact ⟨.cons h1 h3, h4⟩
    cases hv' with
    | @array b hb =>
      simp only [display, List.cons_append, List.cons.injEq, true_and] at h
      have : List.Forall₂ Alike a b ∧ r = r' := by
        cases a with
        | nil =>
          cases b with
          | nil => exact ⟨.nil, by simpa [displayItems] using h⟩
          | cons w b =>
            simp only [displayItems, List.append_assoc] at h
            exact absurd h.symm ((hb w (by simp)).head_ne env sh _ _)
        | cons v a =>
          cases b with
          | nil =>
            simp only [displayItems, List.append_assoc] at h
            exact absurd h ((ha v (by simp)).head_ne env sh _ _)
          | cons w b =>
            simp only [displayItems, List.append_assoc] at h
            obtain ⟨h1, h2⟩ := ih v (by simp) (hb w (by simp)) (displayTail_ends env sh a r)
              (displayTail_ends env sh b r') h
            obtain ⟨h3, h4⟩ := tail a (fun x hx => ih x (by simp [hx])) b (fun x hx => hb x (by simp [hx])) _ _ h2
            exact ⟨.cons h1 h3, h4⟩
      refine ⟨.array this.1.length_eq fun i x y hx hy => ?_, this.2⟩
      obtain ⟨hi, rfl⟩ := List.getElem?_eq_some_iff.mp hx
      obtain ⟨hj, rfl⟩ := List.getElem?_eq_some_iff.mp hy
      exact (List.forall₂_iff_get.mp this.1).2 i hi hj
    | @binary b hb =>
      cases b with
      | nil => exact absurd rfl hb
      | cons x b =>
        simp only [display, displayBytes, List.cons_append, List.cons.injEq, true_and, List.append_assoc] at h
        exact absurd h (items_ne_hex ha x _ _)
    | boolean b => cases b <;> simp [cls] at hc
    | _ => simp [cls] at hc

end Value

end Souris
