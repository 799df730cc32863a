import Verif.Lemmas.JsonClose
import Verif.Lemmas.JsonPrint
import Verif.Lemmas.JsonShortest
import Verif.Lemmas.Display
import Verif.Props.JsonText

/-! # Printed JSON can be cut in one way only -/

namespace Souris

namespace SerdeJson

/-! ## Numbers -/

theorem nearest_eq {b c : UInt64} {q : ℚ} (hq : 0 ≤ q) (hb : F64Finite b) (hc : F64Finite c) (hs : b.toNat < 2 ^ 63)
    (hs' : c.toNat < 2 ^ 63) (h : Nearest b q) (h' : Nearest c q) : b = c := by
  obtain ⟨pos, x, hx, rfl⟩ := finite_signed hb
  obtain ⟨pos', y, hy, rfl⟩ := finite_signed hc
  have hi := hx
  have hi' := hy
  rw [inf_val] at hi hi'
  rw [signed_toNat pos hx] at hs
  rw [signed_toNat pos' hy] at hs'
  cases pos with
  | false => simp at hs
  | true =>
    cases pos' with
    | false => simp at hs'
    | true => rw [nearest_unique hq hx hy h h']

theorem nearest_eq_neg {b c : UInt64} {q : ℚ} (hq : 0 ≤ q) (hb : F64Finite b) (hc : F64Finite c) (hs : 2 ^ 63 ≤ b.toNat)
    (hs' : 2 ^ 63 ≤ c.toNat) (h : Nearest b (-q)) (h' : Nearest c (-q)) : b = c := by
  obtain ⟨pos, x, hx, rfl⟩ := finite_signed hb
  obtain ⟨pos', y, hy, rfl⟩ := finite_signed hc
  have hi := hx
  have hi' := hy
  rw [inf_val] at hi hi'
  rw [signed_toNat pos hx] at hs
  rw [signed_toNat pos' hy] at hs'
  cases pos with
  | true => simp at hs; omega
  | false =>
    cases pos' with
    | true => simp at hs'; omega
    | false =>
      have h1 := Nearest.flip hx h
      have h2 := Nearest.flip hy h'
      rw [neg_neg] at h1 h2
      rw [nearest_unique hq hx hy h1 h2]

theorem whole_real {ds : List Char} (h : JsonWhole ds) : JsonReal ds ds [] 0 := ⟨[], [], by simp, h, .inl ⟨rfl, rfl⟩, .none⟩

theorem real_head {t int frac s : List Char} {e : Int} (h : JsonReal ('-' :: t) int frac e) : s = [] → False := by
  obtain ⟨fr, ex, he, hw, _⟩ := h
  intro
  cases int with
  | nil => exact hw.1.1 rfl
  | cons c cs =>
    cases he
    exact absurd (hw.1.2 '-' (by simp)) (by decide)

/-- A text is right for one number only. -/
theorem right_unique {t : List Char} {n n' : SJNumber} (h : JsonRight t n) (h' : JsonRight t n') : n = n' := by
  cases h with
  | posInt hw hv =>
    cases h' with
    | posInt => rfl
    | negInt => exact (real_head (s := []) (whole_real hw) rfl).elim
    | posFloat hr hint =>
      obtain ⟨rfl, _⟩ := real_unique (whole_real hw) hr
      exact absurd (hint rfl) (by omega)
    | negFloat => exact (real_head (s := []) (whole_real hw) rfl).elim
  | negInt hw h0 hv =>
    cases h' with
    | posInt hw' => exact (real_head (s := []) (whole_real hw') rfl).elim
    | negInt => rfl
    | posFloat hr => exact (real_head (s := []) hr rfl).elim
    | negFloat hr hint =>
      obtain ⟨rfl, _⟩ := real_unique (whole_real hw) hr
      have := hint rfl
      omega
  | posFloat hr hint hb hs hv =>
    cases h' with
    | posInt hw hv' =>
      obtain ⟨rfl, _⟩ := real_unique (whole_real hw) hr
      exact absurd (hint rfl) (by omega)
    | negInt => exact (real_head (s := []) hr rfl).elim
    | posFloat hr' _ hb' hs' hv' =>
      obtain ⟨rfl, rfl, rfl⟩ := real_unique hr hr'
      rw [nearest_eq (realValue_nonneg _ _ _) hb hb' hs hs' hv hv']
    | negFloat => exact (real_head (s := []) hr rfl).elim
  | negFloat hr hint hb hs hv =>
    cases h' with
    | posInt hw => exact (real_head (s := []) (whole_real hw) rfl).elim
    | negInt hw h0 hv' =>
      obtain ⟨rfl, _⟩ := real_unique (whole_real hw) hr
      have := hint rfl
      omega
    | posFloat hr' => exact (real_head (s := []) hr' rfl).elim
    | negFloat hr' _ hb' hs' hv' =>
      obtain ⟨rfl, rfl, rfl⟩ := real_unique hr hr'
      rw [nearest_eq_neg (realValue_nonneg _ _ _) hb hb' hs hs' hv hv']

/-- Numbers with the same text are the same. -/
theorem numberText_inj {P : UInt64 → Prop} {n n' : SJNumber} (h : SJValue.Made P (.number n)) (h' : SJValue.Made P (.number n'))
    (e : numberText n = numberText n') : n = n' :=
  right_unique (numberText_right h) (by rw [e]; exact numberText_right h')

/-- The characters of numbers. -/
def numberChars : List Char := ['-', '+', '.', 'e', 'E'] ++ decimalDigits

theorem real_alphabet {t int frac : List Char} {e : Int} (h : JsonReal t int frac e) : t ≠ [] ∧ ∀ c ∈ t, c ∈ numberChars := by
  refine ⟨?_, fun c hc => ?_⟩
  · obtain ⟨fr, ex, rfl, hw, _⟩ := h
    exact fun h => hw.1.1 (by simp at h; exact h.1)
  · have hd : ∀ c ∈ decimalDigits, c ∈ numberChars := by decide
    rcases real_chars h c hc with h | rfl | rfl | rfl | rfl | rfl
    · exact hd c h
    all_goals decide

theorem right_chars {t : List Char} {n : SJNumber} (h : JsonRight t n) : t ≠ [] ∧ ∀ c ∈ t, c ∈ numberChars := by
  have neg : ∀ t : List Char, (t ≠ [] ∧ ∀ c ∈ t, c ∈ numberChars) → ('-' :: t) ≠ [] ∧ ∀ c ∈ '-' :: t, c ∈ numberChars := by
    rintro t ⟨_, h⟩
    refine ⟨by simp, fun c hc => ?_⟩
    rcases List.mem_cons.mp hc with rfl | hc
    · decide
    · exact h c hc
  cases h with
  | posInt hw => exact real_alphabet (whole_real hw)
  | negInt hw => exact neg _ (real_alphabet (whole_real hw))
  | posFloat hr => exact real_alphabet hr
  | negFloat hr => exact neg _ (real_alphabet hr)

/-- Text from one alphabet, followed by something outside of it, can be cut in one way. -/
theorem chars_cut {S : List Char} {a b r r' : List Char} (ha : ∀ c ∈ a, c ∈ S) (hb : ∀ c ∈ b, c ∈ S)
    (hr : ∀ c t, r = c :: t → c ∉ S) (hr' : ∀ c t, r' = c :: t → c ∉ S) (h : a ++ r = b ++ r') : a = b ∧ r = r' := by
  induction a generalizing b with
  | nil =>
    cases b with
    | nil => exact ⟨rfl, h⟩
    | cons c cs => exact absurd (hb c (by simp)) (hr c _ h)
  | cons c cs ih =>
    cases b with
    | nil => exact absurd (ha c (by simp)) (hr' c _ h.symm)
    | cons c' cs' =>
      rw [List.cons_append, List.cons_append, List.cons.injEq] at h
      obtain ⟨h1, h2⟩ := ih (fun x hx => ha x (by simp [hx])) (fun x hx => hb x (by simp [hx])) h.2
      exact ⟨by rw [h.1, h1], h2⟩

/-! ## Strings -/

theorem strText_cut {s t r r' : List Char} (h : strText s ++ r = strText t ++ r') : s = t ∧ r = r' := by
  simp only [strText, List.cons_append, List.append_assoc, List.nil_append, List.cons.injEq, true_and] at h
  have h1 := str_complete (strText_chars s)
    (fuel := (s.flatMap escapeChar).length + (t.flatMap escapeChar).length + 1) (by omega) r
  have h2 := str_complete (strText_chars t)
    (fuel := (s.flatMap escapeChar).length + (t.flatMap escapeChar).length + 1) (by omega) r'
  rw [h, h2] at h1
  cases h1
  exact ⟨rfl, rfl⟩

/-! ## Values -/

/-- What can follow a value. -/
def EndsValue (r : List Char) : Prop := ∀ c t, r = c :: t → c ∈ [',', ']', '}', '\n']

theorem EndsValue.cons {c : Char} {t : List Char} (h : c ∈ [',', ']', '}', '\n']) : EndsValue (c :: t) := by
  intro _ _ e
  cases e
  exact h

/-- The text of one value can be told from what follows. -/
def Cuts {α : Type} (f : α → List Char) (a : α) (P : α → Prop) : Prop :=
  ∀ b, P b → ∀ r r', EndsValue r → EndsValue r' → f a ++ r = f b ++ r' → a = b ∧ r = r'

theorem spread_cut {α : Type} {f : α → List Char} {P : α → Prop} {w cl : List Char} (hcl : ∃ c t, cl = c :: t ∧ c ∈ [']', '}', '\n'])
    {a b : List α} (ha : ∀ x ∈ a, Cuts f x P) (hb : ∀ y ∈ b, P y) (hne : a ≠ []) (hne' : b ≠ []) {r r' : List Char}
    (h : spread w (a.map f) ++ (cl ++ r) = spread w (b.map f) ++ (cl ++ r')) : a = b ∧ r = r' := by
  obtain ⟨cc, ct, rfl, hcc⟩ := hcl
  have hend : ∀ s, EndsValue (cc :: ct ++ s) := fun s => .cons (by
    simp only [List.mem_cons, List.not_mem_nil, or_false] at hcc ⊢; tauto)
  have hcomma : cc ≠ ',' := by rintro rfl; revert hcc; decide
  induction a generalizing b with
  | nil => exact absurd rfl hne
  | cons x xs ih =>
    cases b with
    | nil => exact absurd rfl hne'
    | cons y ys =>
      cases xs with
      | nil =>
        cases ys with
        | nil =>
          simp only [List.map_cons, List.map_nil, spread, List.append_assoc, List.append_cancel_left_eq] at h
          obtain ⟨rfl, h2⟩ := ha x (by simp) y (hb y (by simp)) _ _ (hend r) (hend r') h
          exact ⟨rfl, List.append_cancel_left h2⟩
        | cons z zs =>
          simp only [List.map_cons, List.map_nil, spread, List.append_assoc, List.append_cancel_left_eq] at h
          obtain ⟨_, h2⟩ := ha x (by simp) y (hb y (by simp)) _ _ (hend r) (.cons (by decide)) h
          exact absurd (List.cons.inj h2).1 hcomma
      | cons z zs =>
        cases ys with
        | nil =>
          simp only [List.map_cons, List.map_nil, spread, List.append_assoc, List.append_cancel_left_eq] at h
          obtain ⟨_, h2⟩ := ha x (by simp) y (hb y (by simp)) _ _ (.cons (by decide)) (hend r') h
          exact absurd (List.cons.inj h2).1.symm hcomma
        | cons z' zs' =>
          rw [List.map_cons, List.map_cons (l := z' :: zs'), List.map_cons, List.map_cons (l := zs')] at h
          simp only [spread, List.append_assoc, List.append_cancel_left_eq] at h
          obtain ⟨rfl, h2⟩ := ha x (by simp) y (hb y (by simp)) _ _ (.cons (by decide)) (.cons (by decide)) h
          simp only [List.cons_append, List.cons.injEq, true_and] at h2
          obtain ⟨h3, h4⟩ := ih (b := z' :: zs') (fun x hx => ha x (by simp [hx])) (fun y hy => hb y (by simp [hy])) (by simp) (by simp) h2
          exact ⟨by rw [h3], h4⟩

/-- What sort of value it is, and which character it begins with. -/
def sortOf : SJValue → Nat
  | .null => 0
  | .bool true => 1
  | .bool false => 2
  | .number _ => 3
  | .string _ => 4
  | .array _ => 5
  | .object _ => 6

def sortChar (c : Char) : Nat :=
  if c = 'n' then 0 else if c = 't' then 1 else if c = 'f' then 2 else if c = '"' then 4 else if c = '[' then 5
  else if c = '{' then 6 else 3

theorem number_head {P : UInt64 → Prop} {n : SJNumber} (h : SJValue.Made P (.number n)) :
    ∃ c t, numberText n = c :: t ∧ sortChar c = 3 := by
  obtain ⟨h1, h2⟩ := right_chars (numberText_right h)
  cases hn : numberText n with
  | nil => exact absurd hn h1
  | cons c t =>
    have : ∀ c ∈ numberChars, sortChar c = 3 := by decide
    exact ⟨c, t, rfl, this c (h2 c (by simp [hn]))⟩

theorem print_head {P : UInt64 → Prop} {j : SJValue} (h : j.Made P) : ∃ c t, print j = c :: t ∧ sortChar c = sortOf j := by
  cases h with
  | null => exact ⟨_, _, rfl, rfl⟩
  | bool b => cases b <;> exact ⟨_, _, rfl, rfl⟩
  | posInt h => rw [print]; exact number_head (P := P) (.posInt h)
  | negInt h h0 => rw [print]; exact number_head (P := P) (.negInt h h0)
  | float h hp => rw [print]; exact number_head (P := P) (.float h hp)
  | string s => exact ⟨_, _, rfl, rfl⟩
  | array h => exact ⟨_, _, rfl, rfl⟩
  | object ho h => exact ⟨_, _, rfl, rfl⟩

theorem pretty_head {P : UInt64 → Prop} (l : Nat) {j : SJValue} (h : j.Made P) :
    ∃ c t, pretty l j = c :: t ∧ sortChar c = sortOf j := by
  cases h with
  | null => exact ⟨_, _, rfl, rfl⟩
  | bool b => cases b <;> exact ⟨_, _, rfl, rfl⟩
  | posInt h => rw [pretty]; exact number_head (P := P) (.posInt h)
  | negInt h h0 => rw [pretty]; exact number_head (P := P) (.negInt h h0)
  | float h hp => rw [pretty]; exact number_head (P := P) (.float h hp)
  | string s => exact ⟨_, _, rfl, rfl⟩
  | @array a h => cases a <;> exact ⟨_, _, rfl, rfl⟩
  | @object m ho h => cases m <;> exact ⟨_, _, rfl, rfl⟩

theorem number_cut {P : UInt64 → Prop} {n n' : SJNumber} (h : SJValue.Made P (.number n)) (h' : SJValue.Made P (.number n'))
    {r r' : List Char} (hr : EndsValue r) (hr' : EndsValue r') (e : numberText n ++ r = numberText n' ++ r') : n = n' ∧ r = r' := by
  have hd : ∀ c ∈ [',', ']', '}', '\n'], c ∉ numberChars := by decide
  obtain ⟨h1, h2⟩ := chars_cut (right_chars (numberText_right h)).2 (right_chars (numberText_right h')).2
    (fun c t e => hd c (hr c t e)) (fun c t e => hd c (hr' c t e)) e
  exact ⟨numberText_inj h h' h1, h2⟩

theorem entry_cut {P : UInt64 → Prop} {f : SJValue → List Char} {x : List Char × SJValue} {sep : List Char}
    (h : Cuts f x.2 (SJValue.Made P)) :
    Cuts (fun e : List Char × SJValue => strText e.1 ++ sep ++ f e.2) x (fun e => e.2.Made P) := by
  intro y hy r r' hr hr' e
  simp only [List.append_assoc] at e
  obtain ⟨h1, h2⟩ := strText_cut e
  obtain ⟨h3, h4⟩ := h y.2 hy r r' hr hr' (List.append_cancel_left h2)
  exact ⟨Prod.ext h1 h3, h4⟩

theorem print_cut {P : UInt64 → Prop} {j : SJValue} (hj : j.Made P) : Cuts print j (SJValue.Made P) := by
  have sorts : ∀ {j k : SJValue} {r r' : List Char}, j.Made P → k.Made P → print j ++ r = print k ++ r' → sortOf j = sortOf k := by
    intro j k r r' hj hk h
    obtain ⟨c, t, h1, h2⟩ := print_head hj
    obtain ⟨c', t', h3, h4⟩ := print_head hk
    rw [h1, h3] at h
    rw [← h2, ← h4, (List.cons.inj h).1]
  have num : ∀ {n : SJNumber}, SJValue.Made P (.number n) → Cuts print (.number n) (SJValue.Made P) := by
    intro n hn k hk r r' hr hr' h
    have hs := sorts hn hk h
    cases k with
    | number n' =>
      rw [print, print] at h
      obtain ⟨rfl, h2⟩ := number_cut hn hk hr hr' h
      exact ⟨rfl, h2⟩
    | bool b => cases b <;> cases hs
    | _ => cases hs
  induction hj with
  | null =>
    intro k hk r r' hr hr' h
    have hs := sorts .null hk h
    cases k with
    | null => exact ⟨rfl, List.append_cancel_left h⟩
    | bool b => cases b <;> cases hs
    | _ => cases hs
  | bool b =>
    intro k hk r r' hr hr' h
    have hs := sorts (.bool b) hk h
    cases k with
    | bool b' =>
      have : b = b' := by cases b <;> cases b' <;> first | rfl | cases hs
      subst this
      exact ⟨rfl, List.append_cancel_left h⟩
    | _ => cases b <;> cases hs
  | posInt h => exact num (.posInt h)
  | negInt h h0 => exact num (.negInt h h0)
  | float h hp => exact num (.float h hp)
  | string s =>
    intro k hk r r' hr hr' h
    have hs := sorts (.string s) hk h
    cases k with
    | string t =>
      rw [print, print] at h
      obtain ⟨rfl, h2⟩ := strText_cut h
      exact ⟨rfl, h2⟩
    | bool b => cases b <;> cases hs
    | _ => cases hs
  | @array a ha ih =>
    intro k hk r r' hr hr' h
    have hs := sorts (.array ha) hk h
    cases k with
    | array b =>
      have hb : ∀ y ∈ b, y.Made P := by cases hk; assumption
      rw [print, print, printList_eq, printList_eq, commas_spread, commas_spread] at h
      simp only [List.cons_append, List.append_assoc, List.nil_append, List.cons.injEq, true_and] at h
      have hne : ∀ {y : SJValue} {ys : List SJValue} {s s' : List Char}, y.Made P → spread [] ((y :: ys).map print) ++ s ≠ ']' :: s' := by
        intro y ys s s' hy e
        obtain ⟨c, t, h1, h2⟩ := print_head hy
        have h3 : c = ']' := by
          cases ys <;> (rw [List.map_cons] at e; simp only [List.map_cons, List.map_nil, spread, h1, List.nil_append, List.cons_append] at e; exact (List.cons.inj e).1)
        subst h3
        cases y with
        | bool b => cases b <;> cases h2
        | number n =>
          obtain ⟨h5, h6⟩ := right_chars (numberText_right hy)
          rw [print] at h1
          exact absurd (h6 ']' (by rw [h1]; simp)) (by decide)
        | _ => cases h2
      cases a with
      | nil =>
        cases b with
        | nil =>
          rw [List.map_nil] at h
          exact ⟨rfl, (List.cons.inj (List.append_cancel_left h)).2⟩
        | cons y ys => exact absurd h.symm (hne (hb y (by simp)))
      | cons x xs =>
        cases b with
        | nil => exact absurd h (hne (ha x (by simp)))
        | cons y ys =>
          obtain ⟨h1, h2⟩ := spread_cut (cl := [']']) ⟨_, _, rfl, by decide⟩ ih hb (by simp) (by simp) h
          exact ⟨by rw [h1], h2⟩
    | bool b => cases b <;> cases hs
    | _ => cases hs
  | @object m ho hm ih =>
    intro k hk r r' hr hr' h
    have hs := sorts (.object ho hm) hk h
    cases k with
    | object b =>
      have hb : ∀ y ∈ b, y.2.Made P := by
        cases hk with | object _ h => exact fun y hy => h y.1 y.2 hy
      rw [print, print, printEntries_eq, printEntries_eq, commas_spread, commas_spread] at h
      simp only [List.cons_append, List.append_assoc, List.nil_append, List.cons.injEq, true_and] at h
      have hne : ∀ {y : List Char × SJValue} {ys : List (List Char × SJValue)} {s s' : List Char},
          spread [] ((y :: ys).map fun e => strText e.1 ++ ':' :: print e.2) ++ s ≠ '}' :: s' := by
        intro y ys s s' e
        cases ys <;> (rw [List.map_cons] at e; simp only [List.map_cons, List.map_nil, spread, strText, List.nil_append, List.cons_append] at e; exact absurd (List.cons.inj e).1 (by decide))
      cases m with
      | nil =>
        cases b with
        | nil =>
          rw [List.map_nil] at h
          exact ⟨rfl, (List.cons.inj (List.append_cancel_left h)).2⟩
        | cons y ys => exact absurd h.symm hne
      | cons x xs =>
        cases b with
        | nil => exact absurd h hne
        | cons y ys =>
          obtain ⟨h1, h2⟩ := spread_cut (cl := ['}']) (P := fun e : List Char × SJValue => e.2.Made P)
            (f := fun e => strText e.1 ++ [':'] ++ print e.2) ⟨_, _, rfl, by decide⟩
            (fun x hx => entry_cut (ih x.1 x.2 hx)) hb (by simp) (by simp) (by simpa using h)
          exact ⟨by rw [h1], h2⟩
    | bool b => cases b <;> cases hs
    | _ => cases hs

theorem pretty_cut {P : UInt64 → Prop} (l : Nat) {j : SJValue} (hj : j.Made P) : Cuts (pretty l) j (SJValue.Made P) := by
  have sorts : ∀ {l : Nat} {j k : SJValue} {r r' : List Char}, j.Made P → k.Made P → pretty l j ++ r = pretty l k ++ r' → sortOf j = sortOf k := by
    intro l j k r r' hj hk h
    obtain ⟨c, t, h1, h2⟩ := pretty_head l hj
    obtain ⟨c', t', h3, h4⟩ := pretty_head l hk
    rw [h1, h3] at h
    rw [← h2, ← h4, (List.cons.inj h).1]
  have num : ∀ {l : Nat} {n : SJNumber}, SJValue.Made P (.number n) → Cuts (pretty l) (.number n) (SJValue.Made P) := by
    intro l n hn k hk r r' hr hr' h
    have hs := sorts hn hk h
    cases k with
    | number n' =>
      rw [pretty, pretty] at h
      obtain ⟨rfl, h2⟩ := number_cut hn hk hr hr' h
      exact ⟨rfl, h2⟩
    | bool b => cases b <;> cases hs
    | _ => cases hs
  induction hj generalizing l with
  | null =>
    intro k hk r r' hr hr' h
    have hs := sorts .null hk h
    cases k with
    | null => exact ⟨rfl, List.append_cancel_left (as := pretty l _) h⟩
    | bool b => cases b <;> cases hs
    | _ => cases hs
  | bool b =>
    intro k hk r r' hr hr' h
    have hs := sorts (.bool b) hk h
    cases k with
    | bool b' =>
      have : b = b' := by cases b <;> cases b' <;> first | rfl | cases hs
      subst this
      exact ⟨rfl, List.append_cancel_left (as := pretty l _) h⟩
    | _ => cases b <;> cases hs
  | posInt h => exact num (.posInt h)
  | negInt h h0 => exact num (.negInt h h0)
  | float h hp => exact num (.float h hp)
  | string s =>
    intro k hk r r' hr hr' h
    have hs := sorts (.string s) hk h
    cases k with
    | string t =>
      rw [pretty, pretty] at h
      obtain ⟨rfl, h2⟩ := strText_cut h
      exact ⟨rfl, h2⟩
    | bool b => cases b <;> cases hs
    | _ => cases hs
  | @array a ha ih =>
    intro k hk r r' hr hr' h
    have hs := sorts (.array ha) hk h
    cases k with
    | array b =>
      have hb : ∀ y ∈ b, y.Made P := by cases hk; assumption
      cases a with
      | nil =>
        cases b with
        | nil => exact ⟨rfl, List.append_cancel_left (as := pretty l _) h⟩
        | cons y ys =>
          rw [pretty, pretty, prettyList_eq, lines_spread] at h
          cases ys <;> (simp only [List.map_cons, List.map_nil, spread, newLine, List.nil_append, List.cons_append, List.cons.injEq] at h; exact absurd h.2.1 (by decide))
      | cons x xs =>
        cases b with
        | nil =>
          rw [pretty, pretty, prettyList_eq, lines_spread] at h
          cases xs <;> (simp only [List.map_cons, List.map_nil, spread, newLine, List.nil_append, List.cons_append, List.cons.injEq] at h; exact absurd h.2.1 (by decide))
        | cons y ys =>
          rw [pretty, pretty, prettyList_eq, prettyList_eq, lines_spread, lines_spread] at h
          simp only [List.cons_append, List.append_assoc, List.cons.injEq, true_and] at h
          obtain ⟨h1, h2⟩ := spread_cut (cl := newLine l ++ [']']) ⟨_, _, rfl, by decide⟩ (fun x hx => ih x hx (l + 1)) hb (by simp) (by simp)
            (by simpa only [List.append_assoc, List.cons_append, List.nil_append] using h)
          exact ⟨by rw [h1], h2⟩
    | bool b => cases b <;> cases hs
    | _ => cases hs
  | @object m ho hm ih =>
    intro k hk r r' hr hr' h
    have hs := sorts (.object ho hm) hk h
    cases k with
    | object b =>
      have hb : ∀ y ∈ b, y.2.Made P := by
        cases hk with | object _ h => exact fun y hy => h y.1 y.2 hy
      cases m with
      | nil =>
        cases b with
        | nil => exact ⟨rfl, List.append_cancel_left (as := pretty l _) h⟩
        | cons y ys =>
          rw [pretty, pretty, prettyEntries_eq, lines_spread] at h
          cases ys <;> (simp only [List.map_cons, List.map_nil, spread, newLine, List.nil_append, List.cons_append, List.cons.injEq] at h; exact absurd h.2.1 (by decide))
      | cons x xs =>
        cases b with
        | nil =>
          rw [pretty, pretty, prettyEntries_eq, lines_spread] at h
          cases xs <;> (simp only [List.map_cons, List.map_nil, spread, newLine, List.nil_append, List.cons_append, List.cons.injEq] at h; exact absurd h.2.1 (by decide))
        | cons y ys =>
          rw [pretty, pretty, prettyEntries_eq, prettyEntries_eq, lines_spread, lines_spread] at h
          simp only [List.cons_append, List.append_assoc, List.cons.injEq, true_and] at h
          obtain ⟨h1, h2⟩ := spread_cut (cl := newLine l ++ ['}']) (P := fun e : List Char × SJValue => e.2.Made P)
            (f := fun e => strText e.1 ++ [':', ' '] ++ pretty (l + 1) e.2) ⟨_, _, rfl, by decide⟩
            (fun x hx => entry_cut (ih x.1 x.2 hx (l + 1))) hb (by simp) (by simp) (by simpa only [List.append_assoc, List.cons_append, List.nil_append] using h)
          exact ⟨by rw [h1], h2⟩
    | bool b => cases b <;> cases hs
    | _ => cases hs

end SerdeJson

end Souris
