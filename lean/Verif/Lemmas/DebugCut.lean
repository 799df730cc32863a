import Verif.Lemmas.DebugFloat
import Verif.Lemmas.JsonCut
import Verif.Lemmas.ErrorText
import Verif.Props.ChronoText

/-! # What `Debug` shows can be cut in one way only -/

namespace Souris

namespace Dbg

open Fault

/-- What stands behind the text of a field or item. -/
def stops : List Char := [' ', ',', ')', ']', '}']

/-- Behind a field or item. -/
def Stops (r : List Char) : Prop := ∃ c t, r = c :: t ∧ c ∈ stops

theorem Stops.cons {c : Char} {t : List Char} (h : c ∈ stops) : Stops (c :: t) := ⟨c, t, rfl, h⟩

/-- The texts end where a stop begins. -/
def Cut (a b : List Char) : Prop := ∀ r r', Stops r → Stops r' → a ++ r = b ++ r' → a = b ∧ r = r'

/-- The texts begin with something else than a stop. -/
def Head (x : List Char) : Prop := ∃ c t, x = c :: t ∧ c ∉ stops

theorem free_cut {a b : List Char} (ha : ∀ c ∈ a, c ∉ stops) (hb : ∀ c ∈ b, c ∉ stops) : Cut a b := by
  intro r r' hr hr' h
  obtain ⟨c, t, rfl, hc⟩ := hr
  obtain ⟨c', t', rfl, hc'⟩ := hr'
  induction a generalizing b with
  | nil =>
    cases b with
    | nil => exact ⟨rfl, h⟩
    | cons x xs =>
      simp only [List.nil_append, List.cons_append, List.cons.injEq] at h
      exact absurd hc (by rw [h.1]; exact hb x (by simp))
  | cons x xs ih =>
    cases b with
    | nil =>
      simp only [List.nil_append, List.cons_append, List.cons.injEq] at h
      exact absurd hc' (by rw [← h.1]; exact ha x (by simp))
    | cons y ys =>
      simp only [List.cons_append, List.cons.injEq] at h
      obtain ⟨h1, h2⟩ := ih (fun c hc => ha c (by simp [hc])) (fun c hc => hb c (by simp [hc])) h.2
      exact ⟨by rw [h.1, h1], h2⟩

theorem cut_of {a b : List Char} (h : ∀ r r', a ++ r = b ++ r' → r = r') : Cut a b := by
  intro r r' _ _ e
  have := h r r' e
  subst this
  exact ⟨List.append_cancel_right e, rfl⟩

/-- Items at the same place. -/
def Pairs : List (List Char) → List (List Char) → Prop
  | x :: xs, y :: ys => Cut x y ∧ Pairs xs ys
  | _, _ => True

theorem pairs_of {xs ys : List (List Char)} (h : ∀ x ∈ xs, ∀ y ∈ ys, Cut x y) : Pairs xs ys := by
  induction xs generalizing ys with
  | nil => cases ys <;> trivial
  | cons x xs ih =>
    cases ys with
    | nil => trivial
    | cons y ys => exact ⟨h x (by simp) y (by simp), ih fun a ha b hb => h a (by simp [ha]) b (by simp [hb])⟩

theorem tail_stops (xs : List (List Char)) {c : Char} (hc : c ∈ stops) (r : List Char) : Stops (tail xs ++ c :: r) := by
  cases xs with
  | nil => exact .cons hc
  | cons x xs => exact .cons (c := ',') (by decide)

theorem tail_cut {c : Char} (hc : c ∈ stops) (hc' : c ≠ ',') : ∀ {xs ys : List (List Char)} {r r' : List Char}, Pairs xs ys →
    tail xs ++ c :: r = tail ys ++ c :: r' → xs = ys ∧ r = r'
  | [], [], _, _, _, h => ⟨rfl, by simpa [tail] using h⟩
  | [], y :: ys, _, _, _, h => by
    simp only [tail, List.nil_append, List.cons_append, List.cons.injEq] at h
    exact absurd h.1 hc'
  | x :: xs, [], _, _, _, h => by
    simp only [tail, List.nil_append, List.cons_append, List.cons.injEq] at h
    exact absurd h.1.symm hc'
  | x :: xs, y :: ys, r, r', hp, h => by
    simp only [tail, List.cons_append, List.cons.injEq, true_and, List.append_assoc] at h
    obtain ⟨e1, e2⟩ := hp.1 _ _ (tail_stops xs hc r) (tail_stops ys hc r') h
    obtain ⟨e3, e4⟩ := tail_cut hc hc' hp.2 e2
    exact ⟨by rw [e1, e3], e4⟩

theorem joined_cut {c : Char} (hc : c ∈ stops) (hc' : c ≠ ',') {xs ys : List (List Char)} {r r' : List Char} (hp : Pairs xs ys)
    (hl : xs.length = ys.length ∨ (∀ x ∈ xs, Head x) ∧ ∀ y ∈ ys, Head y)
    (h : joined xs ++ c :: r = joined ys ++ c :: r') : xs = ys ∧ r = r' := by
  cases xs with
  | nil =>
    cases ys with
    | nil => exact ⟨rfl, by simpa [joined] using h⟩
    | cons y ys =>
      rcases hl with hl | ⟨_, hy⟩
      · simp at hl
      · obtain ⟨z, t, rfl, hz⟩ := hy y (by simp)
        simp only [joined, List.nil_append, List.cons_append, List.cons.injEq] at h
        exact absurd hc (by rw [h.1]; exact hz)
  | cons x xs =>
    cases ys with
    | nil =>
      rcases hl with hl | ⟨hx, _⟩
      · simp at hl
      · obtain ⟨z, t, rfl, hz⟩ := hx x (by simp)
        simp only [joined, List.nil_append, List.cons_append, List.cons.injEq] at h
        exact absurd hc (by rw [← h.1]; exact hz)
    | cons y ys =>
      simp only [joined, List.append_assoc] at h
      obtain ⟨e1, e2⟩ := hp.1 _ _ (tail_stops xs hc r) (tail_stops ys hc r') h
      obtain ⟨e3, e4⟩ := tail_cut hc hc' hp.2 e2
      exact ⟨by rw [e1, e3], e4⟩

theorem newLine_ne {l : Nat} {c : Char} {r t : List Char} (hc : c ≠ ' ') : newLine l ++ c :: r ≠ newLine (l + 1) ++ t := by
  intro h
  have e : List.replicate (4 * (l + 1)) ' ' = List.replicate (4 * l) ' ' ++ [' ', ' ', ' ', ' '] := by
    rw [show 4 * (l + 1) = 4 * l + 4 by omega, List.replicate_add]
    rfl
  simp only [newLine, e, List.cons_append, List.cons.injEq, true_and, List.append_assoc] at h
  have := List.append_cancel_left h
  simp only [List.cons_append, List.cons.injEq] at this
  exact hc this.1

theorem lines_cut {l : Nat} {c : Char} (hc : c ≠ ' ') : ∀ {xs ys : List (List Char)} {r r' : List Char}, Pairs xs ys →
    lines (l + 1) xs ++ (newLine l ++ c :: r) = lines (l + 1) ys ++ (newLine l ++ c :: r') → xs = ys ∧ r = r'
  | [], [], _, _, _, h => by
    have := List.append_cancel_left (as := newLine l) (by simpa only [lines, List.nil_append] using h)
    exact ⟨rfl, by simpa using this⟩
  | [], y :: ys, _, _, _, h => by
    simp only [lines, List.nil_append, List.append_assoc] at h
    exact absurd h (newLine_ne hc)
  | x :: xs, [], _, _, _, h => by
    simp only [lines, List.nil_append, List.append_assoc] at h
    exact absurd h.symm (newLine_ne hc)
  | x :: xs, y :: ys, r, r', hp, h => by
    simp only [lines, List.append_assoc, List.cons_append] at h
    obtain ⟨e1, e2⟩ := hp.1 _ _ (.cons (by decide)) (.cons (by decide)) (List.append_cancel_left h)
    obtain ⟨e3, e4⟩ := lines_cut hc hp.2 (List.cons.inj e2).2
    exact ⟨by rw [e1, e3], e4⟩

theorem inner_cut {alt : Bool} {l : Nat} {c : Char} (hc : c ∈ [')', ']', '}']) {xs ys : List (List Char)} {r r' : List Char}
    (hp : Pairs xs ys) (hl : xs.length = ys.length ∨ (∀ x ∈ xs, Head x) ∧ ∀ y ∈ ys, Head y)
    (h : inner alt l xs ++ c :: r = inner alt l ys ++ c :: r') : xs = ys ∧ r = r' := by
  have hs : c ∈ stops ∧ c ≠ ',' ∧ c ≠ ' ' ∧ c ≠ '\n' := by
    have : ∀ c ∈ [')', ']', '}'], c ∈ stops ∧ c ≠ ',' ∧ c ≠ ' ' ∧ c ≠ '\n' := by decide
    exact this c hc
  cases alt with
  | false => exact joined_cut hs.1 hs.2.1 hp hl (by simpa [inner] using h)
  | true =>
    simp only [inner, if_true] at h
    cases xs with
    | nil =>
      cases ys with
      | nil => exact ⟨rfl, by simpa using h⟩
      | cons y ys =>
        simp only [if_true, reduceCtorEq, if_false, List.nil_append, lines, newLine, List.cons_append, List.cons.injEq] at h
        exact absurd h.1 hs.2.2.2
    | cons x xs =>
      cases ys with
      | nil =>
        simp only [if_true, reduceCtorEq, if_false, List.nil_append, lines, newLine, List.cons_append, List.cons.injEq] at h
        exact absurd h.1.symm hs.2.2.2
      | cons y ys =>
        simp only [reduceCtorEq, if_false, List.append_assoc] at h
        exact lines_cut hs.2.2.1 hp h

theorem tuple_name {alt : Bool} {l : Nat} {n m x y r r' : List Char} (hn : '(' ∉ n) (hm : '(' ∉ m)
    (h : tuple alt l n x ++ r = tuple alt l m y ++ r') : n = m := by
  simp only [tuple, List.append_assoc, List.cons_append] at h
  exact (sep_cut hn hm h).1

theorem tuple_cut {alt : Bool} {l : Nat} {n x y r r' : List Char} (hc : Cut x y)
    (h : tuple alt l n x ++ r = tuple alt l n y ++ r') : x = y ∧ r = r' := by
  simp only [tuple, List.append_assoc, List.cons_append, List.nil_append] at h
  have h := (List.cons.inj (List.append_cancel_left h)).2
  obtain ⟨e1, e2⟩ := inner_cut (xs := [x]) (ys := [y]) (by decide) ⟨hc, trivial⟩ (.inl rfl) h
  exact ⟨(List.cons.inj e1).1, e2⟩

theorem list_cut {alt : Bool} {l : Nat} {xs ys : List (List Char)} {r r' : List Char} (hp : Pairs xs ys)
    (hl : xs.length = ys.length ∨ (∀ x ∈ xs, Head x) ∧ ∀ y ∈ ys, Head y)
    (h : list alt l xs ++ r = list alt l ys ++ r') : xs = ys ∧ r = r' := by
  simp only [list, List.append_assoc, List.cons_append, List.nil_append, List.cons.injEq, true_and] at h
  exact inner_cut (by decide) hp hl h

theorem map_cut {alt : Bool} {l : Nat} {xs ys : List (List Char)} {r r' : List Char} (hp : Pairs xs ys)
    (hl : xs.length = ys.length ∨ (∀ x ∈ xs, Head x) ∧ ∀ y ∈ ys, Head y)
    (h : map alt l xs ++ r = map alt l ys ++ r') : xs = ys ∧ r = r' := by
  simp only [map, List.append_assoc, List.cons_append, List.nil_append, List.cons.injEq, true_and] at h
  exact inner_cut (by decide) hp hl h

theorem struct_cut {alt : Bool} {l : Nat} {n : List Char} {xs ys : List (List Char)} {r r' : List Char} (hp : Pairs xs ys)
    (hl : xs.length = ys.length) (h : struct alt l n xs ++ r = struct alt l n ys ++ r') : xs = ys ∧ r = r' := by
  cases alt with
  | true =>
    simp only [struct, if_true, List.append_assoc, List.cons_append, List.nil_append] at h
    have h := (List.cons.inj (List.cons.inj (List.append_cancel_left h)).2).2
    exact inner_cut (by decide) hp (.inl hl) h
  | false =>
    simp only [struct, Bool.false_eq_true, if_false, List.append_assoc, List.cons_append, List.nil_append] at h
    have h := (List.cons.inj (List.cons.inj (List.cons.inj (List.append_cancel_left h)).2).2).2
    simp only [inner, Bool.false_eq_true, if_false] at h
    obtain ⟨e1, e2⟩ := joined_cut (c := ' ') (by decide) (by decide) hp (.inl hl) h
    exact ⟨e1, (List.cons.inj e2).2⟩

theorem entry_cut {n a b : List Char} (h : Cut a b) : Cut (entry n a) (entry n b) := by
  intro r r' hr hr' e
  simp only [entry, List.append_assoc, List.cons_append] at e
  obtain ⟨e1, e2⟩ := h r r' hr hr' (List.cons.inj (List.cons.inj (List.append_cancel_left e)).2).2
  exact ⟨by rw [e1], e2⟩

theorem entry_inj {n a b : List Char} (h : entry n a = entry n b) : a = b := by
  simp only [entry] at h
  exact (List.cons.inj (List.cons.inj (List.append_cancel_left h)).2).2

/-- Entries of maps. -/
theorem keyed_cut (sh : Shows) {k k' a b : List Char} (h : Cut a b) :
    Cut (entry (sh.strLiteral k) a) (entry (sh.strLiteral k') b) := by
  intro r r' hr hr' e
  have e' := e
  simp only [entry, List.append_assoc, List.cons_append] at e'
  obtain ⟨rfl, e1⟩ := strLiteral_cut sh e'
  exact entry_cut h r r' hr hr' e

theorem keyed_inj (sh : Shows) {k k' a b : List Char} (h : entry (sh.strLiteral k) a = entry (sh.strLiteral k') b) : k = k' ∧ a = b := by
  have h' := h
  simp only [entry] at h'
  obtain ⟨rfl, _⟩ := strLiteral_cut sh h'
  exact ⟨rfl, entry_inj h⟩

theorem str_cut (sh : Shows) (s t : List Char) : Cut (sh.strLiteral s) (sh.strLiteral t) :=
  cut_of fun _ _ h => (strLiteral_cut sh h).2

theorem str_inj (sh : Shows) {s t : List Char} (h : sh.strLiteral s = sh.strLiteral t) : s = t :=
  (strLiteral_cut sh (r := []) (r' := []) (by rw [h])).1

theorem bytes_inj {a b : List UInt8} (h : displayBytes a = displayBytes b) : a = b :=
  (displayBytes_cut (r := []) (r' := []) (by rw [h])).1

theorem nat_free (n : Nat) : ∀ c ∈ natText n, c ∉ stops := by
  intro c hc
  have : ∀ c ∈ decimalDigits, c ∉ stops := by decide
  exact this c ((natText_spec n).2.1 c hc)

theorem toList_all {p : Char → Prop} {a : List Char} (h : ∀ c ∈ a, p c) : ∀ c ∈ (String.ofList a).toList, p c := by
  rwa [String.toList_ofList]

theorem state_free (s : SignedState) : ∀ c ∈ s.debug, c ∉ stops := by
  cases s <;> exact toList_all (by decide +kernel)

theorem state_inj {s t : SignedState} (h : s.debug = t.debug) : s = t := by
  cases s <;> cases t <;> first | rfl | (exact absurd h (toList_ne (by decide +kernel)))

theorem integer_cut (sh : Shows) {alt : Bool} {l : Nat} {i j : Integer} {r r' : List Char}
    (h : i.debug sh alt l ++ r = j.debug sh alt l ++ r') : i = j ∧ r = r' := by
  unfold Integer.debug at h
  obtain ⟨e1, e2⟩ := struct_cut (hl := by simp only [List.length_cons, List.length_nil]) (h := h) (hp := by
    exact ⟨entry_cut (free_cut (state_free _) (state_free _)), entry_cut (free_cut (nat_free _) (nat_free _)),
      entry_cut (str_cut _ _ _), entry_cut (str_cut _ _ _), trivial⟩)
  simp only [List.cons.injEq, and_true] at e1
  obtain ⟨a1, a2, a3, a4⟩ := e1
  refine ⟨?_, e2⟩
  have b1 := state_inj (entry_inj a1)
  have b2 := natText_inj' (entry_inj a2)
  have b4 := bytes_inj (str_inj sh (entry_inj a4))
  cases i
  cases j
  simp only at b1 b2 b4
  subst b1 b2 b4
  rfl

theorem float_free {K : FloatKind} {x : Nat} {t : List Char} (h : K.DebugPrinted x t) : ∀ c ∈ t, c ∉ stops := by
  intro c hc
  have : ∀ c ∈ StdText.floatChars, c ∉ stops := by decide
  exact this c ((StdText.debug_chars h).2 c hc)

theorem f64_cut (x y : UInt64) : Cut (StdText.f64Debug x) (StdText.f64Debug y) :=
  free_cut (float_free (StdText.f64Debug_printed x)) (float_free (StdText.f64Debug_printed y))

/-- The same complex numbers, but for the bits of not-a-numbers. -/
inductive ImTwin : Imaginary → Imaginary → Prop
  | same (z : Imaginary) : ImTwin z z
  | polar {m a m' a' : UInt64} (h1 : m = m' ∨ Value.IsNan64 m ∧ Value.IsNan64 m') (h2 : a = a' ∨ Value.IsNan64 a ∧ Value.IsNan64 a') :
      ImTwin (.polar m a) (.polar m' a')

theorem cartesian_eq (sh : Shows) (alt : Bool) (l : Nat) (a b : Integer) : (Imaginary.cartesian a b).debug sh alt l =
    struct alt l "CartesianForm".toList
      [entry "real".toList (a.debug sh alt (l + 1)), entry "imaginary".toList (b.debug sh alt (l + 1))] := by
  rw [Imaginary.debug]

theorem polar_eq (sh : Shows) (alt : Bool) (l : Nat) (m a : UInt64) : (Imaginary.polar m a).debug sh alt l =
    struct alt l "PolarForm".toList
      [entry "modulus".toList (StdText.f64Debug m), entry "argument".toList (StdText.f64Debug a)] := by
  rw [Imaginary.debug]

theorem forms_ne {alt : Bool} {l : Nat} {xs ys : List (List Char)} {r r' : List Char} :
    struct alt l "CartesianForm".toList xs ++ r ≠ struct alt l "PolarForm".toList ys ++ r' := by
  intro h
  simp only [struct, List.append_assoc, List.cons_append] at h
  exact toList_ne (by decide +kernel) (sep_cut (toList_not_mem (by decide +kernel)) (toList_not_mem (by decide +kernel)) h).1

theorem imaginary_cut (sh : Shows) {alt : Bool} {l : Nat} {z w : Imaginary} {r r' : List Char}
    (h : z.debug sh alt l ++ r = w.debug sh alt l ++ r') : ImTwin z w ∧ r = r' := by
  cases z with
  | cartesian a b =>
    cases w with
    | cartesian a' b' =>
      rw [cartesian_eq, cartesian_eq] at h
      obtain ⟨e1, e2⟩ := struct_cut (hl := by simp only [List.length_cons, List.length_nil]) (h := h) (hp := by
        exact ⟨entry_cut (cut_of fun _ _ h => (integer_cut sh h).2), entry_cut (cut_of fun _ _ h => (integer_cut sh h).2), trivial⟩)
      rw [List.cons.injEq, List.cons.injEq] at e1
      have h1 : a = a' := (integer_cut sh (alt := alt) (l := l + 1) (r := []) (r' := []) (by rw [entry_inj e1.1])).1
      have h2 : b = b' := (integer_cut sh (alt := alt) (l := l + 1) (r := []) (r' := []) (by rw [entry_inj e1.2.1])).1
      rw [h1, h2]
      exact ⟨.same _, e2⟩
    | polar m x =>
      rw [cartesian_eq, polar_eq] at h
      exact absurd h forms_ne
  | polar m x =>
    cases w with
    | cartesian a' b' =>
      rw [cartesian_eq, polar_eq] at h
      exact absurd h.symm forms_ne
    | polar m' x' =>
      rw [polar_eq, polar_eq] at h
      obtain ⟨e1, e2⟩ := struct_cut (hl := by simp only [List.length_cons, List.length_nil]) (h := h) (hp := by exact ⟨entry_cut (f64_cut _ _), entry_cut (f64_cut _ _), trivial⟩)
      rw [List.cons.injEq, List.cons.injEq] at e1
      exact ⟨.polar (StdText.f64Debug_inj (entry_inj e1.1)) (StdText.f64Debug_inj (entry_inj e1.2.1)), e2⟩

theorem binary_cut (sh : Shows) {alt : Bool} {l : Nat} {a b : List UInt8} {r r' : List Char}
    (h : binaryDebug sh alt l a ++ r = binaryDebug sh alt l b ++ r') : a = b ∧ r = r' := by
  unfold binaryDebug at h
  obtain ⟨e1, e2⟩ := struct_cut (hl := by simp only [List.length_cons, List.length_nil]) (h := h) (hp := by exact ⟨entry_cut (str_cut _ _ _), trivial⟩)
  simp only [List.cons.injEq, and_true] at e1
  exact ⟨bytes_inj (str_inj sh (entry_inj e1)), e2⟩

/-! ## JSON -/

theorem name_null : SJValue.debugName .null = ['N', 'u', 'l', 'l'] := String.toList_ofList
theorem name_bool (b : Bool) : SJValue.debugName (.bool b) = ['B', 'o', 'o', 'l', '('] := String.toList_ofList
theorem name_number (n : SJNumber) : SJValue.debugName (.number n) = ['N', 'u', 'm', 'b', 'e', 'r', '('] := String.toList_ofList
theorem name_string (s : List Char) : SJValue.debugName (.string s) = ['S', 't', 'r', 'i', 'n', 'g', '('] := String.toList_ofList
theorem name_array (a : List SJValue) : SJValue.debugName (.array a) = ['A', 'r', 'r', 'a', 'y', ' '] := String.toList_ofList
theorem name_object (m : List (List Char × SJValue)) : SJValue.debugName (.object m) = ['O', 'b', 'j', 'e', 'c', 't', ' '] := String.toList_ofList

/-- The kinds of JSON. -/
def jsonKind : SJValue → Nat
  | .null => 0
  | .bool _ => 1
  | .number _ => 2
  | .string _ => 3
  | .array _ => 4
  | .object _ => 5

theorem json_split (sh : Shows) (alt : Bool) (l : Nat) (j : SJValue) : ∃ t, j.debug sh alt l = j.debugName ++ t := by
  cases j with
  | null => exact ⟨[], by rw [List.append_nil, SJValue.debug]⟩
  | bool b => exact ⟨_, by rw [SJValue.debug]⟩
  | number b => exact ⟨_, by rw [SJValue.debug]⟩
  | string b => exact ⟨_, by rw [SJValue.debug]⟩
  | array b => exact ⟨_, by rw [SJValue.debug]⟩
  | object b => exact ⟨_, by rw [SJValue.debug]⟩

theorem json_head (sh : Shows) (alt : Bool) (l : Nat) (j : SJValue) : Head (j.debug sh alt l) := by
  obtain ⟨t, e⟩ := json_split sh alt l j
  rw [e]
  cases j
  · rw [name_null]; exact ⟨'N', _, rfl, by decide⟩
  · rw [name_bool]; exact ⟨'B', _, rfl, by decide⟩
  · rw [name_number]; exact ⟨'N', _, rfl, by decide⟩
  · rw [name_string]; exact ⟨'S', _, rfl, by decide⟩
  · rw [name_array]; exact ⟨'A', _, rfl, by decide⟩
  · rw [name_object]; exact ⟨'O', _, rfl, by decide⟩

theorem json_sort {sh : Shows} {alt : Bool} {l : Nat} {j k : SJValue} {r r' : List Char}
    (h : j.debug sh alt l ++ r = k.debug sh alt l ++ r') : jsonKind j = jsonKind k := by
  obtain ⟨t, e⟩ := json_split sh alt l j
  obtain ⟨t', e'⟩ := json_split sh alt l k
  rw [e, e', List.append_assoc, List.append_assoc] at h
  cases j <;> cases k <;> first | rfl | (
    simp only [name_null, name_bool, name_number, name_string, name_array, name_object, List.cons_append, List.cons.injEq] at h
    exact absurd h (by simp))

theorem debugItems_eq (sh : Shows) (alt : Bool) (l : Nat) (a : List SJValue) :
    SJValue.debugItems sh alt l a = a.map (SJValue.debug sh alt l) := by
  induction a with
  | nil => rfl
  | cons v vs ih => rw [SJValue.debugItems, ih]; rfl

theorem debugEntries_eq (sh : Shows) (alt : Bool) (l : Nat) (m : List (List Char × SJValue)) :
    SJValue.debugEntries sh alt l m = m.map fun p => entry (sh.strLiteral p.1) (p.2.debug sh alt l) := by
  induction m with
  | nil => rfl
  | cons p m ih => rw [SJValue.debugEntries, ih]; rfl

theorem map_eq_map {α β : Type} {f : α → β} {a b : List α} (hi : ∀ x ∈ a, ∀ y ∈ b, f x = f y → x = y)
    (h : a.map f = b.map f) : a = b := by
  induction a generalizing b with
  | nil => cases b with
    | nil => rfl
    | cons y ys => cases h
  | cons x xs ih => cases b with
    | nil => cases h
    | cons y ys =>
      simp only [List.map_cons, List.cons.injEq] at h
      rw [hi x (by simp) y (by simp) h.1, ih (fun u hu v hv => hi u (by simp [hu]) v (by simp [hv])) h.2]

theorem keyed_head (sh : Shows) (k a : List Char) : Head (entry (sh.strLiteral k) a) := ⟨'"', _, rfl, by decide⟩

theorem json_cut (sh : Shows) (alt : Bool) {j : SJValue} (hj : j.Made fun _ => True) :
    ∀ (k : SJValue), k.Made (fun _ => True) → ∀ l r r', j.debug sh alt l ++ r = k.debug sh alt l ++ r' → j = k ∧ r = r' := by
  have num : ∀ n : SJNumber, SJValue.Made (fun _ => True) (.number n) → ∀ (k : SJValue), k.Made (fun _ => True) → ∀ l r r',
      SJValue.debug sh alt l (.number n) ++ r = k.debug sh alt l ++ r' → .number n = k ∧ r = r' := by
    intro n h k hk l r r' e
    have hs := json_sort e
    cases k with
    | number n' =>
      simp only [SJValue.debug, List.append_assoc, name_number] at e
      have hc : ∀ n : SJNumber, SJValue.Made (fun _ => True) (.number n) → ')' ∉ SerdeJson.numberText n := by
        intro n h hc
        obtain ⟨_, h2⟩ := SerdeJson.right_chars (numberText_right h)
        exact absurd (h2 _ hc) (by decide)
      obtain ⟨e1, e2⟩ := sep_cut (hc n h) (hc n' hk) (List.append_cancel_left e)
      exact ⟨by rw [SerdeJson.numberText_inj h hk e1], e2⟩
    | _ => cases hs
  induction hj with
  | null =>
    intro k hk l r r' h
    have hs := json_sort h
    cases k with
    | null => exact ⟨rfl, List.append_cancel_left h⟩
    | _ => cases hs
  | bool b =>
    intro k hk l r r' h
    have hs := json_sort h
    cases k with
    | bool b' =>
      simp only [SJValue.debug, List.append_assoc, name_bool] at h
      have h := List.append_cancel_left h
      cases b <;> cases b' <;> simp at h
      · exact ⟨rfl, h⟩
      · exact ⟨rfl, h⟩
    | _ => cases hs
  | posInt h => exact num _ (.posInt h)
  | negInt h h0 => exact num _ (.negInt h h0)
  | float h hp => exact num _ (.float h hp)
  | string s =>
    intro k hk l r r' h
    have hs := json_sort h
    cases k with
    | string t =>
      simp only [SJValue.debug, List.append_assoc, name_string] at h
      obtain ⟨rfl, h2⟩ := strLiteral_cut sh (List.append_cancel_left h)
      exact ⟨rfl, (List.cons.inj h2).2⟩
    | _ => cases hs
  | @array a ha ih =>
    intro k hk l r r' h
    have hs := json_sort h
    cases k with
    | array b =>
      have hb : ∀ y ∈ b, y.Made fun _ => True := by cases hk; assumption
      simp only [SJValue.debug, List.append_assoc, debugItems_eq, name_array] at h
      obtain ⟨e1, e2⟩ := list_cut (pairs_of fun x hx y hy => by
        obtain ⟨u, hu, rfl⟩ := List.mem_map.mp hx
        obtain ⟨v, hv, rfl⟩ := List.mem_map.mp hy
        exact cut_of fun r r' h => (ih u hu v (hb v hv) _ r r' h).2) (.inr ⟨fun x hx => by
        obtain ⟨u, hu, rfl⟩ := List.mem_map.mp hx
        exact json_head sh alt _ u, fun x hx => by
        obtain ⟨u, hu, rfl⟩ := List.mem_map.mp hx
        exact json_head sh alt _ u⟩) (List.append_cancel_left h)
      rw [map_eq_map (fun x hx y hy h => (ih x hx y (hb y hy) _ [] [] (by rw [h])).1) e1]
      exact ⟨rfl, e2⟩
    | _ => cases hs
  | @object m ho hm ih =>
    intro k hk l r r' h
    have hs := json_sort h
    cases k with
    | object b =>
      have hb : ∀ p ∈ b, p.2.Made fun _ => True := by
        cases hk with
        | object _ h => exact fun p hp => h p.1 p.2 hp
      simp only [SJValue.debug, List.append_assoc, debugEntries_eq, name_object] at h
      obtain ⟨e1, e2⟩ := map_cut (pairs_of fun x hx y hy => by
        obtain ⟨u, hu, rfl⟩ := List.mem_map.mp hx
        obtain ⟨v, hv, rfl⟩ := List.mem_map.mp hy
        exact keyed_cut sh (cut_of fun r r' h => (ih u.1 u.2 hu v.2 (hb v hv) _ r r' h).2)) (.inr ⟨fun x hx => by
        obtain ⟨u, hu, rfl⟩ := List.mem_map.mp hx
        exact keyed_head sh _ _, fun x hx => by
        obtain ⟨u, hu, rfl⟩ := List.mem_map.mp hx
        exact keyed_head sh _ _⟩) (List.append_cancel_left h)
      rw [map_eq_map (fun x hx y hy h => by
        obtain ⟨h1, h2⟩ := keyed_inj sh h
        exact Prod.ext h1 (ih x.1 x.2 hx y.2 (hb y hy) _ [] [] (by rw [h2])).1) e1]
      exact ⟨rfl, e2⟩
    | _ => cases hs

end Dbg

end Souris
