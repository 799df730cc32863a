import Verif.Lemmas.Display
import Verif.Props.ValueLoop

/-! # Property C78: a printed value can be recognised -/

namespace Souris

open Value

/-- C78: the text of binary data tells which bytes they are. -/
theorem C78_bytes {a b : List UInt8} (h : displayBytes a = displayBytes b) : a = b :=
  (displayBytes_cut (r := []) (r' := []) (by rw [h])).1

theorem displayItems_congr {env : Env} {sh : Shows} {a b : List Value} (hl : a.length = b.length)
    (h : ∀ (i : Nat) x y, a[i]? = some x → b[i]? = some y → display env sh x = display env sh y) :
    displayItems env sh a = displayItems env sh b := by
  have tail : ∀ a b : List Value, a.length = b.length →
      (∀ (i : Nat) x y, a[i]? = some x → b[i]? = some y → display env sh x = display env sh y) →
      displayTail env sh a = displayTail env sh b := by
    intro a
    induction a with
    | nil =>
      intro b hl _
      cases b with
      | nil => rfl
      | cons _ _ => simp at hl
    | cons v a ih =>
      intro b hl h
      cases b with
      | nil => simp at hl
      | cons w b =>
        simp only [displayTail]
        rw [h 0 v w rfl rfl, ih b (by simpa using hl) fun i x y hx hy => h (i + 1) x y (by simpa using hx) (by simpa using hy)]
  cases a with
  | nil =>
    cases b with
    | nil => rfl
    | cons _ _ => simp at hl
  | cons v a =>
    cases b with
    | nil => simp at hl
    | cons w b =>
      simp only [displayItems]
      rw [h 0 v w rfl rfl, tail a b (by simpa using hl) fun i x y hx hy => h (i + 1) x y (by simpa using hx) (by simpa using hy)]

/-- C78, partial: among characters, strings, binary data that are not empty, booleans, integers, complex numbers with
integer parts, null and arrays of these to any depth, the text of a value tells its type and its
contents, and nothing else: two of them have the same text exactly if they are alike. No assumption on
which characters are printed as themselves. Missing: the types whose texts are not quoted and made
elsewhere (`C78_same_type_partial`), maps, and the collisions refuted below. -/
theorem C78_literal_partial (env : Env) (sh : Shows) {v v' : Value} (hv : Literal v) (hv' : Literal v') :
    display env sh v = display env sh v' ↔ Alike v v' := by
  constructor
  · intro h
    exact (hv.cut (r := []) (r' := []) hv' (fun _ _ e => by cases e) (fun _ _ e => by cases e) (by rw [h])).1
  · intro h
    induction h with
    | character | string | binary | boolean | null | timestamp | json | timezone | ipv4 | ipv6 => rfl
    | integer h =>
      cases hv with | integer hi =>
      cases hv' with | integer hj =>
      simp only [display, hi.display_eq, hj.display_eq, h]
    | cartesian h1 h2 =>
      cases hv with | cartesian ha hb =>
      cases hv' with | cartesian ha' hb' =>
      simp only [display, cartesian_text sh ha hb, cartesian_text sh ha' hb', h1, h2]
    | polar => cases hv
    | single => cases hv
    | double => cases hv
    | array hl h ih =>
      cases hv with | array ha =>
      cases hv' with | array hb =>
      simp only [display, List.cons.injEq, true_and]
      exact displayItems_congr hl fun i x y hx hy =>
        ih i x y hx hy (ha x (List.mem_of_getElem? hx)) (hb y (List.mem_of_getElem? hy))

theorem space_cut {a b r r' : List Char} (ha : ' ' ∉ a) (hb : ' ' ∉ b) (h : a ++ ' ' :: r = b ++ ' ' :: r') :
    a = b ∧ r = r' := by
  induction a generalizing b with
  | nil =>
    cases b with
    | nil => exact ⟨rfl, (List.cons.inj h).2⟩
    | cons y b => exact absurd (by rw [(List.cons.inj h).1]; simp) hb
  | cons x a ih =>
    cases b with
    | nil => exact absurd (by rw [← (List.cons.inj h).1]; simp) ha
    | cons y b =>
      obtain ⟨h1, h2⟩ := List.cons.inj h
      obtain ⟨h3, h4⟩ := ih (fun h => ha (by simp [h])) (fun h => hb (by simp [h])) h2
      exact ⟨by rw [h1, h3], h4⟩

/-- C78, partial: for every type but arrays and maps, the text of a value tells which value of this type
it is (of complex numbers also in which form), provided that the texts of floats, timestamps, IPv6
addresses and JSON made by other libraries do. -/
theorem C78_same_type_partial {env : Env} {sh : Shows} (hsh : sh.Faithful) {v v' : Value} (hv : v.Scalar)
    (hv' : v'.Scalar) (ht : v.asTy = v'.asTy)
    (hj : ∀ j k, v = .json j → v' = .json k → env.jsonPrint j = env.jsonPrint k → j = k)
    (hts : ∀ t u, v = .timestamp t → v' = .timestamp u → env.tsPrint t = env.tsPrint u → t = u)
    (h : display env sh v = display env sh v') : Alike v v' := by
  obtain ⟨h1, h2, h3, h4⟩ := hv
  obtain ⟨g1, g2, h3', h4'⟩ := hv'
  have lit : ∀ {v v' : Value}, Literal v → Literal v' → display env sh v = display env sh v' → Alike v v' :=
    fun hv hv' h => (C78_literal_partial env sh hv hv').mp h
  have forms : ∀ {a b : Integer} {m x : UInt64}, a.InRange → b.InRange →
      (Imaginary.cartesian a b).display sh ≠ (Imaginary.polar m x).display sh := by
    intro a b m x ha hb e
    have : ' ' ∈ (Imaginary.cartesian a b).display sh := by rw [e]; simp [Imaginary.display]
    rw [cartesian_text sh ha hb] at this
    have nat : ∀ n, ' ' ∉ natText n := fun n hm => absurd ((natText_spec n).2.1 _ hm) (by decide)
    simp only [intText] at this
    split at this <;> split at this <;> simp [nat] at this
  cases v <;> cases v' <;> simp only [asTy, reduceCtorEq] at ht
  case character => exact lit (.character _) (.character _) h
  case string => exact lit (.string _) (.string _) h
  case binary =>
    simp only [display] at h
    rw [C78_bytes h]
    exact .binary _
  case boolean => exact lit (.boolean _) (.boolean _) h
  case integer => exact lit (.integer (h3 _ rfl)) (.integer (h3' _ rfl)) h
  case imaginary =>
    rename_i z z'
    cases z <;> cases z'
    · exact lit (.cartesian (h4 _ _ rfl).1 (h4 _ _ rfl).2) (.cartesian (h4' _ _ rfl).1 (h4' _ _ rfl).2) h
    · exact absurd h (forms (h4 _ _ rfl).1 (h4 _ _ rfl).2)
    · exact absurd h.symm (forms (h4' _ _ rfl).1 (h4' _ _ rfl).2)
    · rename_i m a m' a'
      simp only [display, Imaginary.display] at h
      obtain ⟨e1, e2⟩ := space_cut (hsh.f64_space m) (hsh.f64_space m') h
      have e3 : sh.f64 a ++ ['i', ')'] = sh.f64 a' ++ ['i', ')'] := by simpa using e2
      exact .polar (hsh.f64 _ _ e1) (hsh.f64 _ _ (List.append_cancel_right e3))
  case timestamp =>
    rw [hts _ _ rfl rfl h]
    exact .timestamp _
  case json =>
    rw [hj _ _ rfl rfl h]
    exact .json _
  case null => exact .null
  case single => exact .single (hsh.f32 _ _ h)
  case double => exact .double (hsh.f64 _ _ h)
  case array => exact absurd rfl h1
  case map => exact absurd rfl h2
  case timezone =>
    simp only [display] at h
    rw [h]
    exact .timezone _
  case ipv4 =>
    rename_i a b c d a' b' c' d'
    simp only [display] at h
    obtain ⟨e1, h⟩ := natText_cut (.cons (by decide)) (.cons (by decide)) h
    obtain ⟨e2, h⟩ := natText_cut (.cons (by decide)) (.cons (by decide)) (List.cons.inj h).2
    obtain ⟨e3, h⟩ := natText_cut (.cons (by decide)) (.cons (by decide)) (List.cons.inj h).2
    obtain ⟨e4, _⟩ := natText_cut (n := d.toNat) (m := d'.toNat) (r := []) (r' := []) (fun _ _ e => by cases e) (fun _ _ e => by cases e)
      (by rw [(List.cons.inj h).2])
    rw [UInt8.toNat_inj.mp e1, UInt8.toNat_inj.mp e2, UInt8.toNat_inj.mp e3, UInt8.toNat_inj.mp e4]
    exact .ipv4 ..
  case ipv6 =>
    have := hsh.ipv6 _ _ rfl rfl h
    simp only [List.cons.injEq, and_true] at this
    obtain ⟨rfl, rfl, rfl, rfl, rfl, rfl, rfl, rfl⟩ := this
    exact .ipv6 ..

/-- C78 is violated: no bytes and no elements are both printed as `[]`. -/
theorem C78_refuted_empty (env : Env) (sh : Shows) :
    display env sh (.binary []) = display env sh (.array []) ∧ ¬ Alike (.binary []) (.array []) :=
  ⟨by simp [display, displayBytes, displayItems], fun h => by cases h⟩

/-- C78 is violated: the float 1.0, which std prints as `1`, looks like the integer 1; JSON null looks like
null. -/
theorem C78_refuted_types (env : Env) (sh : Shows) :
    (sh.f64 0x3FF0000000000000 = ['1'] →
      display env sh (.double 0x3FF0000000000000) = display env sh (.integer (Integer.ofSigned 4 1))) ∧
    (env.jsonPrint .null = ['n', 'u', 'l', 'l'] → display env sh (.json .null) = display env sh .null) := by
  constructor
  · intro h
    simp only [display, h]
    decide +kernel
  · intro h
    simp only [display, h]

/-- C78 is violated: an integer read from bytes that no save wrote can be printed as another number: here
2^128 - 1 as `-1`. -/
theorem C78_refuted_wrapped (env : Env) (sh : Shows) : ∃ i j : Integer, i.Reachable ∧ j.Reachable ∧
    display env sh (.integer i) = display env sh (.integer j) ∧ i.value = 2 ^ 128 - 1 ∧ j.value = -1 := by
  refine ⟨⟨.signedPositive, List.replicate 16 255, 16⟩, Integer.ofSigned 1 (-1), ?_, ?_, ?_, ?_, ?_⟩
  · exact .deser (ss := .signedPositive) (c := ⟨255 :: List.replicate 16 255, 0⟩) (c' := ⟨255 :: List.replicate 16 255, 17⟩)
      (by decide +kernel)
  · exact .native (.signed (by unfold Width; decide) (by unfold IsSigned; decide))
  · simp only [display]
    decide +kernel
  · decide +kernel
  · decide +kernel

/-- Literals with nesting, escapes and both signs. -/
example : Literal (.array [.array [], .string ['"', '\\'], .imaginary (.cartesian (Integer.ofSigned 4 (-5)) (Integer.ofSigned 4 3)),
    .binary [255, 0]]) := by
  have r : ∀ n : Int, -(2 ^ 31) ≤ n → n < 2 ^ 31 → (Integer.ofSigned 4 n).InRange := by
    intro n h1 h2
    have hs : IsSigned 4 n := by unfold IsSigned; omega
    have hw : Width 4 := by unfold Width; decide
    have hv := (C01_value hw).2 n hs
    exact ⟨.native (.signed hw hs), by rw [hv]; omega, fun _ => by rw [hv]; omega⟩
  refine .array fun v hv => ?_
  simp only [List.mem_cons, List.not_mem_nil, or_false] at hv
  rcases hv with rfl | rfl | rfl | rfl
  · exact .array fun v h => by cases h
  · exact .string _
  · exact .cartesian (r _ (by omega) (by omega)) (r _ (by omega) (by omega))
  · exact .binary (by simp)

example (sh : Shows) (h : sh.plain 'a' = true) : display sampleEnv sh (.array [.string ['"', 'a', '\n'], .binary [255, 7]]) =
    "[\"\\\"a\\n\", [0xFF, 0x7]]".toList := by
  simp [display, displayItems, displayTail, Shows.strLiteral, Shows.escape, displayBytes, hexByte, hexTail, hexUpper, h]

end Souris
