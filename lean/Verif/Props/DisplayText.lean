import Verif.Spec.DisplayText
import Verif.Props.StdText
import Verif.Props.JsonUse

/-! # How values are printed (C88) -/

namespace Souris

open StdText Value SerdeJson

theorem wholeText_intText (n : Int) : WholeText n (intText n) := by
  refine ⟨natText n.natAbs, SerdeJson.whole_natText _, (natText_spec _).2.2, rfl⟩

theorem hexDigits_lower (n : Nat) : HexDigits capitalHex n (hexText n) := by
  refine ⟨hexText_number n, hexText_ne n, hexText_lower n, fun h => ?_⟩
  cases hs : hexText n with
  | nil => exact absurd hs (hexText_ne n)
  | cons c cs =>
    rw [hs] at h
    cases h
    rw [hexText_head hs]

theorem hexUpper_mem {n : Nat} (h : n < 16) : (hexUpper n, n) ∈ hexTable ∧ hexUpper n ∉ smallHex ∧ (hexUpper n = '0' → n = 0) := by
  have : ∀ m : Fin 16, (hexUpper m.val, m.val) ∈ hexTable ∧ hexUpper m.val ∉ smallHex ∧ (hexUpper m.val = '0' → m.val = 0) := by decide
  exact this ⟨n, h⟩

theorem hexByte_text (b : UInt8) : ByteText b (hexByte b) := by
  have hb := b.toNat_lt
  unfold hexByte
  split
  · rename_i h
    have hm := hexUpper_mem h
    refine ⟨_, ⟨?_, by simp, ?_, ?_⟩, rfl⟩
    · simpa using HexNumber.digit .nil hm.1
    · intro c hc
      rw [List.mem_singleton.mp hc]
      exact hm.2.1
    · intro h
      simp only [List.head?_cons, Option.some.injEq] at h
      rw [h]
  · rename_i h
    have h1 := hexUpper_mem (n := b.toNat / 16) (by omega)
    have h2 := hexUpper_mem (n := b.toNat % 16) (by omega)
    refine ⟨_, ⟨?_, by simp, ?_, ?_⟩, rfl⟩
    · have := HexNumber.digit (HexNumber.digit .nil h1.1) h2.1
      rw [show (0 * 16 + b.toNat / 16) * 16 + b.toNat % 16 = b.toNat by omega] at this
      exact this
    · intro c hc
      simp only [List.mem_cons, List.not_mem_nil, or_false] at hc
      rcases hc with rfl | rfl
      · exact h1.2.1
      · exact h2.2.1
    · intro h'
      simp only [List.head?_cons, Option.some.injEq] at h'
      have := h1.2.2 h'
      omega

theorem forall₂_map {α β : Type} {R : α → β → Prop} {f : α → β} {l : List α} (h : ∀ a ∈ l, R a (f a)) : List.Forall₂ R l (l.map f) := by
  induction l with
  | nil => exact .nil
  | cons a l ih => exact .cons (h a (by simp)) (ih fun b hb => h b (by simp [hb]))

theorem intercalate_tail (sep : List Char) (t : List Char) (ts : List (List Char)) :
    List.intercalate sep (t :: ts) = t ++ (ts.map fun u => sep ++ u).flatten := by
  induction ts generalizing t with
  | nil => simp [List.intercalate]
  | cons u ts ih =>
    have : List.intercalate sep (t :: u :: ts) = t ++ sep ++ List.intercalate sep (u :: ts) := by
      simp [List.intercalate, List.intersperse]
    rw [this, ih]
    simp

theorem displayBytes_list (b : List UInt8) : displayBytes b = listText (b.map hexByte) := by
  have tail : ∀ b : List UInt8, hexTail b = (b.map fun x => [',', ' '] ++ hexByte x).flatten ++ [']'] := by
    intro b
    induction b with
    | nil => rfl
    | cons x b ih => simp [hexTail, ih]
  cases b with
  | nil => rfl
  | cons x b =>
    unfold listText
    rw [List.map_cons, intercalate_tail]
    simp [displayBytes, tail, Function.comp_def]

theorem displayItems_list (env : Env) (sh : Shows) (a : List Value) : '[' :: displayItems env sh a = listText (a.map (display env sh)) := by
  have tail : ∀ a : List Value, displayTail env sh a = (a.map fun x => [',', ' '] ++ display env sh x).flatten ++ [']'] := by
    intro a
    induction a with
    | nil => rw [displayTail]; rfl
    | cons x a ih => rw [displayTail, ih]; simp
  cases a with
  | nil => rw [displayItems]; rfl
  | cons x a =>
    unfold listText
    rw [List.map_cons, intercalate_tail, displayItems, tail]
    simp [Function.comp_def]

theorem displayRows_zip (env : Env) (sh : Shows) (m : List (List Char × Value)) :
    displayRows env sh m = (m.map Prod.fst).zip ((m.map Prod.snd).map (display env sh)) := by
  induction m with
  | nil => rw [displayRows]; rfl
  | cons p m ih =>
    obtain ⟨k, v⟩ := p
    rw [displayRows, ih]
    rfl

theorem escape_text (sh : Shows) {q : Char} (c : Char) : EscapedChar sh.plain q c (sh.escape q c) := by
  unfold Shows.escape
  split
  · exact .short (by subst c; decide)
  split
  · exact .short (by subst c; decide)
  split
  · exact .short (by subst c; decide)
  split
  · exact .short (by subst c; decide)
  split
  · exact .short (by subst c; decide)
  split
  · subst c; exact .quote
  · rename_i h0 h1 h2 h3 h4 hne
    have hs : ∀ e, (c, e) ∉ shortEscapes := by
      intro e h
      simp only [shortEscapes, List.mem_cons, Prod.mk.injEq, List.not_mem_nil, or_false] at h
      rcases h with h | h | h | h | h
      · exact h0 h.1
      · exact h1 h.1
      · exact h3 h.1
      · exact h2 h.1
      · exact h4 h.1
    split
    · exact .self hs hne ‹_›
    · exact .code hs hne ‹_› (hexDigits_lower _)

theorem literal_text (sh : Shows) {q : Char} (s : List Char) :
    LiteralText sh.plain q s (q :: (s.flatMap (sh.escape q) ++ [q])) :=
  ⟨s.map (sh.escape q), forall₂_map fun c _ => escape_text sh c, by simp [List.flatMap_def]⟩

/-- Values that are neither arrays nor maps. -/
def Flat : Value → Prop
  | .array _ | .map _ => False
  | _ => True

theorem shownAs_of {env : Env} (hs : env.Serde) (hc : env.Chrono) (sh : Shows) {layout : List (List Char × List Char) → List Char}
    {f : Value → List Char} (hf : ∀ v, Flat v → f v = display env sh.withStd v) (ha : ∀ a, f (.array a) = listText (a.map f))
    (hm : ∀ m, f (.map m) = layout ((m.map Prod.fst).zip ((m.map Prod.snd).map f))) {v : Value} (hv : v.Printable) :
    ShownAs sh.plain layout v (f v) := by
  induction hv with
  | character c =>
    rw [hf (.character _) trivial, display]
    have := literal_text sh (q := '\'') [c]
    rw [List.flatMap_singleton] at this
    exact .character this
  | string s =>
    rw [hf (.string _) trivial, display]
    exact .string (literal_text sh (q := '"') s)
  | binary b =>
    rw [hf (.binary _) trivial, display, displayBytes_list]
    exact .binary (forall₂_map fun b _ => hexByte_text b)
  | boolean b => cases b <;> rw [hf (.boolean _) trivial, display] <;> constructor
  | integer h =>
    rw [hf (.integer _) trivial, display, h.display_eq]
    exact .integer (wholeText_intText _)
  | @cartesian a b ha hb =>
    rw [hf (.imaginary _) trivial, display, Imaginary.display, ha.display_eq, hb.display_eq, hb.isNegative]
    have := ShownAs.cartesian (plain := sh.plain) (layout := layout) (a := a) (b := b) (wholeText_intText a.value) (wholeText_intText b.value)
    by_cases h : b.value < 0
    · simpa [h] using this
    · simpa [h] using this
  | polar m a =>
    rw [hf (.imaginary _) trivial, display, Imaginary.display]
    have := ShownAs.polar (plain := sh.plain) (layout := layout) (m := m) (a := a) (f64Text_printed m) (f64Text_printed a)
    have e : Shows.withStd sh = { sh with f32 := StdText.f32Text, f64 := StdText.f64Text, ipv6 := StdText.ip6Text } := rfl
    rw [e]
    simpa using this
  | timestamp h hl =>
    rw [hf (.timestamp _) trivial, display, hc.print]
    exact .timestamp ((C86_print h hl).mp rfl)
  | json h =>
    rw [hf (.json _) trivial, display, hs.print]
    exact .json (C83_print h).1
  | null => rw [hf .null trivial, display]; constructor
  | single x => rw [hf (.single _) trivial, display]; exact .single (f32Text_printed x)
  | double x => rw [hf (.double _) trivial, display]; exact .double (f64Text_printed x)
  | array h ih =>
    rw [ha]
    exact .array (forall₂_map ih)
  | map h ih =>
    rw [hm]
    refine .map (forall₂_map fun v hv => ?_)
    obtain ⟨p, hp, rfl⟩ := List.mem_map.mp hv
    exact ih p hp
  | timezone z => rw [hf (.timezone _) trivial, display]; constructor
  | ipv4 a b c d => rw [hf (.ipv4 _ _ _ _) trivial, display]; exact .ipv4 (ip4Text_dotted a b c d)
  | ipv6 a b c d e f g h => rw [hf (.ipv6 _ _ _ _ _ _ _ _) trivial, display]; exact .ipv6 (ip6Text_printed rfl)

/-- **C88**, partial: values are printed as `ShownAs` says, whatever characters need escapes and however tables
are laid out. Missing: timestamps with a leap second elsewhere than in second 59 (see `C86_refuted_leap`). -/
theorem C88_text_partial {env : Env} (hs : env.Serde) (hc : env.Chrono) (sh : Shows) {v : Value} (hv : v.Printable) :
    ShownAs sh.plain (fun rows => '\n' :: sh.table rows) v (display env sh.withStd v) :=
  shownAs_of hs hc sh (fun _ _ => rfl) (fun a => by rw [display, displayItems_list])
    (fun m => by rw [display, displayRows_zip]; rfl) hv

/-- **C88** is violated: two different times are printed alike, one with a leap second behind second 58 and one
half a second behind it. -/
theorem C88_refuted_leap : ∃ t u : Timestamp, t.Valid ∧ u.Valid ∧ t ≠ u ∧ ∀ (env : Env), env.Chrono → ∀ sh : Shows,
    display env sh (.timestamp t) = display env sh (.timestamp u) := by
  obtain ⟨t, u, ht, hu, hne, e⟩ := C86_refuted_leap
  refine ⟨t, u, ht, hu, hne, fun env hc sh => ?_⟩
  rw [display, display, hc.print, e]

/-- The texts are those one would write down. -/
example : display chronoEnv (Shows.withStd ⟨fun c => decide (32 ≤ c.toNat ∧ c.toNat < 127), fun _ => [], fun _ => [], fun _ => [], fun _ => []⟩)
    (.array [.string [' ', '"', '\'', '\n', 'é'], .character '\'', .binary [0, 10, 255], .boolean true,
      .imaginary (.cartesian (Integer.ofSigned 4 (-3)) (Integer.ofUnsigned 4 20)), .imaginary (.polar 0x3FF8000000000000 0), .null,
      .ipv6 0 0 0 0 0 0 0 1]) = "[\" \\\"'\\n\\u{e9}\", '\\'', [0x0, 0xA, 0xFF], true, -3+20i, 1.5 e^(0i), null, ::1]".toList := by
  simp only [display, displayItems, displayTail, Shows.strLiteral, Shows.charLiteral, List.flatMap_cons, List.flatMap_nil, Shows.escape,
    Shows.withStd, Imaginary.display]
  decide +kernel

example : (Value.map [(['k'], .array [.integer (Integer.ofSigned 4 (-3)), .timestamp leapSecond, .json (.array [.null])])]).Printable := by
  refine .map fun p hp => ?_
  rw [List.mem_singleton.mp hp]
  refine .array fun v hv => ?_
  simp only [List.mem_cons, List.not_mem_nil, or_false] at hv
  rcases hv with rfl | rfl | rfl
  · exact .integer ⟨.native (.signed (by unfold Width; decide) (by unfold IsSigned; decide)), by decide +kernel, by decide +kernel⟩
  · exact .timestamp (by unfold Timestamp.Valid; decide) (by unfold Timestamp.LeapAt59; decide)
  · exact .json (.array fun j hj => by rw [List.mem_singleton.mp hj]; exact .null)

end Souris
