import Verif.Lemmas.DebugCut
import Verif.Lemmas.StdIpPrint

/-! # Values as `Debug` shows them -/

namespace Souris

namespace Dbg

open Fault

/-! ## Scalars -/

theorem free_of {S : List Char} {t : List Char} (h : ∀ c ∈ t, c ∈ S) (hS : ∀ c ∈ S, c ∉ stops) : ∀ c ∈ t, c ∉ stops :=
  fun c hc => hS c (h c hc)

theorem stamp_free {t : Timestamp} (hv : t.Valid) (hl : t.LeapAt59) : ∀ c ∈ Chrono.debug t, c ∉ stops := by
  have hS : ∀ c ∈ Chrono.stampChars, c ∉ stops := by decide
  have h1 := Chrono.dateText_spec (Chrono.stamp_ok hv hl).1
  have h2 := Chrono.timeText_spec (Chrono.stamp_ok hv hl).2
  intro c hc
  unfold Chrono.debug at hc
  rcases List.mem_append.mp hc with hc | hc
  · exact hS c (Chrono.date_chars h1 c hc)
  · rcases List.mem_cons.mp hc with rfl | hc
    · decide
    · exact hS c (Chrono.time_chars h2 c hc)

theorem stamp_reread {t : Timestamp} (hv : t.Valid) (hl : t.LeapAt59) : Chrono.parse (Chrono.debug t) = some t :=
  C86_reads.mpr (Chrono.printed_reads hv hl (Chrono.dateText_spec (Chrono.stamp_ok hv hl).1)
    (Chrono.timeText_spec (Chrono.stamp_ok hv hl).2))

/-- The characters of addresses. -/
def addressChars : List Char := ['.', ':', 'a', 'b', 'c', 'd', 'e', 'f'] ++ decimalDigits

theorem nat_address (n : Nat) : ∀ c ∈ natText n, c ∈ addressChars := by
  intro c hc
  have : ∀ c ∈ decimalDigits, c ∈ addressChars := by decide
  exact this c ((natText_spec n).2.1 c hc)

theorem hex_address (n : Nat) : ∀ c ∈ hexText n, c ∈ addressChars := by
  obtain ⟨ds, e, _⟩ := hexText_value n
  intro c hc
  rw [e] at hc
  obtain ⟨d, _, rfl⟩ := List.mem_map.mp hc
  have : ∀ d : Fin 16, hexLower d.val ∈ addressChars := by decide
  exact this d

theorem ip4_address (a b c d : UInt8) : ∀ x ∈ StdText.ip4Text a b c d, x ∈ addressChars := by
  intro x hx
  simp only [StdText.ip4Text, List.mem_append, List.mem_cons] at hx
  rcases hx with hx | rfl | hx | rfl | hx | rfl | hx
  · exact nat_address _ x hx
  · decide
  · exact nat_address _ x hx
  · decide
  · exact nat_address _ x hx
  · decide
  · exact nat_address _ x hx

theorem groups_address : ∀ gs : List UInt16, ∀ x ∈ StdText.groupsText gs, x ∈ addressChars
  | [], x, hx => by cases hx
  | [g], x, hx => hex_address _ x hx
  | g :: g' :: gs, x, hx => by
    rw [StdText.groupsText] at hx
    · rcases List.mem_append.mp hx with hx | hx
      · exact hex_address _ x hx
      · rcases List.mem_cons.mp hx with rfl | hx
        · decide
        · exact groups_address (g' :: gs) x hx
    · simp

theorem ip6_address (gs : List UInt16) : ∀ x ∈ StdText.ip6Text gs, x ∈ addressChars := by
  intro x hx
  unfold StdText.ip6Text at hx
  split at hx
  · rcases List.mem_append.mp hx with hx | hx
    · have : ∀ x ∈ [':', ':', 'f', 'f', 'f', 'f', ':'], x ∈ addressChars := by decide
      exact this x hx
    · exact ip4_address _ _ _ _ x hx
  · simp only at hx
    split at hx
    · rcases List.mem_append.mp hx with hx | hx
      · exact groups_address _ x hx
      · rcases List.mem_cons.mp hx with rfl | hx
        · decide
        · rcases List.mem_cons.mp hx with rfl | hx
          · decide
          · exact groups_address _ x hx
    · exact groups_address _ x hx

theorem address_cut {s t : List Char} (hs : ∀ x ∈ s, x ∈ addressChars) (ht : ∀ x ∈ t, x ∈ addressChars) : Cut s t :=
  free_cut (free_of hs (by decide)) (free_of ht (by decide))

/-! ## Values -/

/-- What is shown inside of the parentheses. -/
def field (sh : Shows) (alt : Bool) (l : Nat) : Value → List Char
  | .character c => sh.charLiteral c
  | .string s => sh.strLiteral s
  | .binary b => binaryDebug sh alt (l + 1) b
  | .boolean b => if b then ['t', 'r', 'u', 'e'] else ['f', 'a', 'l', 's', 'e']
  | .integer i => i.debug sh alt (l + 1)
  | .imaginary z => z.debug sh alt (l + 1)
  | .timestamp t => Chrono.debug t
  | .json j => j.debug sh alt (l + 1)
  | .null => ['(', ')']
  | .single x => StdText.f32Debug x
  | .double x => StdText.f64Debug x
  | .array a => list alt (l + 1) (Value.debugItems sh alt (l + 2) a)
  | .map m => map alt (l + 1) (Value.debugEntries sh alt (l + 2) m)
  | .timezone name => name
  | .ipv4 a b c d => StdText.ip4Text a b c d
  | .ipv6 a b c d e f g i => StdText.ip6Text [a, b, c, d, e, f, g, i]

theorem debug_eq (sh : Shows) (alt : Bool) (l : Nat) (v : Value) :
    v.debug sh alt l = tuple alt l (Value.variantName v.asTy) (field sh alt l v) := by
  cases v <;> rw [Value.debug, field, Value.asTy]

theorem variant_open (t : ValueTy) : '(' ∉ Value.variantName t := by
  cases t <;> exact toList_not_mem (by decide +kernel)

theorem variant_inj {a b : ValueTy} (h : Value.variantName a = Value.variantName b) : a = b := by
  cases a <;> cases b <;> first | rfl | (exact absurd h (toList_ne (by decide +kernel)))

theorem variant_head (t : ValueTy) (r : List Char) : Head (Value.variantName t ++ r) := by
  have key : ∀ {s : List Char}, (∃ c t, s = c :: t ∧ c ∉ stops) → Head ((String.ofList s).toList ++ r) := by
    rintro s ⟨c, t, rfl, hc⟩
    rw [String.toList_ofList]
    exact ⟨c, _, rfl, hc⟩
  cases t <;> exact key ⟨_, _, rfl, by decide⟩

theorem value_head (sh : Shows) (alt : Bool) (l : Nat) (v : Value) : Head (v.debug sh alt l) := by
  rw [debug_eq]
  exact variant_head _ _

theorem value_ty {sh : Shows} {alt : Bool} {l : Nat} {v w : Value} {r r' : List Char}
    (h : v.debug sh alt l ++ r = w.debug sh alt l ++ r') : v.asTy = w.asTy := by
  rw [debug_eq, debug_eq] at h
  exact variant_inj (tuple_name (variant_open _) (variant_open _) h)

theorem value_field {sh : Shows} {alt : Bool} {l : Nat} {v w : Value} {r r' : List Char}
    (h : v.debug sh alt l ++ r = w.debug sh alt l ++ r') (hc : Cut (field sh alt l v) (field sh alt l w)) : field sh alt l v = field sh alt l w ∧ r = r' := by
  have ht := value_ty h
  rw [debug_eq, debug_eq, ht] at h
  exact tuple_cut hc h

theorem valueItems_eq (sh : Shows) (alt : Bool) (l : Nat) (a : List Value) :
    Value.debugItems sh alt l a = a.map (Value.debug sh alt l) := by
  induction a with
  | nil => rfl
  | cons v vs ih => rw [Value.debugItems, ih]; rfl

theorem valueEntries_eq (sh : Shows) (alt : Bool) (l : Nat) (m : List (List Char × Value)) :
    Value.debugEntries sh alt l m = m.map fun p => entry (sh.strLiteral p.1) (p.2.debug sh alt l) := by
  induction m with
  | nil => rfl
  | cons p m ih => rw [Value.debugEntries, ih]; rfl

theorem map_at {α β : Type} {f : α → β} {a b : List α} (h : a.map f = b.map f) {i : Nat} {x y : α} (hx : a[i]? = some x)
    (hy : b[i]? = some y) : f x = f y := by
  have := congrArg (·[i]?) h
  simpa [List.getElem?_map, hx, hy] using this

/-- Entries as `debug_map` is given them. -/
def entries (sh : Shows) (alt : Bool) (l : Nat) (m : List (List Char × Value)) : List (List Char) :=
  m.map fun p => entry (sh.strLiteral p.1) (p.2.debug sh alt l)

/-- Maps, if their values can be cut. -/
theorem entries_cut (sh : Shows) (alt : Bool) (l : Nat) {m m' : List (List Char × Value)} {R : Value → Value → Prop}
    (ih : ∀ p ∈ m, ∀ q ∈ m', ∀ l r r', p.2.debug sh alt l ++ r = q.2.debug sh alt l ++ r' → R p.2 q.2 ∧ r = r') :
    Cut (map alt l (entries sh alt (l + 1) m)) (map alt l (entries sh alt (l + 1) m')) ∧
    (map alt l (entries sh alt (l + 1) m) = map alt l (entries sh alt (l + 1) m') →
      m.map (·.1) = m'.map (·.1) ∧ ∀ (i : Nat) p q, m[i]? = some p → m'[i]? = some q → R p.2 q.2) := by
  have hp : Pairs (entries sh alt (l + 1) m) (entries sh alt (l + 1) m') := pairs_of fun x hx y hy => by
    obtain ⟨u, hu, rfl⟩ := List.mem_map.mp hx
    obtain ⟨v, hv, rfl⟩ := List.mem_map.mp hy
    exact keyed_cut sh (cut_of fun r r' h => (ih u hu v hv _ r r' h).2)
  have hh : ∀ m, ∀ x ∈ entries sh alt (l + 1) m, Head x := fun m x hx => by
    obtain ⟨u, hu, rfl⟩ := List.mem_map.mp hx
    exact keyed_head sh _ _
  refine ⟨cut_of fun r r' h => (map_cut hp (.inr ⟨hh m, hh m'⟩) h).2, fun h => ?_⟩
  have e := (map_cut hp (.inr ⟨hh m, hh m'⟩) (r := []) (r' := []) (by rw [h])).1
  have key : ∀ (i : Nat) p q, m[i]? = some p → m'[i]? = some q → p.1 = q.1 ∧ R p.2 q.2 := by
    intro i p q hi hi'
    obtain ⟨h1, h2⟩ := keyed_inj sh (map_at e hi hi')
    exact ⟨h1, (ih p (List.mem_of_getElem? hi) q (List.mem_of_getElem? hi') (l + 1) [] [] (by rw [h2])).1⟩
  refine ⟨?_, fun i p q hi hi' => (key i p q hi hi').2⟩
  have hlen : m.length = m'.length := by
    have := congrArg List.length e
    simpa [entries] using this
  refine List.ext_getElem? fun i => ?_
  rw [List.getElem?_map, List.getElem?_map]
  cases hm : m[i]? with
  | none =>
    rw [List.getElem?_eq_none (by rw [List.getElem?_eq_none_iff] at hm; omega)]
  | some p =>
    obtain ⟨q, hq⟩ : ∃ q, m'[i]? = some q := by
      have := (List.getElem?_eq_some_iff.mp hm).1
      exact ⟨_, List.getElem?_eq_getElem (by omega)⟩
    rw [hq, Option.map_some, Option.map_some, (key i p q hm hq).1]

theorem value_cut (sh : Shows) (alt : Bool) {v : Value} (hv : v.Ordinary) :
    ∀ (w : Value), w.Ordinary → ∀ l r r', v.debug sh alt l ++ r = w.debug sh alt l ++ r' → Value.Twin v w ∧ r = r' := by
  induction hv with
  | character c =>
    intro w hw l r r' h
    have ht := value_ty h
    cases hw with
    | character c' =>
      obtain ⟨e1, e2⟩ := value_field h (cut_of fun r r' h => (charLiteral_cut sh h).2)
      rw [(charLiteral_cut sh (r := []) (r' := []) (congrArg (· ++ []) e1)).1]
      exact ⟨.same _, e2⟩
    | _ => cases ht
  | string s =>
    intro w hw l r r' h
    have ht := value_ty h
    cases hw with
    | string s' =>
      obtain ⟨e1, e2⟩ := value_field h (str_cut sh _ _)
      rw [str_inj sh e1]
      exact ⟨.same _, e2⟩
    | _ => cases ht
  | binary b =>
    intro w hw l r r' h
    have ht := value_ty h
    cases hw with
    | binary b' =>
      obtain ⟨e1, e2⟩ := value_field h (cut_of fun r r' h => (binary_cut sh h).2)
      rw [(binary_cut sh (r := []) (r' := []) (congrArg (· ++ []) e1)).1]
      exact ⟨.same _, e2⟩
    | _ => cases ht
  | boolean b =>
    intro w hw l r r' h
    have ht := value_ty h
    cases hw with
    | boolean b' =>
      have hf : ∀ b : Bool, ∀ c ∈ (if b then ['t', 'r', 'u', 'e'] else ['f', 'a', 'l', 's', 'e']), c ∉ stops := by decide
      obtain ⟨e1, e2⟩ := value_field h (free_cut (hf b) (hf b'))
      have : b = b' := by
        rw [field, field] at e1
        revert e1
        cases b <;> cases b' <;> decide
      rw [this]
      exact ⟨.same _, e2⟩
    | _ => cases ht
  | integer i =>
    intro w hw l r r' h
    have ht := value_ty h
    cases hw with
    | integer i' =>
      obtain ⟨e1, e2⟩ := value_field h (cut_of fun r r' h => (integer_cut sh h).2)
      rw [(integer_cut sh (r := []) (r' := []) (congrArg (· ++ []) e1)).1]
      exact ⟨.same _, e2⟩
    | _ => cases ht
  | imaginary z =>
    intro w hw l r r' h
    have ht := value_ty h
    cases hw with
    | imaginary z' =>
      obtain ⟨e1, e2⟩ := value_field h (cut_of fun r r' h => (imaginary_cut sh h).2)
      refine ⟨?_, e2⟩
      cases (imaginary_cut sh (r := []) (r' := []) (congrArg (· ++ []) e1)).1 with
      | same => exact .same _
      | polar h1 h2 => exact .polar h1 h2
    | _ => cases ht
  | @timestamp t htv htl =>
    intro w hw l r r' h
    have ht := value_ty h
    cases hw with
    | @timestamp t' hv' hl' =>
      obtain ⟨e1, e2⟩ := value_field h (free_cut (stamp_free htv htl) (stamp_free hv' hl'))
      have h1 := stamp_reread htv htl
      rw [show Chrono.debug t = Chrono.debug t' from e1, stamp_reread hv' hl'] at h1
      rw [Option.some.inj h1]
      exact ⟨.same _, e2⟩
    | _ => cases ht
  | json hj =>
    intro w hw l r r' h
    have ht := value_ty h
    cases hw with
    | json hj' =>
      obtain ⟨e1, e2⟩ := value_field h (cut_of fun r r' h => (json_cut sh alt hj _ hj' _ r r' h).2)
      rw [(json_cut sh alt hj _ hj' _ [] [] (congrArg (· ++ []) e1)).1]
      exact ⟨.same _, e2⟩
    | _ => cases ht
  | null =>
    intro w hw l r r' h
    have ht := value_ty h
    cases hw with
    | null => exact ⟨.same _, List.append_cancel_left h⟩
    | _ => cases ht
  | single x =>
    intro w hw l r r' h
    have ht := value_ty h
    cases hw with
    | single y =>
      obtain ⟨e1, e2⟩ := value_field h (free_cut (float_free (StdText.f32Debug_printed x)) (float_free (StdText.f32Debug_printed y)))
      refine ⟨?_, e2⟩
      rcases StdText.f32Debug_inj e1 with rfl | ⟨h1, h2⟩
      · exact .same _
      · exact .single h1 h2
    | _ => cases ht
  | double x =>
    intro w hw l r r' h
    have ht := value_ty h
    cases hw with
    | double y =>
      obtain ⟨e1, e2⟩ := value_field h (f64_cut x y)
      refine ⟨?_, e2⟩
      rcases StdText.f64Debug_inj e1 with rfl | ⟨h1, h2⟩
      · exact .same _
      · exact .double h1 h2
    | _ => cases ht
  | @array a ha ih =>
    intro w hw l r r' h
    have ht := value_ty h
    cases hw with
    | @array b hb =>
      have hp : Pairs (Value.debugItems sh alt (l + 2) a) (Value.debugItems sh alt (l + 2) b) := by
        rw [valueItems_eq, valueItems_eq]
        refine pairs_of fun x hx y hy => ?_
        obtain ⟨u, hu, rfl⟩ := List.mem_map.mp hx
        obtain ⟨v, hv, rfl⟩ := List.mem_map.mp hy
        exact cut_of fun r r' h => (ih u hu v (hb v hv) _ r r' h).2
      have hh : ∀ a, ∀ x ∈ Value.debugItems sh alt (l + 2) a, Head x := fun a x hx => by
        rw [valueItems_eq] at hx
        obtain ⟨u, hu, rfl⟩ := List.mem_map.mp hx
        exact value_head sh alt _ u
      obtain ⟨e1, e2⟩ := value_field h (cut_of fun r r' h => (list_cut hp (.inr ⟨hh a, hh b⟩) h).2)
      have e3 := (list_cut hp (.inr ⟨hh a, hh b⟩) (r := []) (r' := []) (congrArg (· ++ []) e1)).1
      rw [valueItems_eq, valueItems_eq] at e3
      refine ⟨.array ?_ ?_, e2⟩
      · have := congrArg List.length e3
        simpa using this
      · intro i x y hx hy
        exact (ih x (List.mem_of_getElem? hx) y (hb y (List.mem_of_getElem? hy)) (l + 2) [] [] (by rw [map_at e3 hx hy])).1
    | _ => cases ht
  | @map m hm ih =>
    intro w hw l r r' h
    have ht := value_ty h
    cases hw with
    | @map m' hm' =>
      obtain ⟨k1, k2⟩ := entries_cut sh alt (l + 1) (m := m) (m' := m') (R := Value.Twin) fun p hp q hq l r r' h =>
        ih p hp q.2 (hm' q hq) l r r' h
      have e : ∀ m, field sh alt l (.map m) = map alt (l + 1) (entries sh alt (l + 1 + 1) m) := fun m => by
        rw [field, valueEntries_eq]; rfl
      rw [← e, ← e] at k1 k2
      obtain ⟨e1, e2⟩ := value_field h k1
      obtain ⟨h1, h2⟩ := k2 e1
      exact ⟨.map h1 h2, e2⟩
    | _ => cases ht
  | timezone hz =>
    intro w hw l r r' h
    have ht := value_ty h
    cases hw with
    | timezone hz' =>
      obtain ⟨e1, e2⟩ := value_field h (free_cut hz hz')
      rw [field, field] at e1
      rw [e1]
      exact ⟨.same _, e2⟩
    | _ => cases ht
  | ipv4 a b c d =>
    intro w hw l r r' h
    have ht := value_ty h
    cases hw with
    | ipv4 a' b' c' d' =>
      obtain ⟨e1, e2⟩ := value_field h (address_cut (ip4_address _ _ _ _) (ip4_address _ _ _ _))
      rw [field, field] at e1
      have h1 := StdText.ip4Parse_iff.mpr (StdText.ip4Text_dotted a b c d)
      rw [e1, StdText.ip4Parse_iff.mpr (StdText.ip4Text_dotted a' b' c' d')] at h1
      simp only [Option.some.injEq, Prod.mk.injEq] at h1
      obtain ⟨rfl, rfl, rfl, rfl⟩ := h1
      exact ⟨.same _, e2⟩
    | _ => cases ht
  | ipv6 a b c d e f g i =>
    intro w hw l r r' h
    have ht := value_ty h
    cases hw with
    | ipv6 a' b' c' d' e' f' g' i' =>
      obtain ⟨e1, e2⟩ := value_field h (address_cut (ip6_address _) (ip6_address _))
      rw [field, field] at e1
      have h1 := StdText.ip6_reread (gs := [a, b, c, d, e, f, g, i]) rfl
      rw [e1, StdText.ip6_reread (gs := [a', b', c', d', e', f', g', i']) rfl] at h1
      simp only [Option.some.injEq, List.cons.injEq, and_true] at h1
      obtain ⟨rfl, rfl, rfl, rfl, rfl, rfl, rfl, rfl⟩ := h1
      exact ⟨.same _, e2⟩
    | _ => cases ht

/-! ## The other direction -/

theorem twin_f64 {x y : UInt64} (h : x = y ∨ Value.IsNan64 x ∧ Value.IsNan64 y) : StdText.f64Debug x = StdText.f64Debug y := by
  rcases h with rfl | ⟨h1, h2⟩
  · rfl
  · rw [StdText.nan_debug64 h1, StdText.nan_debug64 h2]

theorem map_congr_at {α β : Type} {f : α → β} {a b : List α} (hl : a.length = b.length)
    (h : ∀ (i : Nat) x y, a[i]? = some x → b[i]? = some y → f x = f y) : a.map f = b.map f := by
  refine List.ext_getElem? fun i => ?_
  rw [List.getElem?_map, List.getElem?_map]
  cases ha : a[i]? with
  | none => rw [List.getElem?_eq_none (by rw [List.getElem?_eq_none_iff] at ha; omega)]
  | some x =>
    obtain ⟨y, hy⟩ : ∃ y, b[i]? = some y := by
      have := (List.getElem?_eq_some_iff.mp ha).1
      exact ⟨_, List.getElem?_eq_getElem (by omega)⟩
    rw [hy, Option.map_some, Option.map_some, h i x y ha hy]

theorem entries_congr (sh : Shows) (alt : Bool) (l : Nat) {m m' : List (List Char × Value)} (hk : m.map (·.1) = m'.map (·.1))
    (h : ∀ (i : Nat) p q, m[i]? = some p → m'[i]? = some q → p.2.debug sh alt l = q.2.debug sh alt l) :
    Value.debugEntries sh alt l m = Value.debugEntries sh alt l m' := by
  rw [valueEntries_eq, valueEntries_eq]
  refine map_congr_at (by simpa using congrArg List.length hk) fun i p q hp hq => ?_
  rw [h i p q hp hq, show p.1 = q.1 from map_at (f := Prod.fst) hk hp hq]

theorem twin_debug (sh : Shows) (alt : Bool) {v w : Value} (h : Value.Twin v w) : ∀ l, v.debug sh alt l = w.debug sh alt l := by
  induction h with
  | same v => exact fun _ => rfl
  | polar h1 h2 =>
    intro l
    rw [Value.debug, Value.debug, polar_eq, polar_eq, twin_f64 h1, twin_f64 h2]
  | single hx hy =>
    intro l
    rw [Value.debug, Value.debug, StdText.nan_debug32 hx, StdText.nan_debug32 hy]
  | double hx hy =>
    intro l
    rw [Value.debug, Value.debug, StdText.nan_debug64 hx, StdText.nan_debug64 hy]
  | array hl h ih =>
    intro l
    rw [Value.debug, Value.debug, valueItems_eq, valueItems_eq, map_congr_at hl fun i x y hx hy => ih i x y hx hy _]
  | map hk h ih =>
    intro l
    rw [Value.debug, Value.debug, entries_congr sh alt _ hk fun i p q hp hq => ih i p q hp hq _]

end Dbg

end Souris
