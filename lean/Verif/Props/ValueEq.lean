import Verif.Lemmas.ValueEq
import Verif.Props.ValueLoop

/-! # C29: equality and hashing of values -/

namespace Souris

open Value

/-! ## Equality -/

/-- C29, exactly: a value equals itself iff no NaN occurs in it. -/
theorem C29_refl_iff {v : Value} (hv : Live v) : v.eq v = true ↔ ¬ HasNan v := by
  induction v using Value.induct with
  | h v ha hm =>
    have atom : v.eq v = true → (∀ x, v ≠ .double x) → (∀ x, v ≠ .single x) → (∀ z, v ≠ .imaginary z) →
        (∀ a, v ≠ .array a) → (∀ m, v ≠ .map m) → (v.eq v = true ↔ ¬ HasNan v) := by
      intro h h1 h2 h3 h4 h5
      refine ⟨fun _ => ?_, fun _ => h⟩
      rintro (⟨x, _, hs⟩ | ⟨x, _, hs⟩ | ⟨m, a, _, hs⟩) <;>
        cases hs <;> simp_all
    cases v with
    | character c => exact atom (by simp [Value.eq]) (by simp) (by simp) (by simp) (by simp) (by simp)
    | string s => exact atom (by simp [Value.eq]) (by simp) (by simp) (by simp) (by simp) (by simp)
    | binary b => exact atom (by simp [Value.eq]) (by simp) (by simp) (by simp) (by simp) (by simp)
    | boolean b => exact atom (by simp [Value.eq]) (by simp) (by simp) (by simp) (by simp) (by simp)
    | integer i =>
      exact atom (by simp only [Value.eq]; exact C05_equivalence.1 i) (by simp) (by simp) (by simp) (by simp) (by simp)
    | timestamp t => exact atom (by simp [Value.eq]) (by simp) (by simp) (by simp) (by simp) (by simp)
    | json j =>
      exact atom (by simp only [Value.eq]; exact j.eq_refl) (by simp) (by simp) (by simp) (by simp) (by simp)
    | null => exact atom (by simp [Value.eq]) (by simp) (by simp) (by simp) (by simp) (by simp)
    | timezone n => exact atom (by simp [Value.eq]) (by simp) (by simp) (by simp) (by simp) (by simp)
    | ipv4 a b c d => exact atom (by simp [Value.eq]) (by simp) (by simp) (by simp) (by simp) (by simp)
    | ipv6 a b c d e f g h => exact atom (by simp [Value.eq]) (by simp) (by simp) (by simp) (by simp) (by simp)
    | single x =>
      simp only [Value.eq]
      rw [eq32_refl_iff, not_iff_not]
      refine ⟨fun h => .inr (.inl ⟨x, h, .refl _⟩), ?_⟩
      rintro (⟨y, _, hs⟩ | ⟨y, hy, hs⟩ | ⟨m, a, _, hs⟩) <;> cases hs
      exact hy
    | double x =>
      simp only [Value.eq]
      rw [eq64_refl_iff, not_iff_not]
      refine ⟨fun h => .inl ⟨x, h, .refl _⟩, ?_⟩
      rintro (⟨y, hy, hs⟩ | ⟨y, _, hs⟩ | ⟨m, a, _, hs⟩) <;> cases hs
      exact hy
    | imaginary z =>
      simp only [Value.eq]
      cases z with
      | cartesian a b =>
        simp only [Imaginary.eq, C05_equivalence.1, Bool.and_self, true_iff]
        rintro (⟨y, _, hs⟩ | ⟨y, _, hs⟩ | ⟨m, a, _, hs⟩) <;> cases hs
      | polar m a =>
        simp only [Imaginary.eq, Bool.and_eq_true, eq64_refl_iff, ← not_or, not_iff_not]
        refine ⟨fun h => .inr (.inr ⟨m, a, h, .refl _⟩), ?_⟩
        rintro (⟨y, _, hs⟩ | ⟨y, _, hs⟩ | ⟨m, a, h, hs⟩) <;> cases hs
        exact h
    | array a =>
      rw [eq_array, List.forall₂_same]
      constructor
      · rintro h (⟨x, hx, hs⟩ | ⟨x, hx, hs⟩ | ⟨p, q, hx, hs⟩) <;> cases hs with
        | array hv' hs =>
          refine ((ha a rfl _ hv' (hv.array hv')).mp (h _ hv')) ?_
          first
            | exact .inl ⟨_, hx, hs⟩
            | exact .inr (.inl ⟨_, hx, hs⟩)
            | exact .inr (.inr ⟨_, _, hx, hs⟩)
      · intro h w hw
        refine (ha a rfl w hw (hv.array hw)).mpr fun hn => h ?_
        rcases hn with ⟨x, hx, hs⟩ | ⟨x, hx, hs⟩ | ⟨p, q, hx, hs⟩
        · exact .inl ⟨x, hx, .array hw hs⟩
        · exact .inr (.inl ⟨x, hx, .array hw hs⟩)
        · exact .inr (.inr ⟨p, q, hx, .array hw hs⟩)
    | map m =>
      rw [eq_map]
      have hget : ∀ k v, (k, v) ∈ m → SJValue.get k m = some v := fun k v h => get_of_mem hv.nodup h
      constructor
      · rintro ⟨_, h⟩ (⟨x, hx, hs⟩ | ⟨x, hx, hs⟩ | ⟨p, q, hx, hs⟩) <;> cases hs with
        | @map _ k _ w hv' hs =>
          obtain ⟨w', h1, h2⟩ := h k w hv'
          rw [hget k w hv', Option.some.injEq] at h1
          subst h1
          refine ((hm m rfl k w hv' (hv.map hv')).mp h2) ?_
          first
            | exact .inl ⟨_, hx, hs⟩
            | exact .inr (.inl ⟨_, hx, hs⟩)
            | exact .inr (.inr ⟨_, _, hx, hs⟩)
      · intro h
        refine ⟨rfl, fun k w hw => ⟨w, hget k w hw, ?_⟩⟩
        refine (hm m rfl k w hw (hv.map hw)).mpr fun hn => h ?_
        rcases hn with ⟨x, hx, hs⟩ | ⟨x, hx, hs⟩ | ⟨p, q, hx, hs⟩
        · exact .inl ⟨x, hx, .map hw hs⟩
        · exact .inr (.inl ⟨x, hx, .map hw hs⟩)
        · exact .inr (.inr ⟨p, q, hx, .map hw hs⟩)

/-- Lists of distinct keys: an inclusion between lists of the same length is an equality of sets. -/
theorem keys_back {a b : List (List Char × Value)} (ha : (a.map Prod.fst).Nodup) (hl : a.length = b.length)
    (h : ∀ k v, (k, v) ∈ a → ∃ v', (k, v') ∈ b) {k : List Char} {v' : Value} (hk : (k, v') ∈ b) :
    ∃ v, (k, v) ∈ a := by
  classical
  have hsub : (a.map Prod.fst).toFinset ⊆ (b.map Prod.fst).toFinset := by
    intro x hx
    simp only [List.mem_toFinset, List.mem_map, Prod.exists, exists_and_right, exists_eq_right] at hx ⊢
    obtain ⟨v, hv⟩ := hx
    exact h x v hv
  have hcard : (b.map Prod.fst).toFinset.card ≤ (a.map Prod.fst).toFinset.card := by
    rw [List.toFinset_card_of_nodup ha]
    refine (List.toFinset_card_le _).trans ?_
    simp [hl]
  have := Finset.eq_of_subset_of_card_le hsub hcard
  have hmem : k ∈ (b.map Prod.fst).toFinset := by
    simp only [List.mem_toFinset, List.mem_map, Prod.exists, exists_and_right, exists_eq_right]
    exact ⟨v', hk⟩
  rw [← this] at hmem
  simpa using hmem

/-- C29: `==` is symmetric, on all run-time values and whatever the iteration orders of their maps. -/
theorem C29_symm {v w : Value} (hv : Live v) (hw : Live w) (h : v.eq w = true) : w.eq v = true := by
  induction v using Value.induct generalizing w with
  | h v ha hm =>
    cases v with
    | array a =>
      cases w with
      | array b =>
        rw [eq_array] at h ⊢
        replace ha := ha a rfl
        have hb : ∀ w ∈ b, Live w := fun w h => hw.array h
        have hva : ∀ w ∈ a, Live w := fun w h => hv.array h
        clear hm hv hw
        induction h with
        | nil => exact .nil
        | cons h1 _ ih =>
          refine .cons (ha _ (by simp) (hva _ (by simp)) (hb _ (by simp)) h1) ?_
          exact ih (fun v hv => ha v (by simp [hv])) (fun w hw => hb w (by simp [hw])) (fun w hw => hva w (by simp [hw]))
      | _ => simp [Value.eq] at h
    | map a =>
      cases w with
      | map b =>
        rw [eq_map] at h ⊢
        obtain ⟨hl, h⟩ := h
        refine ⟨hl.symm, fun k v' hk => ?_⟩
        obtain ⟨v, hk'⟩ := keys_back hv.nodup hl (fun k v hkv => by
          obtain ⟨v', h1, _⟩ := h k v hkv
          exact ⟨v', get_mem h1⟩) hk
        obtain ⟨v'', h1, h2⟩ := h k v hk'
        rw [get_of_mem hw.nodup hk, Option.some.injEq] at h1
        subst h1
        exact ⟨v, get_of_mem hv.nodup hk', hm a rfl k v hk' (hv.map hk') (hw.map hk) h2⟩
      | _ => simp [Value.eq] at h
    | integer i =>
      cases w with
      | integer j =>
        simp only [Value.eq] at h ⊢
        exact C05_equivalence.2.1 _ _ (hv.1 i (.refl _)) (hw.1 j (.refl _)) h
      | _ => simp [Value.eq] at h
    | imaginary z =>
      cases w with
      | imaginary z' =>
        simp only [Value.eq] at h ⊢
        exact Imaginary.eq_symm (hv.2.1 z (.refl _)) (hw.2.1 z' (.refl _)) h
      | _ => simp [Value.eq] at h
    | json j =>
      cases w with
      | json j' => simp only [Value.eq] at h ⊢; exact j.eq_symm j' h
      | _ => simp [Value.eq] at h
    | single x =>
      cases w with
      | single y => simp only [Value.eq] at h ⊢; exact FloatFormat.ieeeEq_symm _ h
      | _ => simp [Value.eq] at h
    | double x =>
      cases w with
      | double y => simp only [Value.eq] at h ⊢; exact FloatFormat.ieeeEq_symm _ h
      | _ => simp [Value.eq] at h
    | _ => cases w <;> simp_all [Value.eq]

/-- C29: `==` is transitive. -/
theorem C29_trans {u v w : Value} (hu : Live u) (hv : Live v) (hw : Live w) (h : u.eq v = true)
    (h' : v.eq w = true) : u.eq w = true := by
  induction u using Value.induct generalizing v w with
  | h u ha hm =>
    cases u with
    | array a =>
      cases v with
      | array b =>
        cases w with
        | array c =>
          rw [eq_array] at h h' ⊢
          replace ha := ha a rfl
          have h1 : ∀ w ∈ a, Live w := fun w h => hu.array h
          have h2 : ∀ w ∈ b, Live w := fun w h => hv.array h
          have h3 : ∀ w ∈ c, Live w := fun w h => hw.array h
          clear hm hv hw hu
          induction h generalizing c with
          | nil => exact h'
          | cons e _ ih =>
            cases h' with
            | cons e' t' =>
              refine .cons (ha _ (by simp) (h1 _ (by simp)) (h2 _ (by simp)) (h3 _ (by simp)) e e') ?_
              exact ih _ t' (fun v hv => ha v (by simp [hv])) (fun w hw => h1 w (by simp [hw]))
                (fun w hw => h2 w (by simp [hw])) (fun w hw => h3 w (by simp [hw]))
        | _ => simp [Value.eq] at h'
      | _ => simp [Value.eq] at h
    | map a =>
      cases v with
      | map b =>
        cases w with
        | map c =>
          rw [eq_map] at h h' ⊢
          refine ⟨h.1.trans h'.1, fun k x hk => ?_⟩
          obtain ⟨y, h1, h2⟩ := h.2 k x hk
          obtain ⟨z, h3, h4⟩ := h'.2 k y (get_mem h1)
          exact ⟨z, h3, hm a rfl k x hk (hu.map hk) (hv.map (get_mem h1)) (hw.map (get_mem h3)) h2 h4⟩
        | _ => simp [Value.eq] at h'
      | _ => simp [Value.eq] at h
    | integer i =>
      cases v with
      | integer j =>
        cases w with
        | integer k =>
          simp only [Value.eq] at h h' ⊢
          exact C05_equivalence.2.2 _ _ _ (hu.1 i (.refl _)) (hv.1 j (.refl _)) (hw.1 k (.refl _)) h h'
        | _ => simp [Value.eq] at h'
      | _ => simp [Value.eq] at h
    | imaginary z =>
      cases v with
      | imaginary z' =>
        cases w with
        | imaginary z'' =>
          simp only [Value.eq] at h h' ⊢
          exact Imaginary.eq_trans (hu.2.1 z (.refl _)) (hv.2.1 z' (.refl _)) (hw.2.1 z'' (.refl _)) h h'
        | _ => simp [Value.eq] at h'
      | _ => simp [Value.eq] at h
    | json j =>
      cases v with
      | json j' =>
        cases w with
        | json j'' => simp only [Value.eq] at h h' ⊢; exact j.eq_trans _ _ h h'
        | _ => simp [Value.eq] at h'
      | _ => simp [Value.eq] at h
    | single x =>
      cases v with
      | single y =>
        cases w with
        | single z => simp only [Value.eq] at h h' ⊢; exact FloatFormat.ieeeEq_trans _ h h'
        | _ => simp [Value.eq] at h'
      | _ => simp [Value.eq] at h
    | double x =>
      cases v with
      | double y =>
        cases w with
        | double z => simp only [Value.eq] at h h' ⊢; exact FloatFormat.ieeeEq_trans _ h h'
        | _ => simp [Value.eq] at h'
      | _ => simp [Value.eq] at h
    | _ => cases v <;> simp_all [Value.eq]

/-! ## Hashing -/

/-- C29, partial: equal values feed the same data to the hasher. Missing: values with a float zero and
values with a map of two or more entries, for which it is false (`C29_refuted_hash_*`). -/
theorem C29_hash_partial (env : Env) {v w : Value} (hv : Live v) (hw : Live w) (hz : ¬ HasFloatZero v)
    (hm' : ¬ HasWideMap v) (h : v.eq w = true) : hashItems env v = hashItems env w := by
  induction v using Value.induct generalizing w with
  | h v ha hm =>
    cases v with
    | array a =>
      cases w with
      | array b =>
        rw [eq_array] at h
        simp only [hashItems, List.cons.injEq, true_and]
        replace ha := ha a rfl
        have h1 : ∀ w ∈ a, Live w ∧ ¬ HasFloatZero w ∧ ¬ HasWideMap w := by
          intro w hw
          refine ⟨hv.array hw, fun hn => hz ?_, fun ⟨m, hl, hs⟩ => hm' ⟨m, hl, .array hw hs⟩⟩
          rcases hn with ⟨x, hx, hs⟩ | ⟨x, hx, hs⟩ | ⟨p, q, hx, hs⟩ | ⟨j, x, hx, hj, hs⟩
          · exact .inl ⟨x, hx, .array hw hs⟩
          · exact .inr (.inl ⟨x, hx, .array hw hs⟩)
          · exact .inr (.inr (.inl ⟨p, q, hx, .array hw hs⟩))
          · exact .inr (.inr (.inr ⟨j, x, hx, hj, .array hw hs⟩))
        have h2 : ∀ w ∈ b, Live w := fun w h => hw.array h
        clear hm hv hw hz hm'
        induction h with
        | nil => rfl
        | cons e _ ih =>
          obtain ⟨p, q, r⟩ := h1 _ List.mem_cons_self
          simp only [hashList]
          rw [ha _ (by simp) p (h2 _ (by simp)) q r e]
          rw [ih (fun v hv => ha v (by simp [hv])) (fun w hw => h1 w (by simp [hw])) (fun w hw => h2 w (by simp [hw]))]
      | _ => simp [Value.eq] at h
    | map a =>
      cases w with
      | map b =>
        rw [eq_map] at h
        have hlen : a.length ≤ 1 := by
          by_contra hc
          exact hm' ⟨a, by omega, .refl _⟩
        match a, b, hlen, h.1 with
        | [], [], _, _ => rfl
        | [(k, x)], [(k', y)], _, _ =>
          obtain ⟨y', h1, h2⟩ := h.2 k x (by simp)
          have hmem := get_mem h1
          simp only [List.mem_singleton, Prod.mk.injEq] at hmem
          obtain ⟨rfl, rfl⟩ := hmem
          simp only [hashItems, hashValues, List.map_cons, List.map_nil]
          rw [hm [(k, x)] rfl k x (by simp) (hv.map (k := k) (by simp)) (hw.map (k := k) (by simp)) (fun hn => hz ?_)
            (fun ⟨m, hl, hs⟩ => hm' ⟨m, hl, .map (k := k) (by simp) hs⟩) h2]
          have hmem : (k, x) ∈ [(k, x)] := by simp
          rcases hn with ⟨x, hx, hs⟩ | ⟨x, hx, hs⟩ | ⟨p, q, hx, hs⟩ | ⟨j, x, hx, hj, hs⟩
          · exact .inl ⟨x, hx, .map hmem hs⟩
          · exact .inr (.inl ⟨x, hx, .map hmem hs⟩)
          · exact .inr (.inr (.inl ⟨p, q, hx, .map hmem hs⟩))
          · exact .inr (.inr (.inr ⟨j, x, hx, hj, .map hmem hs⟩))
      | _ => simp [Value.eq] at h
    | integer i =>
      cases w with
      | integer j =>
        simp only [Value.eq] at h
        simp only [hashItems, C06_hash_of_eq (hv.1 i (.refl _)) (hw.1 j (.refl _)) h]
      | _ => simp [Value.eq] at h
    | imaginary z =>
      cases w with
      | imaginary z' =>
        simp only [Value.eq] at h
        have r1 := hv.2.1 z (.refl _)
        have r2 := hw.2.1 z' (.refl _)
        cases r1 with
        | cartesian a b =>
          cases r2 with
          | cartesian c d =>
            simp only [Imaginary.eq, Bool.and_eq_true] at h
            simp only [hashItems, hashImaginary, C06_hash_of_eq a c h.1, C06_hash_of_eq b d h.2]
          | polar => simp [Imaginary.eq] at h
        | polar m a =>
          cases r2 with
          | cartesian => simp [Imaginary.eq] at h
          | polar m' a' =>
            simp only [Imaginary.eq, Bool.and_eq_true] at h
            have h1 := eq64_noZero (fun h0 => hz (.inr (.inr (.inl ⟨m, a, .inl h0, .refl _⟩)))) h.1
            have h2 := eq64_noZero (fun h0 => hz (.inr (.inr (.inl ⟨m, a, .inr h0, .refl _⟩)))) h.2
            rw [h1, h2]
      | _ => simp [Value.eq] at h
    | json j =>
      cases w with
      | json j' =>
        simp only [Value.eq] at h
        rw [j.eq_of_noZero j' (fun x hx hs => hz (.inr (.inr (.inr ⟨j, x, hx, hs, .refl _⟩)))) h]
      | _ => simp [Value.eq] at h
    | single x =>
      cases w with
      | single y =>
        simp only [Value.eq] at h
        rw [eq32_noZero (fun h0 => hz (.inr (.inl ⟨x, h0, .refl _⟩))) h]
      | _ => simp [Value.eq] at h
    | double x =>
      cases w with
      | double y =>
        simp only [Value.eq] at h
        rw [eq64_noZero (fun h0 => hz (.inl ⟨x, h0, .refl _⟩)) h]
      | _ => simp [Value.eq] at h
    | _ => cases w <;> simp_all [Value.eq]

/-! ## Violations -/

/-- C29 is violated: `Value::DoubleFloat(f64::NAN)` is not equal to itself. -/
theorem C29_refuted_nan : Value.eq (.double 0x7FF8000000000000) (.double 0x7FF8000000000000) = false := by decide +kernel

/-- C29 is violated: `0.0 == -0.0`, but they feed different data to the hasher, in either precision. -/
theorem C29_refuted_hash_zero (env : Env) :
    (Value.eq (.double 0) (.double 0x8000000000000000) = true ∧
      hashItems env (.double 0) ≠ hashItems env (.double 0x8000000000000000)) ∧
    (Value.eq (.single 0) (.single 0x80000000) = true ∧
      hashItems env (.single 0) ≠ hashItems env (.single 0x80000000)) := by
  refine ⟨⟨by decide +kernel, ?_⟩, ⟨by decide +kernel, ?_⟩⟩ <;> simp only [hashItems] <;> decide +kernel

/-- C29 is violated inside JSON too, as soon as the printer distinguishes `0.0` from `-0.0` (serde_json's
does). -/
theorem C29_refuted_hash_json_zero (env : Env)
    (hp : env.jsonPrint (.number (.float 0)) ≠ env.jsonPrint (.number (.float 0x8000000000000000))) :
    Value.eq (.json (.number (.float 0))) (.json (.number (.float 0x8000000000000000))) = true ∧
      hashItems env (.json (.number (.float 0))) ≠ hashItems env (.json (.number (.float 0x8000000000000000))) := by
  refine ⟨by decide +kernel, ?_⟩
  simp only [hashItems]
  intro h
  simp at h
  exact hp h

/-- C29 is violated by every map of two or more entries with different keys: the same map iterated in
another order is equal but feeds different data. -/
theorem C29_refuted_hash_map_order (env : Env) (k k' : List Char) (hk : k ≠ k') (x y : Value)
    (rest : List (List Char × Value)) (hl : Live (.map ((k, x) :: (k', y) :: rest)))
    (hn : ¬ HasNan (.map ((k, x) :: (k', y) :: rest))) :
    Value.eq (.map ((k, x) :: (k', y) :: rest)) (.map ((k', y) :: (k, x) :: rest)) = true ∧
      hashItems env (.map ((k, x) :: (k', y) :: rest)) ≠ hashItems env (.map ((k', y) :: (k, x) :: rest)) := by
  constructor
  · have h := (eq_map _ _).mp ((C29_refl_iff hl).mpr hn)
    rw [eq_map]
    refine ⟨by simp, fun j v hj => ?_⟩
    obtain ⟨v', h1, h2⟩ := h.2 j v hj
    refine ⟨v', ?_, h2⟩
    rw [← h1]
    simp only [SJValue.get]
    split_ifs <;> simp_all
  · simp only [hashItems]
    intro h
    simp at h
    exact hk h.1

/-! ## Examples -/

example : Value.eq (.map [(['a'], .null), (['b'], .integer (Integer.ofUnsigned 1 7))])
    (.map [(['b'], .integer (Integer.ofSigned 16 7)), (['a'], .null)]) = true := by decide +kernel
example : Live (.array [.integer (Integer.ofUnsigned 1 7), .double 0x3FF0000000000000]) := by
  refine ⟨fun i h => ?_, fun z h => ?_, fun m h => ?_⟩
  · cases h with
    | array hv hs =>
      simp only [List.mem_cons, List.not_mem_nil, or_false] at hv
      rcases hv with rfl | rfl <;> cases hs
      exact .native (.unsigned (by unfold Width; decide) (by unfold IsUnsigned; decide))
  all_goals
    cases h with
    | array hv hs =>
      simp only [List.mem_cons, List.not_mem_nil, or_false] at hv
      rcases hv with rfl | rfl <;> cases hs

end Souris
