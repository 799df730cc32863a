import Verif.Model.ValueEq
import Verif.Spec.ValueEq
import Verif.Props.Integer
import Verif.Lemmas.Value

/-! # Equality and hashing of values -/

namespace Souris

/-! ## Induction -/

theorem SJValue.induct {P : SJValue → Prop}
    (h : ∀ j, (∀ a, j = .array a → ∀ v ∈ a, P v) → (∀ m, j = .object m → ∀ k v, (k, v) ∈ m → P v) → P j)
    (j : SJValue) : P j := by
  have key : ∀ n, ∀ j : SJValue, sizeOf j < n → P j := by
    intro n
    induction n with
    | zero => intro j hj; omega
    | succ n ih =>
      intro j hj
      refine h j ?_ ?_
      · rintro a rfl v hv
        refine ih v ?_
        have := List.sizeOf_lt_of_mem hv
        simp at hj; omega
      · rintro m rfl k v hv
        refine ih v ?_
        have := List.sizeOf_lt_of_mem hv
        simp at hj this; omega
  exact key (sizeOf j + 1) j (by omega)

theorem Value.induct {P : Value → Prop}
    (h : ∀ j, (∀ a, j = .array a → ∀ v ∈ a, P v) → (∀ m, j = .map m → ∀ k v, (k, v) ∈ m → P v) → P j)
    (j : Value) : P j := by
  have key : ∀ n, ∀ j : Value, sizeOf j < n → P j := by
    intro n
    induction n with
    | zero => intro j hj; omega
    | succ n ih =>
      intro j hj
      refine h j ?_ ?_
      · rintro a rfl v hv
        refine ih v ?_
        have := List.sizeOf_lt_of_mem hv
        simp at hj; omega
      · rintro m rfl k v hv
        refine ih v ?_
        have := List.sizeOf_lt_of_mem hv
        simp at hj this; omega
  exact key (sizeOf j + 1) j (by omega)

/-! ## Association lists -/

theorem get_mem {α : Type} {k : List Char} {v : α} {m : List (List Char × α)}
    (h : SJValue.get k m = some v) : (k, v) ∈ m := by
  induction m with
  | nil => simp [SJValue.get] at h
  | cons x xs ih =>
    obtain ⟨k', v'⟩ := x
    simp only [SJValue.get] at h
    split at h
    · rename_i hk; subst hk; simp_all
    · simp [ih h]

theorem get_of_mem {α : Type} {k : List Char} {v : α} {m : List (List Char × α)}
    (hn : (m.map Prod.fst).Nodup) (h : (k, v) ∈ m) : SJValue.get k m = some v := by
  induction m with
  | nil => simp at h
  | cons x xs ih =>
    obtain ⟨k', v'⟩ := x
    simp only [List.map_cons, List.nodup_cons] at hn
    simp only [SJValue.get]
    rcases List.mem_cons.mp h with h1 | h1
    · cases h1; simp
    · have : k ≠ k' := by
        rintro rfl
        exact hn.1 (List.mem_map.mpr ⟨(k, v), h1, rfl⟩)
      rw [if_neg this]
      exact ih hn.2 h1

theorem get_none {α : Type} {k : List Char} {m : List (List Char × α)} :
    SJValue.get k m = none ↔ ∀ v, (k, v) ∉ m := by
  induction m with
  | nil => simp [SJValue.get]
  | cons x xs ih =>
    obtain ⟨k', v'⟩ := x
    simp only [SJValue.get]
    split
    · rename_i hk; subst hk
      simp only [reduceCtorEq, false_iff, not_forall]
      exact ⟨v', by simp⟩
    · rename_i hk; rw [ih]; simp [hk]

/-! ## JSON -/

namespace SJValue

theorem eqList_refl {a : List SJValue} (h : ∀ v ∈ a, eq v v = true) : eqList a a = true := by
  induction a with
  | nil => simp [eqList]
  | cons x xs ih => simp_all [eqList]

theorem eqEntries_refl {m : List (List Char × SJValue)} (h : ∀ k v, (k, v) ∈ m → eq v v = true) :
    eqEntries m m = true := by
  induction m with
  | nil => simp [eqEntries]
  | cons x xs ih =>
    obtain ⟨k, v⟩ := x
    simp only [eqEntries, Bool.and_eq_true, decide_true, true_and]
    exact ⟨h k v (by simp), ih fun k v hv => h k v (by simp [hv])⟩

theorem eq_refl (j : SJValue) : eq j j = true := by
  induction j using SJValue.induct with
  | h j ha hm =>
    cases j with
    | null => simp [eq]
    | bool b => simp [eq]
    | number n => cases n <;> simp [eq]
    | string s => simp [eq]
    | array a => simp only [eq]; exact eqList_refl (ha a rfl)
    | object m => simp only [eq]; exact eqEntries_refl (hm m rfl)

theorem eq_number (a b : SJNumber) : eq (.number a) (.number b) = true ↔
    a = b ∨ ∃ x y, a = .float x ∧ b = .float y ∧ x.toNat % 2 ^ 63 = 0 ∧ y.toNat % 2 ^ 63 = 0 := by
  cases a <;> cases b <;> simp [eq]

theorem eq_symm (j : SJValue) : ∀ k, eq j k = true → eq k j = true := by
  induction j using SJValue.induct with
  | h j ha hm =>
    intro k h
    cases j with
    | null => cases k <;> simp [eq] at h ⊢
    | bool b => cases k <;> simp [eq] at h ⊢; exact h.symm
    | string s => cases k <;> simp [eq] at h ⊢; exact h.symm
    | number n =>
      cases k with
      | number m =>
        rw [eq_number] at h ⊢
        rcases h with h | ⟨x, y, rfl, rfl, h1, h2⟩
        · exact .inl h.symm
        · exact .inr ⟨y, x, rfl, rfl, h2, h1⟩
      | _ => cases n <;> simp [eq] at h
    | array a =>
      cases k with
      | array b =>
        simp only [eq] at h ⊢
        replace ha := ha a rfl
        clear hm
        induction a generalizing b with
        | nil => cases b <;> simp [eqList] at h ⊢
        | cons x xs ih =>
          cases b with
          | nil => simp [eqList] at h
          | cons y ys =>
            simp only [eqList, Bool.and_eq_true] at h ⊢
            exact ⟨ha x (by simp) _ h.1, ih ys h.2 (fun v hv => ha v (by simp [hv]))⟩
      | _ => simp [eq] at h
    | object a =>
      cases k with
      | object b =>
        simp only [eq] at h ⊢
        replace hm := hm a rfl
        clear ha
        induction a generalizing b with
        | nil => cases b <;> simp [eqEntries] at h ⊢
        | cons x xs ih =>
          obtain ⟨k, v⟩ := x
          cases b with
          | nil => simp [eqEntries] at h
          | cons y ys =>
            obtain ⟨k', v'⟩ := y
            simp only [eqEntries, Bool.and_eq_true, decide_eq_true_eq] at h ⊢
            exact ⟨⟨h.1.1.symm, hm k v (by simp) _ h.1.2⟩, ih ys h.2 (fun k v hv => hm k v (by simp [hv]))⟩
      | _ => simp [eq] at h

theorem eq_trans (j : SJValue) : ∀ k l, eq j k = true → eq k l = true → eq j l = true := by
  induction j using SJValue.induct with
  | h j ha hm =>
    intro k l h h'
    cases j with
    | null => cases k <;> simp [eq] at h; exact h'
    | bool b => cases k <;> simp [eq] at h; subst h; exact h'
    | string s => cases k <;> simp [eq] at h; subst h; exact h'
    | number n =>
      cases k with
      | number m =>
        cases l with
        | number o =>
          rw [eq_number] at h h' ⊢
          rcases h with rfl | ⟨x, y, rfl, rfl, h1, h2⟩
          · exact h'
          · rcases h' with rfl | ⟨y', z, h3, rfl, h4, h5⟩
            · exact .inr ⟨x, y, rfl, rfl, h1, h2⟩
            · exact .inr ⟨x, z, rfl, rfl, h1, h5⟩
        | _ => cases m <;> simp [eq] at h'
      | _ => cases n <;> simp [eq] at h
    | array a =>
      cases k with
      | array b =>
        cases l with
        | array c =>
          simp only [eq] at h h' ⊢
          replace ha := ha a rfl
          clear hm
          induction a generalizing b c with
          | nil => cases b <;> simp [eqList] at h; exact h'
          | cons x xs ih =>
            cases b with
            | nil => simp [eqList] at h
            | cons y ys =>
              cases c with
              | nil => simp [eqList] at h'
              | cons z zs =>
                simp only [eqList, Bool.and_eq_true] at h h' ⊢
                exact ⟨ha x (by simp) _ _ h.1 h'.1, ih ys h.2 zs h'.2 (fun v hv => ha v (by simp [hv]))⟩
        | _ => simp [eq] at h'
      | _ => simp [eq] at h
    | object a =>
      cases k with
      | object b =>
        cases l with
        | object c =>
          simp only [eq] at h h' ⊢
          replace hm := hm a rfl
          clear ha
          induction a generalizing b c with
          | nil => cases b <;> simp [eqEntries] at h; exact h'
          | cons x xs ih =>
            obtain ⟨k, v⟩ := x
            cases b with
            | nil => simp [eqEntries] at h
            | cons y ys =>
              cases c with
              | nil => simp [eqEntries] at h'
              | cons z zs =>
                obtain ⟨k', v'⟩ := y
                obtain ⟨k'', v''⟩ := z
                simp only [eqEntries, Bool.and_eq_true, decide_eq_true_eq] at h h' ⊢
                exact ⟨⟨h.1.1.trans h'.1.1, hm k v (by simp) _ _ h.1.2 h'.1.2⟩,
                  ih ys h.2 zs h'.2 (fun k v hv => hm k v (by simp [hv]))⟩
        | _ => simp [eq] at h'
      | _ => simp [eq] at h

theorem isZero64 {x : UInt64} (h : x.toNat % 2 ^ 63 = 0) : Value.IsZero64 x := by
  have := x.toNat_lt
  unfold Value.IsZero64
  omega

/-- Without float zeros `==` is identity. -/
theorem eq_of_noZero (j : SJValue) : ∀ k, (∀ x, Value.IsZero64 x → ¬ Sub (.number (.float x)) j) →
    eq j k = true → j = k := by
  induction j using SJValue.induct with
  | h j ha hm =>
    intro k hz h
    cases j with
    | null => cases k <;> simp [eq] at h ⊢
    | bool b => cases k <;> simp [eq] at h ⊢; exact h
    | string s => cases k <;> simp [eq] at h ⊢; exact h
    | number n =>
      cases k with
      | number m =>
        rw [eq_number] at h
        rcases h with h | ⟨x, y, rfl, rfl, h1, h2⟩
        · rw [h]
        · exact absurd (Sub.refl _) (hz x (isZero64 h1))
      | _ => cases n <;> simp [eq] at h
    | array a =>
      cases k with
      | array b =>
        simp only [eq] at h
        replace ha := ha a rfl
        congr 1
        have hz' : ∀ v ∈ a, ∀ x, Value.IsZero64 x → ¬ Sub (.number (.float x)) v :=
          fun v hv x hx hs => hz x hx (.array hv hs)
        clear hm hz
        induction a generalizing b with
        | nil => cases b <;> simp [eqList] at h ⊢
        | cons x xs ih =>
          cases b with
          | nil => simp [eqList] at h
          | cons y ys =>
            simp only [eqList, Bool.and_eq_true] at h
            rw [ha x (by simp) y (hz' x (by simp)) h.1,
              ih ys h.2 (fun v hv => ha v (by simp [hv])) (fun v hv => hz' v (by simp [hv]))]
      | _ => simp [eq] at h
    | object a =>
      cases k with
      | object b =>
        simp only [eq] at h
        replace hm := hm a rfl
        congr 1
        have hz' : ∀ k v, (k, v) ∈ a → ∀ x, Value.IsZero64 x → ¬ Sub (.number (.float x)) v :=
          fun k v hv x hx hs => hz x hx (.object hv hs)
        clear ha hz
        induction a generalizing b with
        | nil => cases b <;> simp [eqEntries] at h ⊢
        | cons x xs ih =>
          obtain ⟨k, v⟩ := x
          cases b with
          | nil => simp [eqEntries] at h
          | cons y ys =>
            obtain ⟨k', v'⟩ := y
            simp only [eqEntries, Bool.and_eq_true, decide_eq_true_eq] at h
            rw [h.1.1, hm k v (by simp) v' (hz' k v (by simp)) h.1.2,
              ih ys h.2 (fun k v hv => hm k v (by simp [hv])) (fun k v hv => hz' k v (by simp [hv]))]
      | _ => simp [eq] at h

end SJValue

/-! ## Floats -/

namespace FloatFormat

theorem ieeeEq_iff (F : FloatFormat) (a b : Nat) : F.ieeeEq a b = true ↔
    F.isNan a = false ∧ F.isNan b = false ∧
      (a = b ∨ (F.exponent a = 0 ∧ F.mantissa a = 0 ∧ F.exponent b = 0 ∧ F.mantissa b = 0)) := by
  unfold ieeeEq
  by_cases h1 : F.isNan a = true <;> by_cases h2 : F.isNan b = true <;> simp_all
  exact or_comm

theorem ieeeEq_symm (F : FloatFormat) {a b : Nat} (h : F.ieeeEq a b = true) : F.ieeeEq b a = true := by
  rw [ieeeEq_iff] at h ⊢
  obtain ⟨h1, h2, h3⟩ := h
  refine ⟨h2, h1, ?_⟩
  rcases h3 with h | ⟨p, q, r, s⟩
  · exact .inl h.symm
  · exact .inr ⟨r, s, p, q⟩

theorem ieeeEq_trans (F : FloatFormat) {a b c : Nat} (h : F.ieeeEq a b = true) (h' : F.ieeeEq b c = true) :
    F.ieeeEq a c = true := by
  rw [ieeeEq_iff] at h h' ⊢
  obtain ⟨h1, h2, h3⟩ := h
  obtain ⟨h4, h5, h6⟩ := h'
  refine ⟨h1, h5, ?_⟩
  rcases h3 with rfl | ⟨p, q, r, s⟩
  · exact h6
  · rcases h6 with rfl | ⟨p', q', r', s'⟩
    · exact .inr ⟨p, q, r, s⟩
    · exact .inr ⟨p, q, r', s'⟩

end FloatFormat

namespace Value

theorem isNan64_iff (x : UInt64) : f64Format.isNan x.toNat = true ↔ IsNan64 x := by
  simp only [FloatFormat.isNan, FloatFormat.exponent, FloatFormat.mantissa, f64Format, IsNan64]
  exact decide_eq_true_iff

theorem isNan32_iff (x : UInt32) : f32Format.isNan x.toNat = true ↔ IsNan32 x := by
  simp only [FloatFormat.isNan, FloatFormat.exponent, FloatFormat.mantissa, f32Format, IsNan32]
  exact decide_eq_true_iff

theorem eq64_refl_iff (x : UInt64) : f64Format.ieeeEq x.toNat x.toNat = true ↔ ¬ IsNan64 x := by
  rw [FloatFormat.ieeeEq_iff, ← isNan64_iff]; simp

theorem eq32_refl_iff (x : UInt32) : f32Format.ieeeEq x.toNat x.toNat = true ↔ ¬ IsNan32 x := by
  rw [FloatFormat.ieeeEq_iff, ← isNan32_iff]; simp

theorem eq64_noZero {x y : UInt64} (hz : ¬ IsZero64 x) (h : f64Format.ieeeEq x.toNat y.toNat = true) :
    x = y := by
  rw [FloatFormat.ieeeEq_iff] at h
  rcases h.2.2 with h | ⟨h1, h2, _, _⟩
  · exact UInt64.toNat_inj.mp h
  · exfalso; apply hz
    simp only [FloatFormat.exponent, FloatFormat.mantissa, f64Format] at h1 h2
    have := x.toNat_lt
    unfold IsZero64
    omega

theorem eq32_noZero {x y : UInt32} (hz : ¬ IsZero32 x) (h : f32Format.ieeeEq x.toNat y.toNat = true) :
    x = y := by
  rw [FloatFormat.ieeeEq_iff] at h
  rcases h.2.2 with h | ⟨h1, h2, _, _⟩
  · exact UInt32.toNat_inj.mp h
  · exfalso; apply hz
    simp only [FloatFormat.exponent, FloatFormat.mantissa, f32Format] at h1 h2
    have := x.toNat_lt
    unfold IsZero32
    omega

/-! ## Subvalues -/

theorem Live.array {a : List Value} (h : Live (.array a)) {v : Value} (hv : v ∈ a) : Live v :=
  ⟨fun i hi => h.1 i (.array hv hi), fun i hi => h.2.1 i (.array hv hi), fun i hi => h.2.2 i (.array hv hi)⟩

theorem Live.map {m : List (List Char × Value)} (h : Live (.map m)) {k : List Char} {v : Value}
    (hv : (k, v) ∈ m) : Live v :=
  ⟨fun i hi => h.1 i (.map hv hi), fun i hi => h.2.1 i (.map hv hi), fun i hi => h.2.2 i (.map hv hi)⟩

theorem Live.nodup {m : List (List Char × Value)} (h : Live (.map m)) : (m.map Prod.fst).Nodup :=
  h.2.2 m (.refl _)

/-! ## Lists and maps -/

theorem eqList_iff (a : List Value) : ∀ b, eqList a b = true ↔ List.Forall₂ (fun v w => eq v w = true) a b := by
  induction a with
  | nil => intro b; cases b <;> simp [eqList]
  | cons x xs ih => intro b; cases b <;> simp [eqList, ih]

theorem eqAll_iff (a m : List (List Char × Value)) : eqAll a m = true ↔
    ∀ k v, (k, v) ∈ a → ∃ v', SJValue.get k m = some v' ∧ eq v v' = true := by
  induction a with
  | nil => simp [eqAll]
  | cons x xs ih =>
    obtain ⟨k, v⟩ := x
    simp only [eqAll, Bool.and_eq_true, ih, List.mem_cons, Prod.mk.injEq]
    constructor
    · rintro ⟨h1, h2⟩ k' v' (⟨rfl, rfl⟩ | h)
      · cases e : SJValue.get k' m with
        | none => rw [e] at h1; simp at h1
        | some w => rw [e] at h1; exact ⟨w, rfl, h1⟩
      · exact h2 k' v' h
    · intro h
      refine ⟨?_, fun k' v' h' => h k' v' (.inr h')⟩
      obtain ⟨w, e, hw⟩ := h k v (.inl ⟨rfl, rfl⟩)
      rw [e]; exact hw

theorem eq_array (a b : List Value) : eq (.array a) (.array b) = true ↔
    List.Forall₂ (fun v w => eq v w = true) a b := by
  simp only [eq]; exact eqList_iff a b

theorem eq_map (a b : List (List Char × Value)) : eq (.map a) (.map b) = true ↔
    a.length = b.length ∧ ∀ k v, (k, v) ∈ a → ∃ v', SJValue.get k b = some v' ∧ eq v v' = true := by
  simp only [eq, Bool.and_eq_true, decide_eq_true_eq, eqAll_iff]

end Value

/-! ## Imaginary numbers -/

namespace Imaginary

theorem eq_symm {a b : Imaginary} (ha : a.Reachable) (hb : b.Reachable) (h : a.eq b = true) : b.eq a = true := by
  cases ha with
  | cartesian h1 h2 =>
    cases hb with
    | cartesian h3 h4 =>
      simp only [eq, Bool.and_eq_true] at h ⊢
      exact ⟨C05_equivalence.2.1 _ _ h1 h3 h.1, C05_equivalence.2.1 _ _ h2 h4 h.2⟩
    | polar => simp [eq] at h
  | polar =>
    cases hb with
    | cartesian => simp [eq] at h
    | polar =>
      simp only [eq, Bool.and_eq_true] at h ⊢
      exact ⟨FloatFormat.ieeeEq_symm _ h.1, FloatFormat.ieeeEq_symm _ h.2⟩

theorem eq_trans {a b c : Imaginary} (ha : a.Reachable) (hb : b.Reachable) (hc : c.Reachable)
    (h : a.eq b = true) (h' : b.eq c = true) : a.eq c = true := by
  cases ha with
  | cartesian h1 h2 =>
    cases hb with
    | cartesian h3 h4 =>
      cases hc with
      | cartesian h5 h6 =>
        simp only [eq, Bool.and_eq_true] at h h' ⊢
        exact ⟨C05_equivalence.2.2 _ _ _ h1 h3 h5 h.1 h'.1, C05_equivalence.2.2 _ _ _ h2 h4 h6 h.2 h'.2⟩
      | polar => simp [eq] at h'
    | polar => simp [eq] at h
  | polar =>
    cases hb with
    | cartesian => simp [eq] at h
    | polar =>
      cases hc with
      | cartesian => simp [eq] at h'
      | polar =>
        simp only [eq, Bool.and_eq_true] at h h' ⊢
        exact ⟨FloatFormat.ieeeEq_trans _ h.1 h'.1, FloatFormat.ieeeEq_trans _ h.2 h'.2⟩

end Imaginary

end Souris
