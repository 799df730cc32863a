import Verif.Spec.JsonForm
import Verif.Lemmas.Store

/-! # C85: the JSON form of values -/

namespace Souris

open Value

/-! ## Integers -/

theorem integer_json {i : Integer} (h : SafeInt i) :
    (∀ n, i.toJson = some n → JsonInteger i.value n ∧ Fits i) ∧ (i.toJson = none → ¬ Fits i) := by
  obtain ⟨hi, hgap⟩ := h
  have hw : Width 8 := by unfold Width; decide
  have hneg := hi.neg_iff
  unfold Fits
  by_cases hr : -(2 ^ 63) ≤ i.value ∧ i.value < 2 ^ 64
  · have key : ∃ n, i.toJson = some n ∧ JsonInteger i.value n := by
      by_cases hn : i.value < 0
      · have hin : i.isNegative = true := by simp only [Integer.isNegative, hneg.mpr hn]; rfl
        have hfit : IsSigned 8 i.value := by unfold IsSigned; omega
        refine ⟨.negInt i.value, ?_, .negative hr.1 hn⟩
        simp only [Integer.toJson, hin, if_true, C02_signed_fits_partial hi hw hfit, SJNumber.ofI64, if_pos hn]
      · have hin : i.isNegative = false := by
          have : i.signedState ≠ .signedNegative := fun h => hn (hneg.mp h)
          simp only [Integer.isNegative]
          cases hs : i.signedState <;> simp_all
        have hfit : IsUnsigned 8 i.value.toNat := by unfold IsUnsigned; omega
        have := ((C02_unsigned_exact hi hw).1 i.value.toNat).mpr ⟨hfit, by omega⟩
        have hv : i.value = (i.value.toNat : Int) := by omega
        refine ⟨.posInt i.value.toNat, by simp [Integer.toJson, hin, this, SJNumber.ofU64], ?_⟩
        have h64 : i.value.toNat < 2 ^ 64 := by omega
        rw [hv]
        exact .nonneg h64
    obtain ⟨n, e, hn⟩ := key
    refine ⟨fun n' e' => ?_, fun e' => by rw [e] at e'; cases e'⟩
    rw [e] at e'
    cases e'
    exact ⟨hn, hr⟩
  · have e : i.toJson = none := (C11_json_partial hi).1 (by omega)
    exact ⟨fun n e' => (by rw [e] at e'; cases e'), fun _ => hr⟩

/-! ## Floats -/

theorem finite64_iff {x : UInt64} : f64Format.isFinite x.toNat = true ↔ F64Finite x := decide_eq_true_iff

theorem finite32_iff {x : UInt32} : f32Format.isFinite x.toNat = true ↔ F32Finite x := decide_eq_true_iff

theorem ofF64_some {x : UInt64} {n : SJNumber} (h : SJValue.ofF64 x = some n) : n = .float x ∧ F64Finite x := by
  unfold SJValue.ofF64 at h
  split at h
  · rename_i hf
    cases h
    exact ⟨rfl, finite64_iff.mp hf⟩
  · cases h

theorem ofF64_none {x : UInt64} (h : SJValue.ofF64 x = none) : ¬ F64Finite x := by
  unfold SJValue.ofF64 at h
  split at h
  · cases h
  · rename_i hf
    exact fun h => hf (finite64_iff.mpr h)

theorem widen_parts (x : UInt32) : ∃ r, r < 2 ^ 63 ∧ widen x = UInt64.ofNat (x.toNat / 2 ^ 31 * 2 ^ 63 + r) ∧
    (f32Format.exponent x.toNat = 255 → 2047 * 2 ^ 52 ≤ r) := by
  have he : f32Format.exponent x.toNat < 256 := Nat.mod_lt _ (by decide)
  have hm : f32Format.mantissa x.toNat < 2 ^ 23 := Nat.mod_lt _ (by decide)
  unfold widen
  simp only
  generalize f32Format.exponent x.toNat = e at *
  generalize f32Format.mantissa x.toNat = m at *
  split
  · exact ⟨2047 * 2 ^ 52 + m * 2 ^ 29, by omega, by rw [Nat.add_assoc], fun _ => by omega⟩
  · rename_i h255
    split
    · split
      · exact ⟨0, by omega, by rw [Nat.add_zero], fun h => absurd h h255⟩
      · rename_i hm0
        refine ⟨(m.log2 + 874) * 2 ^ 52 + (m - 2 ^ m.log2) * 2 ^ (52 - m.log2), ?_, by rw [Nat.add_assoc], fun h => absurd h h255⟩
        have h1 : 2 ^ m.log2 ≤ m := Nat.log2_self_le hm0
        have h2 : m < 2 ^ (m.log2 + 1) := Nat.lt_log2_self
        have h3 : m.log2 < 23 := (Nat.log2_lt hm0).mpr hm
        have h4 : (2 : Nat) ^ 52 = 2 ^ m.log2 * 2 ^ (52 - m.log2) := by rw [← Nat.pow_add]; congr 1; omega
        have h5 : (m - 2 ^ m.log2) * 2 ^ (52 - m.log2) < 2 ^ 52 := by
          rw [h4]
          refine Nat.mul_lt_mul_of_pos_right ?_ (Nat.pow_pos (by decide))
          rw [Nat.pow_succ] at h2
          omega
        omega
    · exact ⟨(e + 896) * 2 ^ 52 + m * 2 ^ 29, by omega, by rw [Nat.add_assoc], fun h => absurd h h255⟩

theorem widen_sign (x : UInt32) : (widen x).toNat / 2 ^ 63 = x.toNat / 2 ^ 31 := by
  obtain ⟨r, hr, e, _⟩ := widen_parts x
  have hlt := x.toNat_lt
  rw [e, UInt64.toNat_ofNat_of_lt' (by simp only [UInt64.size]; omega)]
  omega

theorem widen_finite {x : UInt32} : F64Finite (widen x) ↔ F32Finite x := by
  constructor
  · intro h hx
    obtain ⟨r, hr, e, h255⟩ := widen_parts x
    have := h255 hx
    have hlt := x.toNat_lt
    refine h ?_
    rw [e, UInt64.toNat_ofNat_of_lt' (by simp only [UInt64.size]; omega)]
    omega
  · exact fun h => finite64_iff.mp (widen_sameFloat (finite32_iff.mpr h)).1

theorem widen_value {x : UInt32} (h : F32Finite x) : f64Value (widen x) = f32Value x := by
  have := (widen_sameFloat (finite32_iff.mpr h)).2
  rw [f64Value_eq, f32Value_eq, this, Int.cast_mul, Int.cast_pow]
  generalize (f32Format.num x.toNat : ℚ) = q
  rw [show (1074 : Nat) = 149 + 925 by rfl, pow_add, Int.cast_ofNat]
  exact mul_div_mul_right q _ (pow_ne_zero _ (by norm_num))

/-! ## Objects -/

theorem isObject_insert {k : List Char} {v : SJValue} {o fields : List (List Char × SJValue)} (h : IsObject o fields)
    (hk : k ∉ fields.map Prod.fst) : IsObject (SJValue.insert k v o) (fields ++ [(k, v)]) := by
  have hk' : k ∉ o.map Prod.fst := fun h' => hk ((h.2.map Prod.fst).mem_iff.mp h')
  exact ⟨insert_sorted h.1, (insert_perm hk').trans ((h.2.cons _).trans (List.perm_append_singleton _ _).symm)⟩

theorem isObject_marked (types : Bool) (ty : ValueTy) : IsObject (marked types ty) (typeMember types ty.toU8.toNat) := by
  cases types
  · exact ⟨.nil, .refl _⟩
  · exact ⟨by simp [marked, SJValue.insert], by simp [marked, typeMember, SJValue.insert, kTy_eq, num, SJNumber.ofU64]⟩

theorem typeMember_keys (types : Bool) (code : Nat) :
    (typeMember types code).map Prod.fst = if types then ["souris_type".toList] else [] := by
  cases types <;> rfl

theorem kReal_eq : kReal = "real".toList := by decide
theorem kImaginary_eq : kImaginary = "imaginary".toList := by decide
theorem kModulus_eq : kModulus = "modulus".toList := by decide
theorem kArgument_eq : kArgument = "argument".toList := by decide
theorem kTimestamp_eq : kTimestamp = "timestamp".toList := by decide
theorem kTimezone_eq : kTimezone = "timezone".toList := by decide
theorem kBytes_eq : kBytes = "bytes".toList := by decide
theorem kOctets_eq : kOctets = "octets".toList := by decide

/-- An object of one member besides the type. -/
theorem isObject_one (types : Bool) (ty : ValueTy) {k : List Char} (hk : k ≠ "souris_type".toList) (v : SJValue) :
    IsObject (SJValue.insert k v (marked types ty)) (typeMember types ty.toU8.toNat ++ [(k, v)]) := by
  refine isObject_insert (isObject_marked types ty) ?_
  rw [typeMember_keys]
  cases types
  · simp
  · simpa only [if_true, List.mem_singleton] using hk

/-- An object of two members besides the type. -/
theorem isObject_two (types : Bool) (ty : ValueTy) {k l : List Char} (hk : k ≠ "souris_type".toList)
    (hl : l ≠ "souris_type".toList) (hkl : l ≠ k) (v w : SJValue) :
    IsObject (SJValue.insert l w (SJValue.insert k v (marked types ty)))
      (typeMember types ty.toU8.toNat ++ [(k, v), (l, w)]) := by
  have := isObject_insert (k := l) (v := w) (isObject_one types ty hk v) ?_
  · simpa using this
  · rw [List.map_append, typeMember_keys]
    cases types
    · simp [hkl]
    · simp only [if_true, List.map_cons, List.map_nil, List.mem_append, List.mem_singleton, hkl, or_false]
      exact hl

/-! ## Values -/

/-- What is shown of the conversion of a value. -/
def Converts (env : Env) (types : Bool) (v : Value) : Prop :=
  (∀ j, toJson env types v = some j → JsonForm env types v j ∧ Expressible v) ∧
  (toJson env types v = none → ¬ Expressible v)

theorem expressible_leaf {v : Value} (hs : ∀ w, Sub w v → w = v)
    (h1 : ∀ i, v = .integer i → Fits i) (h2 : ∀ re im, v = .imaginary (.cartesian re im) → Fits re ∧ Fits im)
    (h3 : ∀ m a, v = .imaginary (.polar m a) → F64Finite m ∧ F64Finite a)
    (h4 : ∀ x, v = .single x → F32Finite x) (h5 : ∀ x, v = .double x → F64Finite x) : Expressible v :=
  ⟨fun i hi => h1 i (hs _ hi).symm, fun re im hi => h2 re im (hs _ hi).symm, fun m a hi => h3 m a (hs _ hi).symm,
    fun x hi => h4 x (hs _ hi).symm, fun x hi => h5 x (hs _ hi).symm⟩

theorem Expressible.sub {v w : Value} (h : Expressible v) (hs : ∀ u, Sub u w → Sub u v) : Expressible w :=
  ⟨fun i hi => h.1 i (hs _ hi), fun a b hi => h.2.1 a b (hs _ hi), fun a b hi => h.2.2.1 a b (hs _ hi),
    fun a hi => h.2.2.2.1 a (hs _ hi), fun a hi => h.2.2.2.2 a (hs _ hi)⟩

theorem expressible_array {a : List Value} (h : ∀ v ∈ a, Expressible v) : Expressible (.array a) := by
  refine ⟨fun i hi => ?_, fun re im hi => ?_, fun m a hi => ?_, fun x hi => ?_, fun x hi => ?_⟩
  all_goals cases hi with
    | array hv hs => first
      | exact (h _ hv).1 _ hs
      | exact (h _ hv).2.1 _ _ hs
      | exact (h _ hv).2.2.1 _ _ hs
      | exact (h _ hv).2.2.2.1 _ hs
      | exact (h _ hv).2.2.2.2 _ hs

theorem expressible_map {m : List (List Char × Value)} (h : ∀ k v, (k, v) ∈ m → Expressible v) :
    Expressible (.map m) := by
  refine ⟨fun i hi => ?_, fun re im hi => ?_, fun m a hi => ?_, fun x hi => ?_, fun x hi => ?_⟩
  all_goals cases hi with
    | map hv hs => first
      | exact (h _ _ hv).1 _ hs
      | exact (h _ _ hv).2.1 _ _ hs
      | exact (h _ _ hv).2.2.1 _ _ hs
      | exact (h _ _ hv).2.2.2.1 _ hs
      | exact (h _ _ hv).2.2.2.2 _ hs

theorem list_converts {env : Env} {types : Bool} {a : List Value} (h : ∀ v ∈ a, Converts env types v) :
    (∀ js, toJsonList env types a = some js →
      List.Forall₂ (JsonForm env types) a js ∧ ∀ v ∈ a, Expressible v) ∧
    (toJsonList env types a = none → ∃ v ∈ a, ¬ Expressible v) := by
  induction a with
  | nil =>
    refine ⟨fun js e => ?_, fun e => by cases e⟩
    cases e
    exact ⟨.nil, by simp⟩
  | cons v vs ih =>
    obtain ⟨h1, h2⟩ := h v (by simp)
    obtain ⟨h3, h4⟩ := ih fun w hw => h w (by simp [hw])
    simp only [toJsonList]
    cases e1 : toJson env types v with
    | none => exact ⟨fun js e => by simp at e, fun _ => ⟨v, by simp, h2 e1⟩⟩
    | some j =>
      cases e2 : toJsonList env types vs with
      | none =>
        obtain ⟨w, hw, hx⟩ := h4 e2
        exact ⟨fun js e => by simp at e, fun _ => ⟨w, by simp [hw], hx⟩⟩
      | some js =>
        refine ⟨fun js' e => ?_, fun e => by simp at e⟩
        simp only [Option.pure_def, Option.bind_eq_bind, Option.bind_some, Option.some.injEq] at e
        subst e
        obtain ⟨g1, g2⟩ := h1 j e1
        obtain ⟨g3, g4⟩ := h3 js e2
        exact ⟨.cons g1 g3, fun w hw => by rcases List.mem_cons.mp hw with rfl | hw; exacts [g2, g4 w hw]⟩

theorem entries_converts {env : Env} {types : Bool} {a : List (List Char × Value)}
    (h : ∀ k v, (k, v) ∈ a → Converts env types v) :
    (∀ js, toJsonEntries env types a = some js →
      List.Forall₂ (fun x y => x.1 = y.1 ∧ JsonForm env types x.2 y.2) a js ∧ ∀ k v, (k, v) ∈ a → Expressible v) ∧
    (toJsonEntries env types a = none → ∃ k v, (k, v) ∈ a ∧ ¬ Expressible v) := by
  induction a with
  | nil =>
    refine ⟨fun js e => ?_, fun e => by cases e⟩
    cases e
    exact ⟨.nil, by simp⟩
  | cons x vs ih =>
    obtain ⟨k, v⟩ := x
    obtain ⟨h1, h2⟩ := h k v (by simp)
    obtain ⟨h3, h4⟩ := ih fun k w hw => h k w (by simp [hw])
    simp only [toJsonEntries]
    cases e1 : toJson env types v with
    | none => exact ⟨fun js e => by simp at e, fun _ => ⟨k, v, by simp, h2 e1⟩⟩
    | some j =>
      cases e2 : toJsonEntries env types vs with
      | none =>
        obtain ⟨k', w, hw, hx⟩ := h4 e2
        exact ⟨fun js e => by simp at e, fun _ => ⟨k', w, by simp [hw], hx⟩⟩
      | some js =>
        refine ⟨fun js' e => ?_, fun e => by simp at e⟩
        simp only [Option.pure_def, Option.bind_eq_bind, Option.bind_some, Option.some.injEq] at e
        subst e
        obtain ⟨g1, g2⟩ := h1 j e1
        obtain ⟨g3, g4⟩ := h3 js e2
        refine ⟨.cons ⟨rfl, g1⟩ g3, fun k' w hw => ?_⟩
        rcases List.mem_cons.mp hw with e | hw
        · cases e; exact g2
        · exact g4 k' w hw

theorem numberArray_eq (l : List Nat) : SJValue.array (l.map num) = numberArray l := rfl

theorem addr_form (types : Bool) (ty : ValueTy) (l : List Nat) :
    (types = false ∧ addrToJson types ty l = numberArray l) ∨
    (types = true ∧ ∃ o, addrToJson types ty l = .object o ∧
      IsObject o [("souris_type".toList, .number (.posInt ty.toU8.toNat)), ("octets".toList, numberArray l)]) := by
  cases types
  · exact .inl ⟨rfl, rfl⟩
  · refine .inr ⟨rfl, _, rfl, ?_⟩
    have := isObject_one true ty (k := kOctets) (by rw [kOctets_eq]; decide) (.array (l.map num))
    rw [kOctets_eq] at this
    rw [kOctets_eq]
    exact this

theorem converts {env : Env} {types : Bool} {v : Value} (hi : SafeInts v) (hk : KeysDistinct v) :
    Converts env types v := by
  induction v using Value.induct with
  | h v iha ihm =>
    have leaf : (∀ w, Sub w v → w = v) → (∀ j, toJson env types v = some j → JsonForm env types v j) →
        (∃ j, toJson env types v = some j) → (∀ i, v ≠ .integer i) → (∀ z, v ≠ .imaginary z) →
        (∀ x, v ≠ .single x) → (∀ x, v ≠ .double x) → Converts env types v := by
      intro hs hf ⟨j, he⟩ n1 n2 n3 n4
      refine ⟨fun j e => ⟨hf j e, expressible_leaf hs (fun i e => absurd e (n1 i))
        (fun a b e => absurd e (n2 _)) (fun a b e => absurd e (n2 _)) (fun x e => absurd e (n3 x))
        (fun x e => absurd e (n4 x))⟩, fun e => ?_⟩
      rw [he] at e; cases e
    cases v with
    | character c =>
      exact leaf (fun w h => by cases h; rfl) (fun j e => by cases e; exact .character c) ⟨_, rfl⟩ (by simp) (by simp)
        (by simp) (by simp)
    | string s =>
      exact leaf (fun w h => by cases h; rfl) (fun j e => by cases e; exact .string s) ⟨_, rfl⟩ (by simp) (by simp)
        (by simp) (by simp)
    | boolean b =>
      exact leaf (fun w h => by cases h; rfl) (fun j e => by cases e; exact .boolean b) ⟨_, rfl⟩ (by simp) (by simp)
        (by simp) (by simp)
    | null =>
      exact leaf (fun w h => by cases h; rfl) (fun j e => by cases e; exact .null) ⟨_, rfl⟩ (by simp) (by simp)
        (by simp) (by simp)
    | json j =>
      exact leaf (fun w h => by cases h; rfl) (fun j e => by cases e; exact .json j) ⟨_, rfl⟩ (by simp) (by simp)
        (by simp) (by simp)
    | timestamp t =>
      refine leaf (fun w h => by cases h; rfl) (fun j e => ?_) ⟨_, rfl⟩ (by simp) (by simp) (by simp) (by simp)
      simp only [toJson, kTimestamp_eq, Option.some.injEq] at e
      subst e
      exact .timestamp (isObject_one types .timestamp (by decide) _)
    | timezone z =>
      refine leaf (fun w h => by cases h; rfl) (fun j e => ?_) ⟨_, rfl⟩ (by simp) (by simp) (by simp) (by simp)
      simp only [toJson, kTimezone_eq, Option.some.injEq] at e
      subst e
      exact .timezone (isObject_one types .timezone (by decide) _)
    | binary b =>
      refine leaf (fun w h => by cases h; rfl) (fun j e => ?_) ⟨_, rfl⟩ (by simp) (by simp) (by simp) (by simp)
      simp only [toJson, kBytes_eq, Option.some.injEq] at e
      subst e
      have := isObject_one types .binary (k := "bytes".toList) (by decide) (.array (b.map fun x => num x.toNat))
      rw [show (b.map fun x => num x.toNat) = (b.map UInt8.toNat).map num by rw [List.map_map]; rfl] at this ⊢
      exact .binary this
    | ipv4 a b c d =>
      refine leaf (fun w h => by cases h; rfl) (fun j e => ?_) ⟨_, rfl⟩ (by simp) (by simp) (by simp) (by simp)
      simp only [toJson, Option.some.injEq] at e
      subst e
      rcases addr_form types .ipv4Addr [a.toNat, b.toNat, c.toNat, d.toNat] with ⟨h, e⟩ | ⟨h, o, e, ho⟩
      · rw [e]; exact .ipv4_plain a b c d h
      · rw [e]; exact .ipv4_marked h ho
    | ipv6 a b c d e f g i =>
      refine leaf (fun w h => by cases h; rfl) (fun j e => ?_) ⟨_, rfl⟩ (by simp) (by simp) (by simp) (by simp)
      simp only [toJson, Option.some.injEq] at e
      subst e
      rcases addr_form types .ipv6Addr [a.toNat, b.toNat, c.toNat, d.toNat, e.toNat, f.toNat, g.toNat, i.toNat] with
        ⟨h, e⟩ | ⟨h, o, e, ho⟩
      · rw [e]; exact .ipv6_plain a b c d _ f g i h
      · rw [e]; exact .ipv6_marked h ho
    | integer i =>
      have hs : ∀ w, Sub w (.integer i) → w = .integer i := fun w h => by cases h; rfl
      obtain ⟨h1, h2⟩ := integer_json (hi.1 i (.refl _))
      refine ⟨fun j e => ?_, fun e hx => ?_⟩
      · simp only [toJson, Option.map_eq_some_iff] at e
        obtain ⟨n, e, rfl⟩ := e
        obtain ⟨g1, g2⟩ := h1 n e
        exact ⟨.integer g1, expressible_leaf hs (fun i' e => by cases e; exact g2) (by simp) (by simp) (by simp) (by simp)⟩
      · simp only [toJson, Option.map_eq_none_iff] at e
        exact h2 e (hx.1 i (.refl _))
    | single x =>
      have hs : ∀ w, Sub w (.single x) → w = .single x := fun w h => by cases h; rfl
      refine ⟨fun j e => ?_, fun e hx => ?_⟩
      · simp only [toJson, Option.map_eq_some_iff] at e
        obtain ⟨n, e, rfl⟩ := e
        obtain ⟨rfl, hf⟩ := ofF64_some e
        have hx := widen_finite.mp hf
        exact ⟨.single hx hf (widen_value hx) (widen_sign x), expressible_leaf hs (by simp) (by simp)
          (by simp) (fun y e => by cases e; exact hx) (by simp)⟩
      · simp only [toJson, Option.map_eq_none_iff] at e
        exact ofF64_none e (widen_finite.mpr (hx.2.2.2.1 x (.refl _)))
    | double x =>
      have hs : ∀ w, Sub w (.double x) → w = .double x := fun w h => by cases h; rfl
      refine ⟨fun j e => ?_, fun e hx => ?_⟩
      · simp only [toJson, Option.map_eq_some_iff] at e
        obtain ⟨n, e, rfl⟩ := e
        obtain ⟨rfl, hf⟩ := ofF64_some e
        exact ⟨.double hf, expressible_leaf hs (by simp) (by simp)
          (by simp) (by simp) (fun y e => by cases e; exact hf)⟩
      · simp only [toJson, Option.map_eq_none_iff] at e
        exact ofF64_none e (hx.2.2.2.2 x (.refl _))
    | imaginary z =>
      have hs : ∀ w, Sub w (.imaginary z) → w = .imaginary z := fun w h => by cases h; rfl
      cases z with
      | cartesian re im =>
        obtain ⟨hre, him⟩ := hi.2 re im (.refl _)
        obtain ⟨h1, h2⟩ := integer_json hre
        obtain ⟨h3, h4⟩ := integer_json him
        simp only [Converts, toJson, imaginaryToJson]
        cases e1 : re.toJson with
        | none => exact ⟨fun j e => by simp at e, fun _ hx => h2 e1 (hx.2.1 re im (.refl _)).1⟩
        | some r =>
          cases e2 : im.toJson with
          | none => exact ⟨fun j e => by simp at e, fun _ hx => h4 e2 (hx.2.1 re im (.refl _)).2⟩
          | some i =>
            refine ⟨fun j e => ?_, fun e => by simp at e⟩
            simp only [Option.bind_eq_bind, Option.bind_some, Option.some.injEq, kReal_eq, kImaginary_eq] at e
            subst e
            exact ⟨.cartesian (h1 r e1).1 (h3 i e2).1 (isObject_two types .imaginary (by decide) (by decide) (by decide) _ _),
              expressible_leaf hs (by simp) (fun a b e => by cases e; exact ⟨(h1 r e1).2, (h3 i e2).2⟩)
                (by simp) (by simp) (by simp)⟩
      | polar m a =>
        simp only [Converts, toJson, imaginaryToJson]
        cases e1 : SJValue.ofF64 m with
        | none => exact ⟨fun j e => by simp at e, fun _ hx => ofF64_none e1 (hx.2.2.1 m a (.refl _)).1⟩
        | some r =>
          cases e2 : SJValue.ofF64 a with
          | none => exact ⟨fun j e => by simp at e, fun _ hx => ofF64_none e2 (hx.2.2.1 m a (.refl _)).2⟩
          | some i =>
            refine ⟨fun j e => ?_, fun e => by simp at e⟩
            obtain ⟨rfl, hm⟩ := ofF64_some e1
            obtain ⟨rfl, ha⟩ := ofF64_some e2
            simp only [Option.bind_eq_bind, Option.bind_some, Option.some.injEq, kModulus_eq, kArgument_eq] at e
            subst e
            exact ⟨.polar hm ha (isObject_two types .imaginary (by decide) (by decide) (by decide) _ _),
              expressible_leaf hs (by simp) (by simp) (fun a b e => by cases e; exact ⟨hm, ha⟩)
                (by simp) (by simp)⟩
    | array a =>
      have h := list_converts (env := env) (types := types) (a := a) fun v hv =>
        iha a rfl v hv ⟨fun i h => hi.1 i (.array hv h), fun x y h => hi.2 x y (.array hv h)⟩ fun m h => hk m (.array hv h)
      simp only [Converts, toJson]
      refine ⟨fun j e => ?_, fun e hx => ?_⟩
      · rw [Option.map_eq_some_iff] at e
        obtain ⟨js, e, rfl⟩ := e
        obtain ⟨g1, g2⟩ := h.1 js e
        exact ⟨.array g1.length_eq (forall₂_get g1), expressible_array g2⟩
      · rw [Option.map_eq_none_iff] at e
        obtain ⟨v, hv, hn⟩ := h.2 e
        exact hn (Expressible.sub hx fun u hu => .array hv hu)
    | map m =>
      have h := entries_converts (env := env) (types := types) (a := m) fun k v hv =>
        ihm m rfl k v hv ⟨fun i h => hi.1 i (.map hv h), fun x y h => hi.2 x y (.map hv h)⟩ fun m h => hk m (.map hv h)
      have hnd := hk m (.refl _)
      simp only [Converts, toJson]
      refine ⟨fun j e => ?_, fun e hx => ?_⟩
      · rw [Option.map_eq_some_iff] at e
        obtain ⟨js, e, rfl⟩ := e
        obtain ⟨g1, g2⟩ := h.1 js e
        have hkeys := forall₂_keys g1
        have hp := collect_perm (es := js) (hkeys ▸ hnd)
        refine ⟨.map (collect_sorted js) (by rw [g1.length_eq, hp.length_eq]) (fun k => ?_) (fun k v j hv hj => ?_),
          expressible_map g2⟩
        · rw [← keys_mem, hkeys, keys_mem]
          exact exists_congr fun j => hp.mem_iff.symm
        · exact forall₂_entry g1 hnd k v j hv (hp.mem_iff.mp hj)
      · rw [Option.map_eq_none_iff] at e
        obtain ⟨k, v, hv, hn⟩ := h.2 e
        exact hn (Expressible.sub hx fun u hu => .map hv hu)

/-- C85, partial: the JSON of a value is the documented one, with exactly the documented members. Missing:
integers from `-2^64` to `-2^63 - 1`, which become other numbers (`C85_refuted_integer`). -/
theorem C85_form_partial {env : Env} {types : Bool} {v : Value} {j : SJValue} (hi : SafeInts v) (hk : KeysDistinct v)
    (h : toJson env types v = some j) : JsonForm env types v j := ((converts hi hk).1 j h).1

/-- C85, partial: there is none exactly if the value contains an integer beyond 64 bits, an infinite float or a
NaN. Missing: as above. -/
theorem C85_none_partial {env : Env} {types : Bool} {v : Value} (hi : SafeInts v) (hk : KeysDistinct v) :
    toJson env types v = none ↔ ¬ Expressible v := by
  refine ⟨(converts hi hk).2, fun h => ?_⟩
  cases e : toJson env types v with
  | none => rfl
  | some j => exact absurd ((converts hi hk).1 j e).2 h

/-- C85, for a whole database: its JSON is that of a map of its entries, unless its only key is `JSON`; then it is
that of the value with this key. -/
theorem C85_store_partial {env : Env} {types : Bool} {s : Store} {j : SJValue} (hi : SafeInts (.map s))
    (hk : KeysDistinct (.map s)) (h : Store.toJson env types s = some j) :
    (∃ v, s = [("JSON".toList, v)] ∧ JsonForm env types v j) ∨
    ((∀ v, s ≠ [("JSON".toList, v)]) ∧ JsonForm env types (.map s) j) := by
  unfold Store.toJson at h
  split at h
  · rename_i v e
    split at e
    · rename_i hl
      obtain ⟨x, rfl⟩ := List.length_eq_one_iff.mp hl
      have := List.mem_singleton.mp (get_mem e)
      subst this
      have hm : (Store.kJson, v) ∈ [(Store.kJson, v)] := by simp
      refine .inl ⟨v, rfl, C85_form_partial ⟨fun i h => hi.1 i (.map hm h), fun a b h => hi.2 a b (.map hm h)⟩
        (fun m h => hk m (.map hm h)) h⟩
    · cases e
  · rename_i e
    refine .inr ⟨?_, C85_form_partial hi hk h⟩
    rintro v rfl
    simp [SJValue.get, Store.kJson] at e

/-- C85 is violated: `-2^63 - 1` is too large for JSON, but becomes a number, which is not its own. -/
theorem C85_refuted_integer (env : Env) (types : Bool) :
    ∃ i j, i.Native ∧ ¬ Fits i ∧ toJson env types (.integer i) = some j ∧ ¬ JsonForm env types (.integer i) j := by
  obtain ⟨i, hi, hv, e⟩ := C11_refuted_below_i64
  refine ⟨i, .number (.posInt (2 ^ 63 - 1)), hi, ?_, by simp [toJson, e], fun h => ?_⟩
  · unfold Fits; omega
  · cases h with
    | integer h =>
      rw [hv] at h
      generalize hx : (-(2 ^ 63) - 1 : Int) = x at h
      cases h
      omega

/-! ## Examples -/

/-- A map with an array, negative numbers and an address. -/
def jsonSample : Value :=
  .map [(['a'], .array [.integer (.ofSigned 4 (-5)), .imaginary (.cartesian (.ofUnsigned 1 3) (.ofSigned 2 (-4)))]),
    (['b'], .ipv4 127 0 0 1)]

example : SafeInts jsonSample ∧ KeysDistinct jsonSample := by
  have subs : ∀ w, Sub w jsonSample → w = jsonSample ∨
      w = .array [.integer (.ofSigned 4 (-5)), .imaginary (.cartesian (.ofUnsigned 1 3) (.ofSigned 2 (-4)))] ∨
      w = .integer (.ofSigned 4 (-5)) ∨ w = .imaginary (.cartesian (.ofUnsigned 1 3) (.ofSigned 2 (-4))) ∨
      w = .ipv4 127 0 0 1 := by
    intro w h
    cases h with
    | refl => exact .inl rfl
    | map hv h =>
      simp only [List.mem_cons, Prod.mk.injEq, List.not_mem_nil, or_false] at hv
      rcases hv with ⟨_, rfl⟩ | ⟨_, rfl⟩
      · cases h with
        | refl => exact .inr (.inl rfl)
        | array hv h =>
          simp only [List.mem_cons, List.not_mem_nil, or_false] at hv
          rcases hv with rfl | rfl <;> cases h
          · exact .inr (.inr (.inl rfl))
          · exact .inr (.inr (.inr (.inl rfl)))
      · cases h
        exact .inr (.inr (.inr (.inr rfl)))
  have s4 : (Integer.ofSigned 4 (-5)).Native := .signed (by unfold Width; decide) (by unfold IsSigned; decide)
  have u1 : (Integer.ofUnsigned 1 3).Native := .unsigned (by unfold Width; decide) (by unfold IsUnsigned; decide)
  have s2 : (Integer.ofSigned 2 (-4)).Native := .signed (by unfold Width; decide) (by unfold IsSigned; decide)
  refine ⟨⟨fun i h => ?_, fun re im h => ?_⟩, fun m h => ?_⟩
  · rcases subs _ h with h | h | h | h | h <;> cases h
    exact ⟨s4, by decide +kernel⟩
  · rcases subs _ h with h | h | h | h | h <;> cases h
    exact ⟨⟨u1, by decide +kernel⟩, ⟨s2, by decide +kernel⟩⟩
  · rcases subs _ h with h | h | h | h | h <;> cases h
    decide

example (env : Env) : toJson env true jsonSample = some (.object
    [(['a'], .array [.number (.negInt (-5)), .object [("imaginary".toList, .number (.negInt (-4))),
        ("real".toList, .number (.posInt 3)), ("souris_type".toList, .number (.posInt 5))]]),
      (['b'], .object [("octets".toList, numberArray [127, 0, 0, 1]), ("souris_type".toList, .number (.posInt 13))])]) :=
  rfl

end Souris
