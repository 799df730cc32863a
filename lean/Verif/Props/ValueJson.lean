import Verif.Lemmas.ValueJson

/-! # C31: values and JSON -/

namespace Souris

open Value

theorem jsonInt_back {i : Integer} (h : JsonInt i) :
    ∃ j k, i.toJson = some j ∧ Integer.fromJson j = some k ∧ i.value = k.value := by
  obtain ⟨hn, h1, h2⟩ := h
  obtain ⟨j, k, e1, e2, e3, _⟩ := (C11_json_partial hn).2 h1 h2
  exact ⟨j, k, e1, e2, e3.symm⟩

/-- Only integers and JSON numbers become non-negative JSON integers. -/
theorem toJson_posInt {env : Env} {v : Value} {n : Nat} (hv : Jsonable env v)
    (e : toJson env true v = some (.number (.posInt n))) (hn : n < 16) :
    (∃ i, v = .integer i ∧ 0 ≤ i.value ∧ i.value < 16) ∨ v = .json (.number (.posInt n)) := by
  cases hv with
  | integer h =>
    rename_i i
    refine .inl ⟨i, rfl, ?_⟩
    obtain ⟨j, k, e1, e2, e3⟩ := jsonInt_back h
    simp only [toJson, e1, Option.map_some, Option.some.injEq, SJValue.number.injEq] at e
    subst e
    have : k = Integer.ofUnsigned 8 n := by
      have : Integer.fromJson (.posInt n) = some (Integer.ofUnsigned 8 n) := rfl
      rw [this] at e2; simpa using e2.symm
    rw [e3, this, (C01_value (by unfold Width; decide)).1 n (by unfold IsUnsigned; omega)]
    omega
  | json h =>
    simp only [toJson, Option.some.injEq] at e
    exact .inr (by rw [e])
  | single h =>
    simp only [toJson, SJValue.ofF64] at e
    split at e <;> simp at e
  | double h =>
    simp only [toJson, SJValue.ofF64] at e
    split at e <;> simp at e
  | array h =>
    simp only [toJson] at e
    rename_i a
    cases h : toJsonList env true a <;> rw [h] at e <;> simp at e
  | map h =>
    simp only [toJson] at e
    rename_i m _ _
    cases h : toJsonEntries env true m <;> rw [h] at e <;> simp at e
  | cartesian h1 h2 =>
    obtain ⟨j, k, e1, _, _⟩ := jsonInt_back h1
    obtain ⟨j', k', e2, _, _⟩ := jsonInt_back h2
    simp [toJson, imaginaryToJson, e1, e2] at e
  | polar h1 h2 => simp [toJson, imaginaryToJson, SJValue.ofF64, h1, h2] at e
  | ipv4 => simp [toJson, addrToJson] at e
  | ipv6 => simp [toJson, addrToJson] at e
  | _ => simp [toJson] at e

theorem toJsonList_of {env : Env} (a : List Value)
    (h : ∀ v ∈ a, ∃ j w, toJson env true v = some j ∧ fromJson env j = .ok w ∧ Widened v w) :
    ∃ js b, toJsonList env true a = some js ∧ fromJsonList env js = .ok b ∧ List.Forall₂ Widened a b := by
  induction a with
  | nil => exact ⟨[], [], rfl, rfl, .nil⟩
  | cons v vs ih =>
    obtain ⟨j, w, e1, e2, hw⟩ := h v (by simp)
    obtain ⟨js, b, e3, e4, hb⟩ := ih fun v hv => h v (by simp [hv])
    exact ⟨j :: js, w :: b, by simp [toJsonList, e1, e3], by simp only [fromJsonList, e2, e4]; rfl, .cons hw hb⟩

theorem toJsonEntries_of {env : Env} (a : List (List Char × Value))
    (h : ∀ k v, (k, v) ∈ a → ∃ j w, toJson env true v = some j ∧ fromJson env j = .ok w ∧ Widened v w) :
    ∃ js, toJsonEntries env true a = some js ∧
      List.Forall₂ (fun x y => x.1 = y.1 ∧ (fun v j => toJson env true v = some j) x.2 y.2) a js := by
  induction a with
  | nil => exact ⟨[], rfl, .nil⟩
  | cons x vs ih =>
    obtain ⟨k, v⟩ := x
    obtain ⟨j, w, e1, e2, hw⟩ := h k v (by simp)
    obtain ⟨js, e3, hb⟩ := ih fun k v hv => h k v (by simp [hv])
    exact ⟨(k, j) :: js, by simp [toJsonEntries, e1, e3], .cons ⟨rfl, e1⟩ hb⟩

/-- An entry on the right of a pointwise relation has a partner. -/
theorem forall₂_partner {α β : Type} {R : α → β → Prop} {a : List (List Char × α)} {b : List (List Char × β)}
    (h : List.Forall₂ (fun x y => x.1 = y.1 ∧ R x.2 y.2) a b) :
    ∀ k y, (k, y) ∈ b → ∃ x, (k, x) ∈ a ∧ R x y := by
  induction h with
  | nil => intro k y hy; simp at hy
  | @cons p q a b h1 _ ih =>
    intro k y hy
    rcases List.mem_cons.mp hy with rfl | hy
    · exact ⟨p.2, by
        have : p.1 = k := h1.1
        rw [← this]; simp, h1.2⟩
    · obtain ⟨x, hx, hr⟩ := ih k y hy
      exact ⟨x, by simp [hx], hr⟩

/-- C31, partial: every value in the domain, at any depth and for every hash order, converts to JSON, and
converting back gives the same value up to the documented widening. Missing from the domain: integers
outside of the 64-bit ranges, timestamps whose text chrono does not read back, and maps or JSON objects
with a key `souris_type` holding a small number; see `C31_refuted_*`. -/
theorem C31_roundtrip_partial {env : Env} (hord : ∀ l, (env.mapOrd l).Perm l) {v : Value} (hv : Jsonable env v) :
    ∃ j w, toJson env true v = some j ∧ fromJson env j = .ok w ∧ Widened v w := by
  induction hv with
  | character c => exact ⟨_, _, rfl, rfl, .character c⟩
  | string s => exact ⟨_, _, rfl, rfl, .string s⟩
  | boolean b => exact ⟨_, _, rfl, rfl, .boolean b⟩
  | null => exact ⟨_, _, rfl, rfl, .null⟩
  | json h =>
    obtain ⟨w, e, hc⟩ := fromJson_plain hord h
    exact ⟨_, w, rfl, e, .json hc⟩
  | @integer i h =>
    obtain ⟨j, k, e1, e2, e3⟩ := jsonInt_back h
    exact ⟨.number j, .integer k, by simp [toJson, e1], by simp only [fromJson, e2], .integer e3⟩
  | @double x h =>
    refine ⟨.number (.float x), .double x, ?_, rfl, .double x⟩
    simp [toJson, SJValue.ofF64, h]
  | @single x h =>
    have hw := widen_sameFloat h
    refine ⟨.number (.float (widen x)), .double (widen x), ?_, rfl, .single hw⟩
    simp [toJson, SJValue.ofF64, hw.1]
  | @cartesian a b h1 h2 =>
    obtain ⟨j, k, e1, e2, e3⟩ := jsonInt_back h1
    obtain ⟨j', k', e1', e2', e3'⟩ := jsonInt_back h2
    have e : ∃ x, toJson env true (.imaginary (.cartesian a b)) = some x ∧
        x = .object (SJValue.insert kImaginary (.number j')
          (SJValue.insert kReal (.number j) (marked true .imaginary))) := by
      simp only [toJson, imaginaryToJson, e1, e1']
      exact ⟨_, rfl, rfl⟩
    obtain ⟨x, ex, rfl⟩ := e
    refine ⟨_, .imaginary (.cartesian k k'), ex, ?_, .cartesian e3 e3'⟩
    · show (match Integer.fromJson j, Integer.fromJson j' with
        | some re, some im => Out.ok (Value.imaginary (.cartesian re im))
        | _, _ => _) = _
      rw [e2, e2']
  | @polar m a h1 h2 =>
    refine ⟨.object (SJValue.insert kArgument (.number (.float a))
      (SJValue.insert kModulus (.number (.float m)) (marked true .imaginary))),
      .imaginary (.polar m a), ?_, rfl, .polar m a⟩
    simp only [toJson, imaginaryToJson, SJValue.ofF64, h1, h2]
    rfl
  | @timestamp t h =>
    refine ⟨_, .timestamp t, rfl, ?_, .timestamp t⟩
    show (match env.tsParse (env.tsPrint t) with
      | some t => Out.ok (Value.timestamp t)
      | none => _) = _
    rw [h]
  | @timezone n h =>
    refine ⟨_, .timezone n, rfl, ?_, .timezone n⟩
    show (if n ∈ env.tzNames then Out.ok (Value.timezone n) else _) = _
    rw [if_pos h]
  | @binary b =>
    refine ⟨_, .binary b, rfl, ?_, .binary b⟩
    have hi : smallInts 256 (b.map fun x => num x.toNat) = some (b.map UInt8.toNat) := by
      have := ints_num 256 (b.map UInt8.toNat) (by
        intro n hn
        obtain ⟨x, _, rfl⟩ := List.mem_map.mp hn
        exact x.toNat_lt)
      rw [List.map_map] at this
      exact this
    show (match smallInts 256 (b.map fun x => num x.toNat) with
      | some bs => Out.ok (Value.binary (bs.map UInt8.ofNat))
      | none => _) = _
    rw [hi]
    simp [Function.comp_def]
  | ipv4 a b c d =>
    refine ⟨_, .ipv4 a b c d, rfl, ?_, .ipv4 a b c d⟩
    have hi := ints_num 256 [a.toNat, b.toNat, c.toNat, d.toNat] (by
      have := a.toNat_lt; have := b.toNat_lt; have := c.toNat_lt; have := d.toNat_lt
      simp; omega)
    show (match smallInts 256 ([a.toNat, b.toNat, c.toNat, d.toNat].map num) with
      | some [a, b, c, d] => Out.ok (Value.ipv4 (.ofNat a) (.ofNat b) (.ofNat c) (.ofNat d))
      | _ => _) = _
    rw [hi]
    simp
  | ipv6 a b c d e f g i =>
    refine ⟨_, .ipv6 a b c d e f g i, rfl, ?_, .ipv6 a b c d e f g i⟩
    have hi := ints_num 65536 [a.toNat, b.toNat, c.toNat, d.toNat, e.toNat, f.toNat, g.toNat, i.toNat] (by
      have := a.toNat_lt; have := b.toNat_lt; have := c.toNat_lt; have := d.toNat_lt
      have := e.toNat_lt; have := f.toNat_lt; have := g.toNat_lt; have := i.toNat_lt
      simp; omega)
    show (match smallInts 65536
        ([a.toNat, b.toNat, c.toNat, d.toNat, e.toNat, f.toNat, g.toNat, i.toNat].map num) with
      | some [a, b, c, d, e, f, g, h] =>
        Out.ok (Value.ipv6 (.ofNat a) (.ofNat b) (.ofNat c) (.ofNat d) (.ofNat e) (.ofNat f) (.ofNat g) (.ofNat h))
      | _ => _) = _
    rw [hi]
    simp
  | @array a _ ih =>
    obtain ⟨js, b, e1, e2, hb⟩ := toJsonList_of a ih
    exact ⟨.array js, .array b, by simp [toJson, e1], by simp only [fromJson, e2]; rfl,
      .array hb.length_eq (forall₂_get hb)⟩
  | @map m hk hm hj ih =>
    obtain ⟨js, e1, h1⟩ := toJsonEntries_of m ih
    have hkeys := forall₂_keys (R := fun v j => toJson env true v = some j) h1
    have part := forall₂_partner (R := fun v j => toJson env true v = some j) h1
    have hnd : (js.map Prod.fst).Nodup := hkeys ▸ hk
    have hp := collect_perm hnd
    have hnd' : ((SJValue.collect js).map Prod.fst).Nodup := (hp.map Prod.fst).nodup_iff.mpr hnd
    have hmark : ¬ SJValue.Marked (SJValue.collect js) := by
      rintro ⟨n, hn, hmem⟩
      obtain ⟨v, hv, e⟩ := part _ _ (hp.mem_iff.mp hmem)
      refine hm _ v hv ⟨rfl, ?_⟩
      rcases toJson_posInt (hj _ v hv) e hn with h | h
      · exact .inl h
      · exact .inr ⟨n, hn, h⟩
    obtain ⟨b, e2, hb⟩ := fromJsonEntries_of (env := env)
      (R := fun j w => ∃ v, toJson env true v = some j ∧ fromJson env j = .ok w) (SJValue.collect js) (by
        intro k j hjm
        obtain ⟨v, hv, e⟩ := part k j (hp.mem_iff.mp hjm)
        obtain ⟨j', w, e3, e4, _⟩ := ih k v hv
        rw [e, Option.some.injEq] at e3
        subst e3
        exact ⟨w, e4, v, e, e4⟩)
    have hkb := forall₂_keys
      (R := fun j w => ∃ v, toJson env true v = some j ∧ fromJson env j = .ok w) hb
    have hpb := hord b
    refine ⟨.object (SJValue.collect js), .map (env.mapOrd b), by simp [toJson, e1], ?_, .map ?_ ?_ ?_⟩
    · simp only [fromJson, marker_none hmark, e2]
      show Out.ok (Value.map (env.mapOrd (collectMap b))) = _
      rw [collectMap_eq (hkb ▸ hnd')]
    · rw [h1.length_eq, ← hp.length_eq, hb.length_eq, hpb.length_eq]
    · intro k
      rw [← keys_mem, hkeys, keys_mem]
      have : (∃ v, (k, v) ∈ js) ↔ ∃ v, (k, v) ∈ SJValue.collect js := by simp only [hp.mem_iff]
      rw [this, ← keys_mem, hkb, keys_mem]
      simp only [hpb.mem_iff]
    · intro k v w hv hw
      obtain ⟨j, hjm, _, _, e3⟩ := forall₂_partner
        (R := fun j w => ∃ v, toJson env true v = some j ∧ fromJson env j = .ok w) hb k w (hpb.mem_iff.mp hw)
      obtain ⟨v', hv', e4⟩ := part k j (hp.mem_iff.mp hjm)
      have hvv : v' = v := by
        have h5 := get_of_mem hk hv
        rw [get_of_mem hk hv', Option.some.injEq] at h5
        exact h5
      subst hvv
      obtain ⟨j', w', e5, e6, hw'⟩ := ih k v' hv
      rw [e4, Option.some.injEq] at e5
      subst e5
      rw [e3, Out.ok.injEq] at e6
      subst e6
      exact hw'

/-- C31: `convert_from_json` never panics; its `unreachable!` is. -/
theorem C31_no_panic (env : Env) (j : SJValue) : ∀ p, fromJson env j ≠ .panic p := by
  induction j using SJValue.induct with
  | h j ha hm =>
    intro p
    cases j with
    | null => simp [fromJson]
    | bool b => simp [fromJson]
    | string s => simp [fromJson]
    | number n =>
      simp only [fromJson]
      cases Integer.fromJson n with
      | some i => simp
      | none => cases n <;> simp [SJValue.asF64]
    | array a =>
      have key : ∀ p, fromJsonList env a ≠ .panic p := by
        replace ha := ha a rfl
        clear hm
        induction a with
        | nil => simp [fromJsonList]
        | cons x xs ih =>
          intro p h
          simp only [fromJsonList] at h
          rw [Out.bind_eq_panic] at h
          rcases h with h | ⟨v, _, h⟩
          · exact ha x (by simp) p h
          · rw [Out.bind_eq_panic] at h
            rcases h with h | ⟨v, _, h⟩
            · exact ih (fun v hv => ha v (by simp [hv])) p h
            · cases h
      intro h
      simp only [fromJson] at h
      rw [Out.bind_eq_panic] at h
      rcases h with h | ⟨v, _, h⟩
      · exact key p h
      · cases h
    | object m =>
      have key : ∀ p, fromJsonEntries env m ≠ .panic p := by
        replace hm := hm m rfl
        clear ha
        induction m with
        | nil => simp [fromJsonEntries]
        | cons x xs ih =>
          obtain ⟨k, x⟩ := x
          intro p h
          simp only [fromJsonEntries] at h
          rw [Out.bind_eq_panic] at h
          rcases h with h | ⟨v, _, h⟩
          · exact hm k x (by simp) p h
          · rw [Out.bind_eq_panic] at h
            rcases h with h | ⟨v, _, h⟩
            · exact ih (fun k v hv => hm k v (by simp [hv])) p h
            · cases h
      intro h
      simp only [fromJson] at h
      split at h
      · simp only [fromMarked] at h
        repeat' (split at h)
        all_goals cases h
      · rw [Out.bind_eq_panic] at h
        rcases h with h | ⟨v, _, h⟩
        · exact key p h
        · cases h

/-! ## Violations -/

/-- C31 is violated by every timestamp: chrono prints a space between date and time and reads back only
texts with a `T` there. (The two facts about chrono 0.4.38 are hypotheses.) -/
theorem C31_refuted_timestamp (env : Env) (hprint : ∀ t, 'T' ∉ env.tsPrint t)
    (hparse : ∀ s t, env.tsParse s = some t → 'T' ∈ s) (t : Timestamp) :
    ∃ j, toJson env true (.timestamp t) = some j ∧
      fromJson env j = .err (.invalidSourisType .timestamp .invalidData) := by
  refine ⟨_, rfl, ?_⟩
  show (match env.tsParse (env.tsPrint t) with
    | some t => Out.ok (Value.timestamp t)
    | none => Out.err (ValueSerError.invalidSourisType .timestamp .invalidData)) = _
  cases e : env.tsParse (env.tsPrint t) with
  | none => rfl
  | some t' => exact absurd (hparse _ _ e) (hprint t)

/-- C31 is violated: a map with the keys `souris_type` and `octets` silently becomes an address. -/
theorem C31_refuted_marker_address (env : Env) :
    ∃ j, toJson env true (.map [("souris_type".toList, .integer (Integer.ofUnsigned 1 13)),
        ("octets".toList, .array [.integer (Integer.ofUnsigned 1 127), .integer (Integer.ofUnsigned 1 0),
          .integer (Integer.ofUnsigned 1 0), .integer (Integer.ofUnsigned 1 1)])]) = some j ∧
      fromJson env j = .ok (.ipv4 127 0 0 1) := by
  refine ⟨.object [("octets".toList, .array [.number (.posInt 127), .number (.posInt 0), .number (.posInt 0),
    .number (.posInt 1)]), ("souris_type".toList, .number (.posInt 13))], ?_, ?_⟩
  · rfl
  · rfl

/-- C31 is violated: a map whose `souris_type` is, say, 3 cannot be read back at all, whatever else it
holds. -/
theorem C31_refuted_marker_error (env : Env) (m : List (List Char × SJValue))
    (h : SJValue.get "souris_type".toList m = some (.number (.posInt 3))) :
    fromJson env (.object m) = .err (.invalidSourisType .boolean .noSourisTypeApplicable) := by
  have : marker m = some .boolean := by
    unfold marker
    rw [kTy_eq, h]
    rfl
  simp only [fromJson, this, fromMarked]

/-- C31 is violated for every map that holds one of the numbers 0 to 15 under `souris_type`: whatever the
map was converted to, reading that never gives a map. -/
theorem C31_refuted_marker (env : Env) (m : List (List Char × SJValue)) (u : Nat) (hu : u < 16)
    (h : SJValue.get "souris_type".toList m = some (.number (.posInt u))) (es : List (List Char × Value)) :
    fromJson env (.object m) ≠ .ok (.map es) := by
  have hm : ∃ ty, marker m = some ty := by
    unfold marker
    rw [kTy_eq, h]
    have : ∀ u < 16, ∃ ty, ValueTy.ofU8 (UInt8.ofNat u) = .ok ty := by
      intro u hu
      have : ∀ u : Fin 16, (match ValueTy.ofU8 (UInt8.ofNat u) with | .ok _ => true | _ => false) = true := by
        decide
      have := this ⟨u, hu⟩
      cases e : ValueTy.ofU8 (UInt8.ofNat u) with
      | ok ty => exact ⟨ty, rfl⟩
      | err _ => simp only [e] at this; cases this
      | panic _ => simp only [e] at this; cases this
    obtain ⟨ty, e⟩ := this u hu
    exact ⟨ty, by simp only [SJNumber.asU64, e, if_pos (show u < 256 by omega)]⟩
  obtain ⟨ty, hty⟩ := hm
  simp only [fromJson, hty]
  intro e
  cases ty <;> simp only [fromMarked] at e <;> (repeat' split at e) <;> cases e

/-- C31 is violated: integers in `-2^64 ≤ n < -2^63` convert, without an error, to another number. -/
theorem C31_refuted_integer (env : Env) {i : Integer} (hi : i.Native) (h1 : -(2 ^ 64) ≤ i.value)
    (h2 : i.value < -(2 ^ 63)) :
    ∃ j k, toJson env true (.integer i) = some j ∧ fromJson env j = .ok (.integer k) ∧ k.value ≠ i.value := by
  obtain ⟨j, k, e1, e2, e3⟩ := C11_refuted_everywhere hi h1 h2
  exact ⟨.number j, k, by simp [toJson, e1], by simp only [fromJson, e2], e3⟩

/-! ## Examples -/

example : Jsonable sampleEnv (.map [(['a'], .array [.character 'x', .ipv4 1 2 3 4]),
    (['b'], .integer (Integer.ofSigned 8 (-7)))]) := by
  refine .map (by decide) ?_ ?_
  · intro k v hm ⟨hk, _⟩
    simp only [List.mem_cons, List.not_mem_nil, or_false, Prod.mk.injEq] at hm
    rcases hm with ⟨rfl, _⟩ | ⟨rfl, _⟩ <;> revert hk <;> decide
  · intro k v hm
    simp only [List.mem_cons, List.not_mem_nil, or_false, Prod.mk.injEq] at hm
    rcases hm with ⟨_, rfl⟩ | ⟨_, rfl⟩
    · refine .array fun v hv => ?_
      simp only [List.mem_cons, List.not_mem_nil, or_false] at hv
      rcases hv with rfl | rfl
      · exact .character _
      · exact .ipv4 ..
    · refine .integer ⟨.signed (by unfold Width; decide) (by unfold IsSigned; decide), ?_, ?_⟩ <;> decide +kernel
example : widen 0x3FC00000 = 0x3FF8000000000000 := by decide +kernel  -- 1.5
example : widen 0x00000001 = 0x36A0000000000000 := by decide +kernel  -- the smallest subnormal

end Souris
