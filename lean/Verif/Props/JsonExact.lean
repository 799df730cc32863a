import Verif.Props.ValueJson
import Verif.Props.JsonForm
import Verif.Spec.JsonText

/-! # C31: exactly which values survive the round trip through JSON -/

namespace Souris

open Value

/-- Which integers come back from JSON. -/
theorem jsonInt_iff {i : Integer} (hi : i.Native) :
    (∃ j k, i.toJson = some j ∧ Integer.fromJson j = some k ∧ i.value = k.value) ↔ Value.JsonInt i := by
  constructor
  · rintro ⟨j, k, e1, e2, e3⟩
    by_cases h1 : 2 ^ 64 ≤ i.value ∨ i.value < -(2 ^ 64)
    · rw [(C11_json_partial hi).1 h1] at e1; cases e1
    · by_cases h2 : i.value < -(2 ^ 63)
      · obtain ⟨j', k', e1', e2', e3'⟩ := C11_refuted_everywhere hi (by omega) h2
        rw [e1, Option.some.injEq] at e1'
        subst e1'
        rw [e2, Option.some.injEq] at e2'
        subst e2'
        exact absurd e3.symm e3'
      · exact ⟨hi, by omega, by omega⟩
  · exact jsonInt_back

theorem fromJsonList_forall₂ {env : Env} {a : List SJValue} {b : List Value} (e : fromJsonList env a = .ok b) :
    List.Forall₂ (fun j w => fromJson env j = .ok w) a b := by
  induction a generalizing b with
  | nil => simp only [fromJsonList, Out.ok.injEq] at e; subst e; exact .nil
  | cons j js ih =>
    simp only [fromJsonList] at e
    rw [Out.bind_eq_ok] at e
    obtain ⟨w, e1, e⟩ := e
    rw [Out.bind_eq_ok] at e
    obtain ⟨ws, e2, e⟩ := e
    cases e
    exact .cons e1 (ih e2)

theorem fromJsonEntries_forall₂ {env : Env} {a : List (List Char × SJValue)} {b : List (List Char × Value)}
    (e : fromJsonEntries env a = .ok b) :
    List.Forall₂ (fun x y => x.1 = y.1 ∧ (fun j w => fromJson env j = .ok w) x.2 y.2) a b := by
  induction a generalizing b with
  | nil => simp only [fromJsonEntries, Out.ok.injEq] at e; subst e; exact .nil
  | cons x js ih =>
    obtain ⟨k, j⟩ := x
    simp only [fromJsonEntries] at e
    rw [Out.bind_eq_ok] at e
    obtain ⟨w, e1, e⟩ := e
    rw [Out.bind_eq_ok] at e
    obtain ⟨ws, e2, e⟩ := e
    cases e
    exact .cons ⟨rfl, e1⟩ (ih e2)

theorem toJsonList_forall₂ {env : Env} {types : Bool} {a : List Value} {b : List SJValue} (e : toJsonList env types a = some b) :
    List.Forall₂ (fun v j => toJson env types v = some j) a b := by
  induction a generalizing b with
  | nil => simp only [toJsonList, Option.some.injEq] at e; subst e; exact .nil
  | cons v vs ih =>
    simp only [toJsonList, Option.bind_eq_bind, Option.bind_eq_some_iff] at e
    obtain ⟨w, e1, ws, e2, e⟩ := e
    cases e
    exact .cons e1 (ih e2)

theorem toJsonEntries_forall₂ {env : Env} {types : Bool} {a : List (List Char × Value)} {b : List (List Char × SJValue)}
    (e : toJsonEntries env types a = some b) :
    List.Forall₂ (fun x y => x.1 = y.1 ∧ (fun v j => toJson env types v = some j) x.2 y.2) a b := by
  induction a generalizing b with
  | nil => simp only [toJsonEntries, Option.some.injEq] at e; subst e; exact .nil
  | cons x vs ih =>
    obtain ⟨k, v⟩ := x
    simp only [toJsonEntries, Option.bind_eq_bind, Option.bind_eq_some_iff] at e
    obtain ⟨w, e1, ws, e2, e⟩ := e
    cases e
    exact .cons ⟨rfl, e1⟩ (ih e2)

theorem forall₂_exists_right {α β : Type} {R : α → β → Prop} {a : List (List Char × α)} {b : List (List Char × β)}
    (h : List.Forall₂ (fun x y => x.1 = y.1 ∧ R x.2 y.2) a b) :
    ∀ k x, (k, x) ∈ a → ∃ y, (k, y) ∈ b ∧ R x y := by
  induction h with
  | nil => intro k x hx; simp at hx
  | @cons p q a b h1 _ ih =>
    intro k x hx
    rcases List.mem_cons.mp hx with rfl | hx
    · exact ⟨q.2, by
        have : k = q.1 := h1.1
        rw [this]; simp, h1.2⟩
    · obtain ⟨y, hy, hr⟩ := ih k x hx
      exact ⟨y, by simp [hy], hr⟩

theorem made_nodup {m : List (List Char × SJValue)} (h : m.Pairwise (fun a b => SJValue.keyLt a.1 b.1 = true)) :
    (m.map Prod.fst).Nodup := by
  rw [List.Nodup, List.pairwise_map]
  refine h.imp fun hab heq => ?_
  rw [keyLt_iff, heq] at hab
  exact absurd hab (List.lt_irrefl _)

/-- What an object is read to, when it is read to a map. -/
theorem fromJson_object_map {env : Env} (hord : ∀ l, (env.mapOrd l).Perm l) {m : List (List Char × SJValue)}
    (hk : (m.map Prod.fst).Nodup) {es : List (List Char × Value)} (e : fromJson env (.object m) = .ok (.map es)) :
    ¬ SJValue.Marked m ∧ ∀ k j, (k, j) ∈ m → ∃ w, (k, w) ∈ es ∧ fromJson env j = .ok w := by
  refine ⟨?_, ?_⟩
  · rintro ⟨u, hu, hmem⟩
    exact C31_refuted_marker env m u hu (get_of_mem hk hmem) es e
  · simp only [fromJson] at e
    split at e
    · exfalso
      rename_i ty _
      cases ty <;> simp only [fromMarked] at e <;> (repeat' split at e) <;> cases e
    · rw [Out.bind_eq_ok] at e
      obtain ⟨b, e1, e⟩ := e
      cases e
      have h2 := fromJsonEntries_forall₂ e1
      have hkeys := forall₂_keys (R := fun j w => fromJson env j = .ok w) h2
      rw [collectMap_eq (hkeys ▸ hk)]
      intro k j hj
      obtain ⟨w, hw, e⟩ := forall₂_exists_right (R := fun j w => fromJson env j = .ok w) h2 k j hj
      exact ⟨w, (hord b).mem_iff.mpr hw, e⟩

/-- JSON whose contents come back holds no object that looks like a marked one. -/
theorem plain_of_contents {env : Env} (hord : ∀ l, (env.mapOrd l).Perm l) (j : SJValue) :
    j.Made (fun _ => True) → ∀ w, fromJson env j = .ok w → Contents j w → j.Plain := by
  induction j using SJValue.induct with
  | h j ha hm =>
    intro hmade w e hc
    cases hmade with
    | null => exact .null
    | bool b => exact .bool b
    | posInt h => exact .number h
    | negInt h h0 => exact .number ⟨h, h0⟩
    | float h hp => exact .number trivial
    | string s => exact .string s
    | @array a h =>
      cases hc with
      | @array _ b hl hc =>
        simp only [fromJson] at e
        rw [Out.bind_eq_ok] at e
        obtain ⟨b', e1, e⟩ := e
        cases e
        have h2 := fromJsonList_forall₂ e1
        refine .array fun j hj => ?_
        obtain ⟨i, hi⟩ := List.getElem?_of_mem hj
        have hib : ∃ w, b[i]? = some w := by
          have h3 : i < a.length := (List.getElem?_eq_some_iff.mp hi).1
          exact ⟨b[i]'(hl ▸ h3), List.getElem?_eq_getElem _⟩
        obtain ⟨w, hw⟩ := hib
        exact ha a rfl j hj (h j hj) w (forall₂_get h2 i j w hi hw) (hc i j w hi hw)
    | @object m ho h =>
      cases hc with
      | @object _ b hl hkk hc =>
        have hk := made_nodup ho
        obtain ⟨h1, h2⟩ := fromJson_object_map hord hk e
        refine .object hk h1 fun k j hj => ?_
        obtain ⟨w, hw, e'⟩ := h2 k j hj
        exact hm m rfl k j hj (h k j hj) w e' (hc k j w hj hw)

/-- C31 for each value: a value comes back from its JSON, up to the documented widening, exactly if all of it can be
said in JSON and none of its maps and JSON objects looks like a marked one. -/
theorem C31_exact {env : Env} (hord : HashOrder env.mapOrd) {v : Value}
    (hi : ∀ i, Sub (.integer i) v → i.Native)
    (hz : ∀ a b, Sub (.imaginary (.cartesian a b)) v → a.Native ∧ b.Native)
    (hk : KeysDistinct v) (hj : ∀ j, Sub (.json j) v → j.Made (fun _ => True)) :
    (∃ j w, toJson env true v = some j ∧ fromJson env j = .ok w ∧ Widened v w) ↔ Jsonable env v := by
  refine ⟨?_, fun h => C31_roundtrip_partial hord h⟩
  induction v using Value.induct with
  | h v hA hM =>
    rintro ⟨j, w, e1, e2, hw⟩
    cases v with
    | character c => exact .character c
    | string s => exact .string s
    | binary b => exact .binary b
    | boolean b => exact .boolean b
    | null => exact .null
    | ipv4 a b c d => exact .ipv4 ..
    | ipv6 a b c d e f g i => exact .ipv6 ..
    | integer i =>
      have hn := hi i (.refl _)
      refine .integer ((jsonInt_iff hn).mp ?_)
      simp only [toJson, Option.map_eq_some_iff] at e1
      obtain ⟨n, e1, rfl⟩ := e1
      cases hw with
      | @integer _ k h =>
        refine ⟨n, k, e1, ?_, h⟩
        simp only [fromJson] at e2
        split at e2
        · rename_i i' hi'
          rw [hi']
          simpa using e2
        · split at e2 <;> cases e2
    | imaginary z =>
      cases z with
      | cartesian a b =>
        have hn := hz a b (.refl _)
        simp only [toJson, imaginaryToJson, Option.bind_eq_bind, Option.bind_eq_some_iff] at e1
        obtain ⟨r, e3, i, e4, e1⟩ := e1
        cases e1
        cases hw with
        | @cartesian _ _ a' b' h1 h2 =>
          have e5 : (match Integer.fromJson r, Integer.fromJson i with
              | some re, some im => Out.ok (Value.imaginary (.cartesian re im))
              | _, _ => Out.err (.invalidSourisType .imaginary .invalidData)) =
              (.ok (.imaginary (.cartesian a' b')) : Out ValueSerError Value) := e2
          cases hr : Integer.fromJson r with
          | none => rw [hr] at e5; cases e5
          | some r' =>
            cases him : Integer.fromJson i with
            | none => rw [hr, him] at e5; cases e5
            | some i' =>
              rw [hr, him] at e5
              cases e5
              exact .cartesian ((jsonInt_iff hn.1).mp ⟨r, _, e3, hr, h1⟩) ((jsonInt_iff hn.2).mp ⟨i, _, e4, him, h2⟩)
      | polar m a =>
        simp only [toJson, imaginaryToJson, Option.bind_eq_bind, Option.bind_eq_some_iff, SJValue.ofF64] at e1
        obtain ⟨r, e3, i, e4, e1⟩ := e1
        split at e3
        · rename_i h1
          split at e4
          · rename_i h2
            exact .polar h1 h2
          · cases e4
        · cases e3
    | timestamp t =>
      cases e1
      refine .timestamp ?_
      have e3 : (match env.tsParse (env.tsPrint t) with
          | some t => Out.ok (Value.timestamp t)
          | none => Out.err (.invalidSourisType .timestamp .invalidData)) = (.ok w : Out ValueSerError Value) := e2
      cases h : env.tsParse (env.tsPrint t) with
      | none => rw [h] at e3; cases e3
      | some t' =>
        rw [h] at e3
        cases e3
        cases hw
        rfl
    | timezone n =>
      cases e1
      have e3 : (if n ∈ env.tzNames then Out.ok (Value.timezone n)
          else Out.err (.invalidSourisType .timezone .invalidData)) = (.ok w : Out ValueSerError Value) := e2
      by_cases h : n ∈ env.tzNames
      · exact .timezone h
      · rw [if_neg h] at e3; cases e3
    | json j' =>
      cases e1
      cases hw with
      | json hc => exact .json (plain_of_contents hord j (hj j (.refl _)) w e2 hc)
    | single x =>
      simp only [toJson, SJValue.ofF64] at e1
      split at e1
      · rename_i h; exact .single (finite32_iff.mpr (widen_finite.mp (finite64_iff.mp h)))
      · cases e1
    | double x =>
      simp only [toJson, SJValue.ofF64] at e1
      split at e1
      · rename_i h; exact .double h
      · cases e1
    | array a =>
      simp only [toJson, Option.map_eq_some_iff] at e1
      obtain ⟨js, e1, rfl⟩ := e1
      simp only [fromJson] at e2
      rw [Out.bind_eq_ok] at e2
      obtain ⟨b, e3, e2⟩ := e2
      cases e2
      cases hw with
      | array hl hw =>
        have h1 := toJsonList_forall₂ e1
        have h2 := fromJsonList_forall₂ e3
        refine .array fun v hv => ?_
        obtain ⟨i, hia⟩ := List.getElem?_of_mem hv
        have h3 : i < a.length := (List.getElem?_eq_some_iff.mp hia).1
        have h4 : i < js.length := h1.length_eq ▸ h3
        have h5 : i < b.length := h2.length_eq ▸ h4
        have hij : js[i]? = some js[i] := List.getElem?_eq_getElem _
        have hib : b[i]? = some b[i] := List.getElem?_eq_getElem _
        refine hA a rfl v hv (fun i h => hi i (.array hv h)) (fun a b h => hz a b (.array hv h))
          (fun m h => hk m (.array hv h)) (fun j h => hj j (.array hv h)) ⟨js[i], b[i], ?_, ?_, ?_⟩
        · exact forall₂_get h1 i _ _ hia hij
        · exact forall₂_get h2 i _ _ hij hib
        · exact hw i _ _ hia hib
    | map m =>
      simp only [toJson, Option.map_eq_some_iff] at e1
      obtain ⟨js, e1, rfl⟩ := e1
      have h1 := toJsonEntries_forall₂ e1
      have hkm := hk m (.refl _)
      have hkeys := forall₂_keys (R := fun v j => toJson env true v = some j) h1
      have hnd : (js.map Prod.fst).Nodup := hkeys ▸ hkm
      have hp := collect_perm hnd
      have hnd' : ((SJValue.collect js).map Prod.fst).Nodup := (hp.map Prod.fst).nodup_iff.mpr hnd
      cases hw with
      | @map _ b hl hkk hw =>
        obtain ⟨h2, h3⟩ := fromJson_object_map hord hnd' e2
        have hsub : ∀ k v, (k, v) ∈ m → Jsonable env v := by
          intro k v hv
          obtain ⟨j, hjm, ej⟩ := forall₂_exists_right (R := fun v j => toJson env true v = some j) h1 k v hv
          obtain ⟨w, hwm, ew⟩ := h3 k j (hp.mem_iff.mpr hjm)
          exact hM m rfl k v hv (fun i h => hi i (.map hv h)) (fun a b h => hz a b (.map hv h))
            (fun m h => hk m (.map hv h)) (fun j h => hj j (.map hv h)) ⟨j, w, ej, ew, hw k v w hv hwm⟩
        refine .map hkm ?_ hsub
        rintro k v hv ⟨rfl, hlook⟩
        obtain ⟨j, hjm, ej⟩ := forall₂_exists_right (R := fun v j => toJson env true v = some j) h1 _ v hv
        apply h2
        rcases hlook with ⟨i, rfl, hi0, hi16⟩ | ⟨n, hn, rfl⟩
        · have hs := hsub _ _ hv
          cases hs with
          | integer hI =>
            have hsafe : SafeInt i := ⟨hI.1, fun h => by have := hI.2.1; omega⟩
            simp only [toJson, Option.map_eq_some_iff] at ej
            obtain ⟨n, e3, rfl⟩ := ej
            obtain ⟨hJ, -⟩ := (integer_json hsafe).1 n e3
            revert hi0 hi16
            generalize i.value = x at hJ
            intro hi0 hi16
            cases hJ with
            | @nonneg n _ => exact ⟨n, by omega, hp.mem_iff.mpr hjm⟩
            | negative _ h => omega
        · simp only [toJson, Option.some.injEq] at ej
          exact ⟨n, hn, hp.mem_iff.mpr (ej ▸ hjm)⟩

/-- A map whose `souris_type` is a small number meets the hypotheses and does not come back. -/
example : ¬ Jsonable sampleEnv (.map [("souris_type".toList, .integer (Integer.ofUnsigned 1 13))]) ∧
    KeysDistinct (.map [("souris_type".toList, .integer (Integer.ofUnsigned 1 13))]) := by
  constructor
  · intro h
    cases h with
    | map hk hm h => exact hm _ _ (List.mem_singleton.mpr rfl) ⟨rfl, .inl ⟨Integer.ofUnsigned 1 13, rfl, by decide +kernel, by decide +kernel⟩⟩
  · intro m h
    cases h with
    | refl => simp
    | map hv h =>
      simp only [List.mem_cons, List.not_mem_nil, or_false, Prod.mk.injEq] at hv
      obtain ⟨rfl, rfl⟩ := hv
      cases h

end Souris
