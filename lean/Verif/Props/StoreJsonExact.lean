import Verif.Props.Store
import Verif.Props.JsonExact

/-! # C36: exactly which stores survive the round trip through JSON -/

namespace Souris

open Value

/-- A map of one entry, under `JSON`. -/
def wrapped (w : Value) : Value := .map [("JSON".toList, w)]

/-- What is read to a map of one entry is an object of one member. -/
theorem fromJson_wrapped {env : Env} (hord : HashOrder env.mapOrd) {j : SJValue}
    (hk : ∀ m, j = .object m → (m.map Prod.fst).Nodup) {w : Value} (e : fromJson env j = .ok (wrapped w)) :
    ∃ j', j = .object [("JSON".toList, j')] ∧ fromJson env j' = .ok w := by
  cases j with
  | object m =>
    obtain ⟨_, h2⟩ := fromJson_object_map hord (hk m rfl) e
    have hm : m.length = 1 := by
      simp only [fromJson] at e
      split at e
      · exfalso
        rename_i ty _
        cases ty <;> simp only [fromMarked] at e <;> (repeat' split at e) <;> cases e
      · rw [Out.bind_eq_ok] at e
        obtain ⟨b, e1, e⟩ := e
        have h2 := fromJsonEntries_forall₂ e1
        have hkeys := forall₂_keys (R := fun j w => fromJson env j = .ok w) h2
        have e : env.mapOrd (collectMap b) = [("JSON".toList, w)] := by
          have : Out.ok (Value.map (env.mapOrd (collectMap b))) = (.ok (wrapped w) : Out ValueSerError Value) := e
          injection this with this
          injection this
        rw [collectMap_eq (hkeys ▸ hk m rfl)] at e
        have h3 := (hord b).length_eq
        rw [e] at h3
        have h4 := congrArg List.length hkeys
        simp only [List.length_map, List.length_singleton] at h3 h4
        omega
    obtain ⟨⟨k, j'⟩, rfl⟩ := List.length_eq_one_iff.mp hm
    obtain ⟨w', hw, e'⟩ := h2 k j' (by simp)
    simp only [List.mem_singleton, Prod.mk.injEq] at hw
    obtain ⟨rfl, rfl⟩ := hw
    exact ⟨j', rfl, e'⟩
  | number n =>
    simp only [fromJson] at e
    split at e
    · cases e
    · split at e <;> cases e
  | array a =>
    simp only [fromJson] at e
    rw [Out.bind_eq_ok] at e
    obtain ⟨_, _, e⟩ := e
    cases e
  | _ => cases e

theorem one_entry {α β : Type} {a : List (List Char × α)} {b : List (List Char × β)} {k : List Char} {x : α}
    (ha : a = [(k, x)]) (hl : a.length = b.length) (hk : ∀ k, (∃ v, (k, v) ∈ a) ↔ ∃ w, (k, w) ∈ b) :
    ∃ y, b = [(k, y)] := by
  subst ha
  obtain ⟨⟨k', y⟩, rfl⟩ := List.length_eq_one_iff.mp hl.symm
  obtain ⟨w, hw⟩ := (hk k).mp ⟨x, by simp⟩
  simp only [List.mem_singleton, Prod.mk.injEq] at hw
  exact ⟨y, by rw [hw.1]⟩

theorem no_wrap_json {env : Env} (hord : HashOrder env.mapOrd) (j : SJValue) :
    j.Made (fun _ => True) → ∀ w, fromJson env j = .ok (wrapped w) → Contents j w → False := by
  induction j using SJValue.induct with
  | h j ha hm =>
    intro hmade w e hc
    obtain ⟨j', rfl, e'⟩ := fromJson_wrapped hord (fun m hm => by
      subst hm
      cases hmade with
      | object ho _ => exact made_nodup ho) e
    cases hc with
    | @object _ b hl hkk hc =>
      obtain ⟨y, rfl⟩ := one_entry rfl hl hkk
      cases hmade with
      | object ho h =>
        exact hm _ rfl _ j' (List.mem_singleton_self _) (h _ j' (List.mem_singleton_self _)) y e'
          (hc _ j' y (List.mem_singleton_self _) (List.mem_singleton_self _))

/-- What is said in JSON as anything but a map or JSON is not read as a map. -/
theorem not_read_as_map {env : Env} {v : Value} {j : SJValue} (e : toJson env true v = some j) (hm : ∀ m, v ≠ .map m)
    (hj : ∀ j, v ≠ .json j) (es : List (List Char × Value)) : fromJson env j ≠ .ok (.map es) := by
  have hnum : ∀ n, fromJson env (.number n) ≠ .ok (.map es) := by
    intro n h
    simp only [fromJson] at h
    split at h
    · cases h
    · split at h <;> cases h
  cases v with
  | map m => exact absurd rfl (hm m)
  | json j => exact absurd rfl (hj j)
  | character c => cases e; intro h; cases h
  | string s => cases e; intro h; cases h
  | boolean b => cases e; intro h; cases h
  | null => cases e; intro h; cases h
  | integer i =>
    simp only [toJson, Option.map_eq_some_iff] at e
    obtain ⟨n, _, rfl⟩ := e
    exact hnum n
  | single x =>
    simp only [toJson, Option.map_eq_some_iff] at e
    obtain ⟨n, _, rfl⟩ := e
    exact hnum n
  | double x =>
    simp only [toJson, Option.map_eq_some_iff] at e
    obtain ⟨n, _, rfl⟩ := e
    exact hnum n
  | array a =>
    simp only [toJson, Option.map_eq_some_iff] at e
    obtain ⟨n, _, rfl⟩ := e
    intro h
    simp only [fromJson] at h
    rw [Out.bind_eq_ok] at h
    obtain ⟨_, _, h⟩ := h
    cases h
  | imaginary z =>
    cases z with
    | cartesian a b =>
      simp only [toJson, imaginaryToJson, Option.bind_eq_bind, Option.bind_eq_some_iff] at e
      obtain ⟨r, _, i, _, e⟩ := e
      cases e
      exact C31_refuted_marker env _ 5 (by omega) rfl es
    | polar m a =>
      simp only [toJson, imaginaryToJson, Option.bind_eq_bind, Option.bind_eq_some_iff] at e
      obtain ⟨r, _, i, _, e⟩ := e
      cases e
      exact C31_refuted_marker env _ 5 (by omega) rfl es
  | timestamp t => cases e; exact C31_refuted_marker env _ 6 (by omega) rfl es
  | timezone n => cases e; exact C31_refuted_marker env _ 12 (by omega) rfl es
  | binary b => cases e; exact C31_refuted_marker env _ 2 (by omega) rfl es
  | ipv4 a b c d => cases e; exact C31_refuted_marker env _ 13 (by omega) rfl es
  | ipv6 a b c d f g i h => cases e; exact C31_refuted_marker env _ 14 (by omega) rfl es

theorem no_wrap {env : Env} (hord : HashOrder env.mapOrd) (v : Value) :
    KeysDistinct v → (∀ j, Sub (.json j) v → j.Made (fun _ => True)) →
    ∀ j w, toJson env true v = some j → fromJson env j = .ok (wrapped w) → Widened v w → False := by
  induction v using Value.induct with
  | h v hA hM =>
    intro hk hj j w e1 e2 hw
    cases v with
    | json j' =>
      cases e1
      cases hw with
      | json hc => exact no_wrap_json hord j (hj j (.refl _)) w e2 hc
    | map m =>
      simp only [toJson, Option.map_eq_some_iff] at e1
      obtain ⟨es, e1, rfl⟩ := e1
      have h2 := toJsonEntries_forall₂ e1
      have hkeys := forall₂_keys (R := fun v j => toJson env true v = some j) h2
      have hnd : (es.map Prod.fst).Nodup := hkeys ▸ hk m (.refl _)
      have hp := collect_perm hnd
      obtain ⟨j', e3, e4⟩ := fromJson_wrapped hord (fun m' hm' => by
        cases hm'
        exact (hp.map Prod.fst).nodup_iff.mpr hnd) e2
      simp only [SJValue.object.injEq] at e3
      rw [e3] at hp
      have hes : es = [("JSON".toList, j')] := List.perm_singleton.mp hp.symm
      subst hes
      cases h2 with
      | @cons x _ l _ h1 h2 =>
        cases h2
        obtain ⟨k, v1⟩ := x
        obtain ⟨rfl, h1⟩ := h1
        cases hw with
        | @map _ b hl hkk hc =>
          obtain ⟨y, rfl⟩ := one_entry rfl hl hkk
          exact hM _ rfl _ v1 (List.mem_singleton_self _) (fun m hs => hk m (.map (List.mem_singleton_self _) hs))
            (fun j hs => hj j (.map (List.mem_singleton_self _) hs)) j' y h1 e4 (hc _ v1 y (List.mem_singleton_self _) (List.mem_singleton_self _))
    | _ => exact not_read_as_map e1 (by simp) (by simp) _ e2

/-- C36 for each store: it comes back from its JSON, up to the documented widening, exactly if it does as a value (C31)
and is not one map or JSON object under the key `JSON`. -/
theorem C36_store_exact {env : Env} (hord : HashOrder env.mapOrd) {s : Store}
    (hi : ∀ i, Sub (.integer i) (.map s) → i.Native)
    (hz : ∀ a b, Sub (.imaginary (.cartesian a b)) (.map s) → a.Native ∧ b.Native)
    (hk : KeysDistinct (.map s)) (hj : ∀ j, Sub (.json j) (.map s) → j.Made (fun _ => True)) :
    (∃ j s', Store.toJson env true s = some j ∧ Store.fromJson env j = .ok s' ∧ Widened (.map s) (.map s')) ↔
      Jsonable env (.map s) ∧ ∀ v, s = [("JSON".toList, v)] → (∀ m, v ≠ .map m) ∧ ∀ m, v ≠ .json (.object m) := by
  refine ⟨?_, fun h => C36_store_partial hord h.1 h.2⟩
  rintro ⟨j, s', e1, e2, hw⟩
  by_cases h1 : ∃ v, s = [("JSON".toList, v)]
  · obtain ⟨v, rfl⟩ := h1
    have hsub : ∀ x, Sub x v → Sub x (.map [("JSON".toList, v)]) := fun x hx => .map (List.mem_singleton_self _) hx
    have e1 : toJson env true v = some j := by
      simpa [Store.toJson, SJValue.get, Store.kJson] using e1
    obtain ⟨w, hs', hww⟩ : ∃ w, s' = [("JSON".toList, w)] ∧ Widened v w := by
      cases hw with
      | @map _ _ hl hkk hc =>
        obtain ⟨y, rfl⟩ := one_entry rfl hl hkk
        exact ⟨y, rfl, hc _ v y (List.mem_singleton_self _) (List.mem_singleton_self _)⟩
    subst hs'
    have e3 : fromJson env j = .ok w ∧ ∀ m, w ≠ .map m := by
      unfold Store.fromJson at e2
      cases h : fromJson env j with
      | ok x =>
        rw [h] at e2
        by_cases hx : ∃ m, x = .map m
        · obtain ⟨m, rfl⟩ := hx
          cases e2
          exact absurd h fun h => no_wrap hord v (fun m hs => hk m (hsub _ hs)) (fun j hs => hj j (hsub _ hs)) j w e1 h hww
        · cases x with
          | map m => exact absurd ⟨m, rfl⟩ hx
          | _ => cases e2; exact ⟨rfl, by simp⟩
      | err e => rw [h] at e2; cases e2
      | panic p => rw [h] at e2; cases e2
    have hv := (C31_exact hord (fun i hs => hi i (hsub _ hs)) (fun a b hs => hz a b (hsub _ hs))
      (fun m hs => hk m (hsub _ hs)) (fun j hs => hj j (hsub _ hs))).mp ⟨j, w, e1, e3.1, hww⟩
    refine ⟨.map (by simp) ?_ ?_, ?_⟩
    · intro k x hx hl
      simp only [List.mem_singleton, Prod.mk.injEq] at hx
      have := hl.1
      rw [hx.1] at this
      exact absurd this (by decide +kernel)
    · intro k x hx
      simp only [List.mem_singleton, Prod.mk.injEq] at hx
      rw [hx.2]
      exact hv
    · intro v' hv'
      simp only [List.cons.injEq, Prod.mk.injEq, true_and, and_true] at hv'
      subst hv'
      constructor
      · rintro m rfl
        cases hww with
        | map _ _ _ => exact e3.2 _ rfl
      · rintro m rfl
        cases hww with
        | json hc => cases hc with | object _ _ _ => exact e3.2 _ rfl
  · refine ⟨?_, fun v hv => absurd ⟨v, hv⟩ h1⟩
    have hnone : (if s.length = 1 then SJValue.get Store.kJson s else none) = none := by
      split_ifs with h2
      · obtain ⟨⟨k, v⟩, rfl⟩ := List.length_eq_one_iff.mp h2
        simp only [SJValue.get]
        rw [if_neg]
        intro hkk
        exact h1 ⟨v, by rw [← hkk]; rfl⟩
      · rfl
    unfold Store.toJson at e1
    rw [hnone] at e1
    refine (C31_exact hord hi hz hk hj).mp ⟨j, .map s', e1, ?_, hw⟩
    unfold Store.fromJson at e2
    cases h : fromJson env j with
    | ok x =>
      rw [h] at e2
      by_cases hx : ∃ m, x = .map m
      · obtain ⟨m, rfl⟩ := hx
        cases e2
        rfl
      · have hs' : s' = [("JSON".toList, x)] := by
          cases x with
          | map m => exact absurd ⟨m, rfl⟩ hx
          | _ => cases e2; rfl
        subst hs'
        cases hw with
        | @map _ _ hl hkk hc =>
          obtain ⟨y, hy⟩ := one_entry rfl hl.symm fun k => (hkk k).symm
          exact absurd ⟨y, hy⟩ h1
    | err e => rw [h] at e2; cases e2
    | panic p => rw [h] at e2; cases e2

/-- The characterisation decides both ways: `{"JSON": "a"}` comes back, `{"JSON": {}}` does not. -/
example {env : Env} (hord : HashOrder env.mapOrd) :
    (∃ j s', Store.toJson env true [("JSON".toList, .string ['a'])] = some j ∧ Store.fromJson env j = .ok s' ∧
      Widened (.map [("JSON".toList, .string ['a'])]) (.map s')) ∧
    ¬ ∃ j s', Store.toJson env true [("JSON".toList, .map [])] = some j ∧ Store.fromJson env j = .ok s' ∧
      Widened (.map [("JSON".toList, .map [])]) (.map s') := by
  constructor
  · refine ⟨.string ['a'], [("JSON".toList, .string ['a'])], rfl, rfl, .map rfl (by simp) ?_⟩
    intro k v w h1 h2
    simp only [List.mem_singleton, Prod.mk.injEq] at h1 h2
    rw [h1.2, h2.2]
    exact .string _
  · rintro ⟨j, s', e1, e2, hw⟩
    cases e1
    have : s' = env.mapOrd [] := by cases e2; rfl
    rw [List.Perm.eq_nil (hord [])] at this
    subst this
    cases hw with
    | map hl _ _ => cases hl

end Souris
