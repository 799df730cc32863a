import Verif.Spec.JsonMarks
import Verif.Props.JsonSettles

/-! # C104: what comes back from JSON without type markers -/

namespace Souris

open Value

/-- Without values that need a marker, the flag makes no difference. -/
theorem toJson_noMarks {env : Env} (v : Value) : NoMarks v → toJson env false v = toJson env true v := by
  induction v using Value.induct with
  | h v hA hM =>
    intro h
    cases v with
    | imaginary z => exact absurd (.imaginary z) (h _ (.refl _))
    | timestamp t => exact absurd (.timestamp t) (h _ (.refl _))
    | timezone n => exact absurd (.timezone n) (h _ (.refl _))
    | binary b => exact absurd (.binary b) (h _ (.refl _))
    | ipv4 => exact absurd (.ipv4 ..) (h _ (.refl _))
    | ipv6 => exact absurd (.ipv6 ..) (h _ (.refl _))
    | array a =>
      have hA := hA a rfl
      have : toJsonList env false a = toJsonList env true a := by
        have hs : ∀ v ∈ a, toJson env false v = toJson env true v := fun v hv => hA v hv fun x hx => h x (.array hv hx)
        clear * - hs
        induction a with
        | nil => simp [toJsonList]
        | cons v a ih =>
          simp only [toJsonList, hs v List.mem_cons_self, ih fun v hv => hs v (List.mem_cons_of_mem _ hv)]
      simp only [toJson, this]
    | map m =>
      have hM := hM m rfl
      have : toJsonEntries env false m = toJsonEntries env true m := by
        have hs : ∀ k v, (k, v) ∈ m → toJson env false v = toJson env true v :=
          fun k v hv => hM k v hv fun x hx => h x (.map hv hx)
        clear * - hs
        induction m with
        | nil => simp [toJsonEntries]
        | cons e m ih =>
          obtain ⟨k, v⟩ := e
          simp only [toJsonEntries, hs k v List.mem_cons_self, ih fun k v hv => hs k v (List.mem_cons_of_mem _ hv)]
      simp only [toJson, this]
    | _ => simp only [toJson]

/-- An object without a marker is read as a map. -/
theorem unmarked_map {env : Env} {m : List (List Char × SJValue)} (hm : marker m = none) {w : Value}
    (e : fromJson env (.object m) = .ok w) : ∃ es, w = .map es := by
  simp only [fromJson, hm] at e
  rw [Out.bind_eq_ok] at e
  obtain ⟨b, _, e⟩ := e
  cases e
  exact ⟨_, rfl⟩

/-- Without markers, what needs one is not read as what it was. -/
theorem noMarks_of_back {env : Env} (hord : HashOrder env.mapOrd) (v : Value) : KeysDistinct v →
    ∀ j w, toJson env false v = some j → fromJson env j = .ok w → Widened v w → NoMarks v := by
  induction v using Value.induct with
  | h v hA hM =>
    intro hk j w e1 e2 hw
    cases v with
    | imaginary z =>
      exfalso
      have : ∃ es, w = .map es := by
        cases z with
        | cartesian a b =>
          simp only [toJson, imaginaryToJson, Option.bind_eq_bind, Option.bind_eq_some_iff] at e1
          obtain ⟨r, _, i, _, e1⟩ := e1
          cases e1
          exact unmarked_map rfl e2
        | polar m a =>
          simp only [toJson, imaginaryToJson, Option.bind_eq_bind, Option.bind_eq_some_iff] at e1
          obtain ⟨r, _, i, _, e1⟩ := e1
          cases e1
          exact unmarked_map rfl e2
      obtain ⟨es, rfl⟩ := this
      cases hw
    | timestamp t =>
      cases e1
      obtain ⟨es, rfl⟩ := unmarked_map rfl e2
      cases hw
    | timezone n =>
      cases e1
      obtain ⟨es, rfl⟩ := unmarked_map rfl e2
      cases hw
    | binary b =>
      cases e1
      obtain ⟨es, rfl⟩ := unmarked_map rfl e2
      cases hw
    | ipv4 =>
      cases e1
      simp only [addrToJson, Bool.false_eq_true, if_false, fromJson] at e2
      rw [Out.bind_eq_ok] at e2
      obtain ⟨b, _, e2⟩ := e2
      cases e2
      cases hw
    | ipv6 =>
      cases e1
      simp only [addrToJson, Bool.false_eq_true, if_false, fromJson] at e2
      rw [Out.bind_eq_ok] at e2
      obtain ⟨b, _, e2⟩ := e2
      cases e2
      cases hw
    | array a =>
      simp only [toJson, Option.map_eq_some_iff] at e1
      obtain ⟨js, e1, rfl⟩ := e1
      simp only [fromJson] at e2
      rw [Out.bind_eq_ok] at e2
      obtain ⟨b, e3, e2⟩ := e2
      cases e2
      cases hw with
      | array hl hw =>
        have h1 := toJsonList_forall₂ e1
        have h2 := fromJsonList_forall₂ e3
        intro x hx
        cases hx with
        | refl => intro h; cases h
        | @array _ _ v hv hx =>
          obtain ⟨i, hia⟩ := List.getElem?_of_mem hv
          have h3 : i < a.length := (List.getElem?_eq_some_iff.mp hia).1
          have h4 : i < js.length := h1.length_eq ▸ h3
          have h5 : i < b.length := h2.length_eq ▸ h4
          have hij : js[i]? = some js[i] := List.getElem?_eq_getElem _
          have hib : b[i]? = some b[i] := List.getElem?_eq_getElem _
          exact hA a rfl v hv (fun m h => hk m (.array hv h)) _ _ (forall₂_get h1 i _ _ hia hij)
            (forall₂_get h2 i _ _ hij hib) (hw i _ _ hia hib) x hx
    | map m =>
      simp only [toJson, Option.map_eq_some_iff] at e1
      obtain ⟨js, e1, rfl⟩ := e1
      have h1 := toJsonEntries_forall₂ e1
      have hkeys := forall₂_keys (R := fun v j => toJson env false v = some j) h1
      have hnd : (js.map Prod.fst).Nodup := hkeys ▸ hk m (.refl _)
      have hp := collect_perm hnd
      have hnd' : ((SJValue.collect js).map Prod.fst).Nodup := (hp.map Prod.fst).nodup_iff.mpr hnd
      cases hw with
      | @map _ b hl hkk hw =>
        obtain ⟨_, h3⟩ := fromJson_object_map hord hnd' e2
        intro x hx
        cases hx with
        | refl => intro h; cases h
        | @map _ k _ v hv hx =>
          obtain ⟨j, hjm, ej⟩ := forall₂_exists_right (R := fun v j => toJson env false v = some j) h1 k v hv
          obtain ⟨w, hwm, ew⟩ := h3 k j (hp.mem_iff.mpr hjm)
          exact hM m rfl k v hv (fun m h => hk m (.map hv h)) j w ej ew (hw k v w hv hwm) x hx
    | _ => intro x hx; cases hx; intro h; cases h

/-- C104 for each value: it comes back from JSON without type markers, up to the documented widening, exactly if it
comes back with them (C31) and there is nothing in it that needs one. -/
theorem C104_exact {env : Env} (hord : HashOrder env.mapOrd) {v : Value} (hk : KeysDistinct v) :
    (∃ j w, toJson env false v = some j ∧ fromJson env j = .ok w ∧ Widened v w) ↔
      (∃ j w, toJson env true v = some j ∧ fromJson env j = .ok w ∧ Widened v w) ∧ NoMarks v := by
  constructor
  · rintro ⟨j, w, e1, e2, h⟩
    have hn := noMarks_of_back hord v hk j w e1 e2 h
    exact ⟨⟨j, w, by rw [← toJson_noMarks v hn, e1], e2, h⟩, hn⟩
  · rintro ⟨⟨j, w, e1, e2, h⟩, hn⟩
    exact ⟨j, w, by rw [toJson_noMarks v hn, e1], e2, h⟩

/-- Whether a value can be written does not depend on the flag. -/
theorem C104_written {env : Env} (v : Value) : (toJson env false v).isSome = (toJson env true v).isSome := by
  induction v using Value.induct with
  | h v hA hM =>
    cases v with
    | imaginary z =>
      cases z with
      | cartesian a b =>
        simp only [toJson, imaginaryToJson]
        cases a.toJson <;> cases b.toJson <;> rfl
      | polar a b =>
        simp only [toJson, imaginaryToJson]
        cases SJValue.ofF64 a <;> cases SJValue.ofF64 b <;> rfl
    | array a =>
      have hA := hA a rfl
      simp only [toJson, Option.isSome_map]
      clear * - hA
      induction a with
      | nil => simp [toJsonList]
      | cons v a ih =>
        have h1 := hA v List.mem_cons_self
        have h2 := ih fun v hv => hA v (List.mem_cons_of_mem _ hv)
        simp only [toJsonList]
        revert h1 h2
        cases toJson env false v <;> cases toJson env true v <;> cases toJsonList env false a <;>
          cases toJsonList env true a <;> simp
    | map m =>
      have hM := hM m rfl
      simp only [toJson, Option.isSome_map]
      clear * - hM
      induction m with
      | nil => simp [toJsonEntries]
      | cons e m ih =>
        obtain ⟨k, v⟩ := e
        have h1 := hM k v List.mem_cons_self
        have h2 := ih fun k v hv => hM k v (List.mem_cons_of_mem _ hv)
        simp only [toJsonEntries]
        revert h1 h2
        cases toJson env false v <;> cases toJson env true v <;> cases toJsonEntries env false m <;>
          cases toJsonEntries env true m <;> simp
    | _ => simp [toJson]

/-- C104: the flag makes a difference exactly to values in which something needs a marker. -/
theorem C104_flag {env : Env} {v : Value} (hk : KeysDistinct v) {j j' : SJValue} (e : toJson env false v = some j)
    (e' : toJson env true v = some j') : j = j' ↔ NoMarks v := by
  refine ⟨?_, fun h => by rw [toJson_noMarks v h, e', Option.some.injEq] at e; exact e.symm⟩
  rintro rfl
  induction v using Value.induct generalizing j with
  | h v hA hM =>
    cases v with
    | imaginary z =>
      exfalso
      cases z with
      | cartesian a b =>
        simp only [toJson, imaginaryToJson, Option.bind_eq_bind, Option.bind_eq_some_iff] at e e'
        obtain ⟨r, _, i, _, e⟩ := e
        obtain ⟨r', _, i', _, e'⟩ := e'
        rw [← e'] at e
        simp [marked, SJValue.insert, kReal, kImaginary, kTy, SJValue.keyLt] at e
      | polar a b =>
        simp only [toJson, imaginaryToJson, Option.bind_eq_bind, Option.bind_eq_some_iff] at e e'
        obtain ⟨r, _, i, _, e⟩ := e
        obtain ⟨r', _, i', _, e'⟩ := e'
        rw [← e'] at e
        simp [marked, SJValue.insert, kModulus, kArgument, kTy, SJValue.keyLt] at e
    | timestamp t =>
      rw [← e'] at e
      simp [toJson, marked, SJValue.insert, kTimestamp, kTy, SJValue.keyLt] at e
    | timezone t =>
      rw [← e'] at e
      simp [toJson, marked, SJValue.insert, kTimezone, kTy, SJValue.keyLt] at e
    | binary t =>
      rw [← e'] at e
      simp [toJson, marked, SJValue.insert, kBytes, kTy, SJValue.keyLt] at e
    | ipv4 =>
      rw [← e'] at e
      simp [toJson, addrToJson] at e
    | ipv6 =>
      rw [← e'] at e
      simp [toJson, addrToJson] at e
    | array a =>
      simp only [toJson, Option.map_eq_some_iff] at e e'
      obtain ⟨js, e, rfl⟩ := e
      obtain ⟨js', e', h⟩ := e'
      cases h
      have h1 := toJsonList_forall₂ e
      have h2 := toJsonList_forall₂ e'
      intro x hx
      cases hx with
      | refl => intro h; cases h
      | @array _ _ v hv hx =>
        obtain ⟨i, hia⟩ := List.getElem?_of_mem hv
        have h3 : i < a.length := (List.getElem?_eq_some_iff.mp hia).1
        have h4 : i < js.length := h1.length_eq ▸ h3
        have hij : js[i]? = some js[i] := List.getElem?_eq_getElem _
        exact hA a rfl v hv (fun m h => hk m (.array hv h)) (forall₂_get h1 i _ _ hia hij)
          (forall₂_get h2 i _ _ hia hij) x hx
    | map m =>
      simp only [toJson, Option.map_eq_some_iff] at e e'
      obtain ⟨js, e, rfl⟩ := e
      obtain ⟨js', e', h⟩ := e'
      simp only [SJValue.object.injEq] at h
      have h1 := toJsonEntries_forall₂ e
      have h2 := toJsonEntries_forall₂ e'
      have hk1 := forall₂_keys (R := fun v j => toJson env false v = some j) h1
      have hk2 := forall₂_keys (R := fun v j => toJson env true v = some j) h2
      have hkm := hk m (.refl _)
      have hp := collect_perm (hk1 ▸ hkm)
      have hp' := collect_perm (hk2 ▸ hkm)
      rw [h] at hp'
      have hperm := hp.symm.trans hp'
      intro x hx
      cases hx with
      | refl => intro h; cases h
      | @map _ k _ v hv hx =>
        obtain ⟨j1, hj1, ej1⟩ := forall₂_exists_right (R := fun v j => toJson env false v = some j) h1 k v hv
        obtain ⟨j2, hj2, ej2⟩ := forall₂_exists_right (R := fun v j => toJson env true v = some j) h2 k v hv
        have : j1 = j2 := by
          have e3 := get_of_mem (hk2 ▸ hkm) hj2
          have e4 := get_of_mem (hk2 ▸ hkm) (hperm.mem_iff.mp hj1)
          rw [e3, Option.some.injEq] at e4
          exact e4.symm
        subst this
        exact hM m rfl k v hv (fun m h => hk m (.map hv h)) ej1 ej2 x hx
    | _ => intro x hx; cases hx; intro h; cases h

theorem bare_not_wrapped {env : Env} (hord : HashOrder env.mapOrd) {v : Value} {j : SJValue} (e : toJson env false v = some j)
    (hm : ∀ m, v ≠ .map m) (hj : ∀ j, v ≠ .json j) (w : Value) : fromJson env j ≠ .ok (wrapped w) := by
  have harr : ∀ a, fromJson env (.array a) ≠ .ok (wrapped w) := by
    intro a h
    simp only [fromJson] at h
    rw [Out.bind_eq_ok] at h
    obtain ⟨_, _, h⟩ := h
    cases h
  have hobj : ∀ m, (m.map Prod.fst).Nodup → "JSON".toList ∉ m.map Prod.fst → fromJson env (.object m) ≠ .ok (wrapped w) := by
    intro m hk hn h
    obtain ⟨j', h, _⟩ := fromJson_wrapped hord (fun m' hm' => by cases hm'; exact hk) h
    cases h
    simp at hn
  cases v with
  | map m => exact absurd rfl (hm m)
  | json j => exact absurd rfl (hj j)
  | array a =>
    simp only [toJson, Option.map_eq_some_iff] at e
    obtain ⟨js, _, rfl⟩ := e
    exact harr js
  | ipv4 => cases e; exact harr _
  | ipv6 => cases e; exact harr _
  | imaginary z =>
    cases z with
    | cartesian a b =>
      simp only [toJson, imaginaryToJson, Option.bind_eq_bind, Option.bind_eq_some_iff] at e
      obtain ⟨r, _, i, _, e⟩ := e
      cases e
      exact hobj [(kImaginary, .number i), (kReal, .number r)] (by simp [kImaginary, kReal]) (by simp [kImaginary, kReal])
    | polar a b =>
      simp only [toJson, imaginaryToJson, Option.bind_eq_bind, Option.bind_eq_some_iff] at e
      obtain ⟨r, _, i, _, e⟩ := e
      cases e
      exact hobj [(kArgument, .number i), (kModulus, .number r)] (by simp [kArgument, kModulus]) (by simp [kArgument, kModulus])
  | timestamp t => cases e; exact hobj [(kTimestamp, _)] (by simp) (by simp [kTimestamp])
  | timezone t => cases e; exact hobj [(kTimezone, _)] (by simp) (by simp [kTimezone])
  | binary t => cases e; exact hobj [(kBytes, _)] (by simp) (by simp [kBytes])
  | _ => exact not_read_as_map (v := _) (by rw [← toJson_noMarks]; exact e; intro x hx; cases hx; intro h; cases h) (by simp) (by simp) _

theorem no_wrap_bare {env : Env} (hord : HashOrder env.mapOrd) (v : Value) :
    KeysDistinct v → (∀ j, Sub (.json j) v → j.Made (fun _ => True)) →
    ∀ j w, toJson env false v = some j → fromJson env j = .ok (wrapped w) → Widened v w → False := by
  induction v using Value.induct with
  | h v hA hM =>
    intro hk hj j w e1 e2 hw
    cases v with
    | json j' =>
      cases e1
      cases hw with
      | json hc => exact no_wrap_json hord j (hj j (.refl _)) w e2 hc
    | map m =>
      simp only [toJson, Option.map_eq_some_iff] at e1
      obtain ⟨es, e1, rfl⟩ := e1
      have h2 := toJsonEntries_forall₂ e1
      have hkeys := forall₂_keys (R := fun v j => toJson env false v = some j) h2
      have hnd : (es.map Prod.fst).Nodup := hkeys ▸ hk m (.refl _)
      have hp := collect_perm hnd
      obtain ⟨j', e3, e4⟩ := fromJson_wrapped hord (fun m' hm' => by
        cases hm'
        exact (hp.map Prod.fst).nodup_iff.mpr hnd) e2
      simp only [SJValue.object.injEq] at e3
      rw [e3] at hp
      have hes : es = [("JSON".toList, j')] := List.perm_singleton.mp hp.symm
      subst hes
      cases h2 with
      | @cons x _ l _ h1 h2 =>
        cases h2
        obtain ⟨k, v1⟩ := x
        obtain ⟨rfl, h1⟩ := h1
        cases hw with
        | @map _ b hl hkk hc =>
          obtain ⟨y, rfl⟩ := one_entry rfl hl hkk
          exact hM _ rfl _ v1 (List.mem_singleton_self _) (fun m hs => hk m (.map (List.mem_singleton_self _) hs))
            (fun j hs => hj j (.map (List.mem_singleton_self _) hs)) j' y h1 e4 (hc _ v1 y (List.mem_singleton_self _) (List.mem_singleton_self _))
    | _ => exact bare_not_wrapped hord e1 (by simp) (by simp) w e2

theorem store_lone (env : Env) (types : Bool) (v : Value) :
    Store.toJson env types [("JSON".toList, v)] = toJson env types v := by
  simp [Store.toJson, SJValue.get, Store.kJson]

theorem store_all {env : Env} {types : Bool} {s : Store} (h : ¬ ∃ v, s = [("JSON".toList, v)]) :
    Store.toJson env types s = toJson env types (.map s) := by
  unfold Store.toJson
  split
  · rename_i v hv
    split at hv
    · rename_i h1
      obtain ⟨⟨k, w⟩, rfl⟩ := List.length_eq_one_iff.mp h1
      have := get_mem hv
      simp only [List.mem_singleton, Prod.mk.injEq] at this
      obtain ⟨rfl, rfl⟩ := this
      exact absurd ⟨v, rfl⟩ h
    · cases hv
  · simp only [toJson]

/-- C104 for each store: it comes back from JSON without type markers, up to the documented widening, exactly if it
comes back with them (C36) and there is nothing in it that needs one. -/
theorem C104_store_exact {env : Env} (hord : HashOrder env.mapOrd) {s : Store} (hk : KeysDistinct (.map s))
    (hj : ∀ j, Sub (.json j) (.map s) → j.Made (fun _ => True)) :
    (∃ j s', Store.toJson env false s = some j ∧ Store.fromJson env j = .ok s' ∧ Widened (.map s) (.map s')) ↔
      (∃ j s', Store.toJson env true s = some j ∧ Store.fromJson env j = .ok s' ∧ Widened (.map s) (.map s')) ∧
        NoMarks (.map s) := by
  have same : NoMarks (.map s) → Store.toJson env false s = Store.toJson env true s := by
    intro hn
    by_cases h1 : ∃ v, s = [("JSON".toList, v)]
    · obtain ⟨v, rfl⟩ := h1
      rw [store_lone, store_lone]
      exact toJson_noMarks v fun x hx => hn x (.map (List.mem_singleton_self _) hx)
    · rw [store_all h1, store_all h1]
      exact toJson_noMarks _ hn
  constructor
  · rintro ⟨j, s', e1, e2, hw⟩
    have hn : NoMarks (.map s) := by
      by_cases h1 : ∃ v, s = [("JSON".toList, v)]
      · obtain ⟨v, rfl⟩ := h1
        rw [store_lone] at e1
        have hsub : ∀ x, Sub x v → Sub x (.map [("JSON".toList, v)]) := fun x hx => .map (List.mem_singleton_self _) hx
        obtain ⟨w, rfl, hww⟩ : ∃ w, s' = [("JSON".toList, w)] ∧ Widened v w := by
          cases hw with
          | @map _ _ hl hkk hc =>
            obtain ⟨y, rfl⟩ := one_entry rfl hl hkk
            exact ⟨y, rfl, hc _ v y (List.mem_singleton_self _) (List.mem_singleton_self _)⟩
        have e3 : fromJson env j = .ok w := by
          unfold Store.fromJson at e2
          cases h : fromJson env j with
          | ok x =>
            rw [h] at e2
            cases x with
            | map m =>
              cases e2
              exact absurd hww fun hww => no_wrap_bare hord v (fun m hs => hk m (hsub _ hs)) (fun j hs => hj j (hsub _ hs)) j w e1 h hww
            | _ => cases e2; rfl
          | err e => rw [h] at e2; cases e2
          | panic p => rw [h] at e2; cases e2
        have hv := noMarks_of_back hord v (fun m hs => hk m (hsub _ hs)) j w e1 e3 hww
        intro x hx
        cases hx with
        | refl => intro h; cases h
        | @map _ k _ v' hv' hx =>
          simp only [List.mem_singleton, Prod.mk.injEq] at hv'
          obtain ⟨_, rfl⟩ := hv'
          exact hv x hx
      · rw [store_all h1] at e1
        have e3 : fromJson env j = .ok (.map s') := by
          unfold Store.fromJson at e2
          cases h : fromJson env j with
          | ok x =>
            rw [h] at e2
            have lone : ∀ y, s' ≠ [(Store.kJson, y)] := by
              rintro y rfl
              cases hw with
              | @map _ _ hl hkk hc =>
                obtain ⟨z, hz⟩ := one_entry rfl hl.symm fun k => (hkk k).symm
                exact h1 ⟨z, hz⟩
            cases x with
            | map m => cases e2; rfl
            | _ => exfalso; cases e2; exact lone _ rfl
          | err e => rw [h] at e2; cases e2
          | panic p => rw [h] at e2; cases e2
        exact noMarks_of_back hord _ hk j _ e1 e3 hw
    exact ⟨⟨j, s', by rw [← same hn, e1], e2, hw⟩, hn⟩
  · rintro ⟨⟨j, s', e1, e2, hw⟩, hn⟩
    exact ⟨j, s', by rw [same hn, e1], e2, hw⟩

-- a map with an address does not come back, one with an array does
example : ¬ (∃ j w, toJson sampleEnv false (.map [(['a'], .ipv4 127 0 0 1)]) = some j ∧ fromJson sampleEnv j = .ok w ∧
    Widened (.map [(['a'], .ipv4 127 0 0 1)]) w) := by
  intro h
  have hk : KeysDistinct (.map [(['a'], .ipv4 127 0 0 1)]) := by
    intro m hs
    cases hs with
    | refl => simp
    | map hv hs =>
      simp only [List.mem_singleton, Prod.mk.injEq] at hv
      obtain ⟨_, rfl⟩ := hv
      cases hs
  exact ((C104_exact (fun l => .refl l) hk).mp h).2 _ (.map (List.mem_singleton_self _) (.refl _)) (.ipv4 ..)

example : ∃ j w, toJson sampleEnv false (.array [.null, .string ['x']]) = some j ∧ fromJson sampleEnv j = .ok w ∧
    Widened (.array [.null, .string ['x']]) w := by
  have hs : ∀ x, Sub x (.array [.null, .string ['x']]) → (∃ a, x = .array a) ∨ x = .null ∨ x = .string ['x'] := by
    intro x hx
    rcases hx with _ | ⟨hm, hx⟩
    · exact .inl ⟨_, rfl⟩
    · simp only [List.mem_cons, List.not_mem_nil, or_false] at hm
      rcases hm with rfl | rfl <;> cases hx
      · exact .inr (.inl rfl)
      · exact .inr (.inr rfl)
  refine (C104_exact (fun l => .refl l) fun m h => by simpa using hs _ h).mpr ⟨C31_roundtrip_partial (fun l => .refl l) (.array ?_), ?_⟩
  · simp only [List.mem_cons, List.not_mem_nil, or_false]
    rintro v (rfl | rfl)
    · exact .null
    · exact .string _
  · intro x hx h
    rcases hs x hx with ⟨a, rfl⟩ | rfl | rfl <;> cases h

example : toJson sampleEnv false (.array [.ipv4 127 0 0 1]) ≠ toJson sampleEnv true (.array [.ipv4 127 0 0 1]) := by
  intro h
  have hk : KeysDistinct (.array [.ipv4 127 0 0 1]) := by
    intro m hs
    rcases hs with _ | ⟨hm, hs⟩
    simp only [List.mem_singleton] at hm
    subst hm
    cases hs
  have := (C104_flag (env := sampleEnv) hk (e := rfl) (e' := h.symm)).mp rfl
  exact this _ (.array (List.mem_singleton_self _) (.refl _)) (.ipv4 ..)

end Souris
