import Verif.Props.JsonSettlesNear

/-! # C105: what is exported as a JSON text can be imported -/

namespace Souris

open Value SerdeJson

theorem copyPrefix_length {base bs : List UInt8} (h : bs.length ≤ base.length) : (copyPrefix base bs).length = base.length := by
  rw [copyPrefix_eq h]
  simp only [List.length_append, List.length_drop]
  omega

/-- Whatever number an integer is written as, serde_json can make it. -/
theorem integer_made {P : UInt64 → Prop} {i : Integer} {n : SJNumber} (e : i.toJson = some n) : SJValue.Made P (.number n) := by
  unfold Integer.toJson at e
  split at e
  · split at e
    · rename_i k hk
      cases e
      unfold Integer.toSigned at hk
      split at hk
      · cases hk
      · rename_i hu
        have hl : (i.content.take i.used).length ≤ 8 := by
          rw [List.length_take]; omega
        have key : ∀ l : List UInt8, l.length = 8 → -(2 ^ 63) ≤ ofLeS l ∧ ofLeS l < 2 ^ 63 := by
          intro l h
          have := ofLe_lt l
          rw [h] at this
          unfold ofLeS ofPattern
          rw [h]
          split <;> omega
        have hb : -(2 ^ 63) ≤ k ∧ k < 2 ^ 63 := by
          simp only [Out.ok.injEq] at hk
          subst hk
          split <;> exact key _ (by rw [copyPrefix_length (by simpa using hl)]; simp)
        unfold SJNumber.ofI64
        split
        · exact .negInt hb.1 (by assumption)
        · exact .posInt (by omega)
    · cases e
  · split at e
    · rename_i k hk
      cases e
      unfold Integer.toUnsigned at hk
      split at hk
      · cases hk
      · split at hk
        · cases hk
        · cases hk
          have := ofLe_lt (copyPrefix (List.replicate 8 0) (i.content.take 8))
          rw [copyPrefix_length (by simp [List.length_take]), List.length_replicate] at this
          exact .posInt (by omega)
    · cases e

theorem float_of {P : UInt64 → Prop} {x : UInt64} {n : SJNumber} (e : SJValue.ofF64 x = some n) (hp : ∀ x, P x) :
    SJValue.Made P (.number n) := by
  unfold SJValue.ofF64 at e
  split at e
  · rename_i h
    cases e
    exact .float (finite64_iff.mp h) (hp x)
  · cases e

/-- The JSON of a value is one that serde_json can make, if the JSON inside the value is. -/
theorem toJson_made {env : Env} {types : Bool} (v : Value) : (∀ j, Sub (.json j) v → j.Made (fun _ => True)) →
    ∀ j, toJson env types v = some j → j.Made (fun _ => True) := by
  induction v using Value.induct with
  | h v ha hm =>
    intro hj j e
    cases v with
    | character c => cases e; exact .string _
    | string s => cases e; exact .string _
    | boolean b => cases e; exact .bool _
    | null => cases e; exact .null
    | json k => cases e; exact hj _ (.refl _)
    | integer i =>
      simp only [toJson, Option.map_eq_some_iff] at e
      obtain ⟨n, e, rfl⟩ := e
      exact integer_made e
    | single x =>
      simp only [toJson, Option.map_eq_some_iff] at e
      obtain ⟨n, e, rfl⟩ := e
      exact float_of e fun _ => trivial
    | double x =>
      simp only [toJson, Option.map_eq_some_iff] at e
      obtain ⟨n, e, rfl⟩ := e
      exact float_of e fun _ => trivial
    | imaginary z =>
      cases z with
      | cartesian a b =>
        simp only [toJson, imaginaryToJson, Option.bind_eq_bind, Option.bind_eq_some_iff] at e
        obtain ⟨r, e1, i, e2, e⟩ := e
        cases e
        exact made_marked (es := [(kReal, .number r), (kImaginary, .number i)]) (by
          simp [integer_made (P := fun _ => True) e1, integer_made (P := fun _ => True) e2])
      | polar a b =>
        simp only [toJson, imaginaryToJson, Option.bind_eq_bind, Option.bind_eq_some_iff] at e
        obtain ⟨r, e1, i, e2, e⟩ := e
        cases e
        exact made_marked (es := [(kModulus, .number r), (kArgument, .number i)]) (by
          simp [float_of (P := fun _ => True) e1 fun _ => trivial, float_of (P := fun _ => True) e2 fun _ => trivial])
    | timestamp t =>
      cases e
      exact made_marked (es := [(kTimestamp, .string (env.tsPrint t))]) (by
        simp only [List.mem_singleton, forall_eq]; exact .string _)
    | timezone n =>
      cases e
      exact made_marked (es := [(kTimezone, .string n)]) (by
        simp only [List.mem_singleton, forall_eq]; exact .string _)
    | binary b =>
      cases e
      refine made_marked (es := [(kBytes, .array (b.map fun x : UInt8 => num x.toNat))]) ?_
      simp only [List.mem_singleton, forall_eq]
      have := made_nums (P := fun _ => True) (a := b.map UInt8.toNat) (by
        simp only [List.mem_map]
        rintro _ ⟨x, _, rfl⟩
        have := x.toNat_lt
        omega)
      rwa [List.map_map] at this
    | ipv4 a b c d =>
      cases e
      refine made_addr ?_
      have h : ∀ x : UInt8, x.toNat < 2 ^ 64 := fun x => by have := x.toNat_lt; omega
      simp only [List.mem_cons, List.not_mem_nil, or_false]
      rintro n (rfl | rfl | rfl | rfl) <;> exact h _
    | ipv6 a b c d x f g i =>
      cases e
      refine made_addr ?_
      have h : ∀ x : UInt16, x.toNat < 2 ^ 64 := fun x => by have := x.toNat_lt; omega
      simp only [List.mem_cons, List.not_mem_nil, or_false]
      rintro n (rfl | rfl | rfl | rfl | rfl | rfl | rfl | rfl) <;> exact h _
    | array a =>
      simp only [toJson, Option.map_eq_some_iff] at e
      obtain ⟨js, e, rfl⟩ := e
      have h2 := toJsonList_forall₂ e
      refine .array fun j' hj' => ?_
      obtain ⟨i, hi⟩ := List.getElem?_of_mem hj'
      have hia : i < a.length := by
        rw [h2.length_eq]
        exact (List.getElem?_eq_some_iff.mp hi).1
      exact ha a rfl _ (List.getElem_mem hia) (fun j hs => hj j (.array (List.getElem_mem hia) hs)) j'
        (forall₂_get h2 i _ _ (List.getElem?_eq_getElem hia) hi)
    | map m =>
      simp only [toJson, Option.map_eq_some_iff] at e
      obtain ⟨js, e, rfl⟩ := e
      have h2 := toJsonEntries_forall₂ e
      refine .object (sorted_iff.mpr (collect_sorted js)) fun k j' hj' => ?_
      obtain ⟨front, back, rfl, _⟩ := ((gathered_collect js).2 k j').mp hj'
      obtain ⟨i, hi⟩ := List.getElem?_of_mem (show (k, j') ∈ front ++ (k, j') :: back by simp)
      have hia : i < m.length := by
        rw [h2.length_eq]
        exact (List.getElem?_eq_some_iff.mp hi).1
      obtain ⟨_, h3⟩ := forall₂_get h2 i _ _ (List.getElem?_eq_getElem hia) hi
      exact hm m rfl m[i].1 m[i].2 (List.getElem_mem hia) (fun j hs => hj j (.map (List.getElem_mem hia) hs)) j' h3

theorem keys_elem {a : List Value} (h : KeysDistinct (.array a)) {v : Value} (hv : v ∈ a) : KeysDistinct v :=
  fun m hm => h m (.array hv hm)

theorem keys_entry {m : List (List Char × Value)} (h : KeysDistinct (.map m)) {k : List Char} {v : Value}
    (hv : (k, v) ∈ m) : KeysDistinct v :=
  fun m' hm => h m' (.map hv hm)

theorem list_depth {env : Env} {b : List Value} {js : List SJValue} (e : toJsonList env true b = some js) {i : Nat} {w : Value}
    (hw : b[i]? = some w) : ∃ j, toJson env true w = some j ∧ j.depth ≤ SJValue.depthList js := by
  have h := toJsonList_forall₂ e
  have hi : i < js.length := by
    rw [← h.length_eq]
    exact (List.getElem?_eq_some_iff.mp hw).1
  exact ⟨js[i], forall₂_get h i _ _ hw (List.getElem?_eq_getElem hi), depth_mem (List.getElem_mem hi)⟩

theorem entries_depth {env : Env} {b : List (List Char × Value)} (hk : (b.map Prod.fst).Nodup) {js : List (List Char × SJValue)}
    (e : toJsonEntries env true b = some js) {k : List Char} {w : Value} (hw : (k, w) ∈ b) :
    ∃ j, toJson env true w = some j ∧ j.depth ≤ SJValue.depthEntries (SJValue.collect js) := by
  have h := toJsonEntries_forall₂ e
  obtain ⟨i, hi⟩ := List.getElem?_of_mem hw
  have hi' : i < js.length := by
    rw [← h.length_eq]
    exact (List.getElem?_eq_some_iff.mp hi).1
  obtain ⟨h1, h2⟩ := forall₂_get h i _ _ hi (List.getElem?_eq_getElem hi')
  have k1 := forall₂_keys (R := fun v j => toJson env true v = some j) h
  exact ⟨js[i].2, h2, depth_entry ((collect_perm (k1 ▸ hk)).mem_iff.mpr (List.getElem_mem hi'))⟩

/-- The JSON of what a JSON says is nested as deep as that JSON. -/
theorem depth_contents {env : Env} {c : SJValue} {w : Value} (h : Contents c w) (hk : KeysDistinct w) {j : SJValue}
    (e : toJson env true w = some j) : c.depth ≤ j.depth := by
  induction h generalizing j with
  | @array a b hl _ ih =>
    simp only [toJson, Option.map_eq_some_iff] at e
    obtain ⟨js, e, rfl⟩ := e
    simp only [SJValue.depth]
    refine Nat.add_le_add_left (depthList_le fun c hc => ?_) 1
    obtain ⟨i, hi⟩ := List.getElem?_of_mem hc
    have hib : i < b.length := by rw [← hl]; exact (List.getElem?_eq_some_iff.mp hi).1
    obtain ⟨j, e1, hd⟩ := list_depth e (List.getElem?_eq_getElem hib)
    exact le_trans (ih i c b[i] hi (List.getElem?_eq_getElem hib) (keys_elem hk (List.getElem_mem hib)) e1) hd
  | @object a b hl hkk _ ih =>
    simp only [toJson, Option.map_eq_some_iff] at e
    obtain ⟨js, e, rfl⟩ := e
    simp only [SJValue.depth]
    refine Nat.add_le_add_left (depthEntries_le fun k c hc => ?_) 1
    obtain ⟨w, hw⟩ := (hkk k).mp ⟨c, hc⟩
    obtain ⟨j, e1, hd⟩ := entries_depth (hk _ (.refl _)) e hw
    exact le_trans (ih k c w hc hw (keys_entry hk hw) e1) hd
  | _ => simp [SJValue.depth]

/-- What a value is widened to is written as JSON that is nested as deep. -/
theorem depth_widened {env : Env} {v w : Value} (h : Widened v w) (hk : KeysDistinct w) {j j' : SJValue}
    (e : toJson env true v = some j) (e' : toJson env true w = some j') : j.depth ≤ j'.depth := by
  induction h generalizing j j' with
  | character c => cases e; simp [SJValue.depth]
  | integer h =>
    simp only [toJson, Option.map_eq_some_iff] at e
    obtain ⟨n, e, rfl⟩ := e
    simp [SJValue.depth]
  | single h =>
    simp only [toJson, Option.map_eq_some_iff] at e
    obtain ⟨n, e, rfl⟩ := e
    simp [SJValue.depth]
  | cartesian h1 h2 =>
    simp only [toJson, imaginaryToJson, Option.bind_eq_bind, Option.bind_eq_some_iff] at e e'
    obtain ⟨r, _, i, _, e⟩ := e
    obtain ⟨r', _, i', _, e'⟩ := e'
    cases e; cases e'
    refine le_trans (depth_marked (types := true) (ty := .imaginary) (d := 0) (es := [(kReal, .number r), (kImaginary, .number i)])
      (by simp [SJValue.depth])) ?_
    simp only [SJValue.depth]
    omega
  | json h => cases e; exact depth_contents h hk e'
  | @array a b hl _ ih =>
    simp only [toJson, Option.map_eq_some_iff] at e e'
    obtain ⟨js, e, rfl⟩ := e
    obtain ⟨js', e', rfl⟩ := e'
    simp only [SJValue.depth]
    have h2 := toJsonList_forall₂ e
    refine Nat.add_le_add_left (depthList_le fun c hc => ?_) 1
    obtain ⟨i, hi⟩ := List.getElem?_of_mem hc
    have hia : i < a.length := by rw [h2.length_eq]; exact (List.getElem?_eq_some_iff.mp hi).1
    have hib : i < b.length := hl ▸ hia
    obtain ⟨j, e1, hd⟩ := list_depth e' (List.getElem?_eq_getElem hib)
    exact le_trans (ih i a[i] b[i] (List.getElem?_eq_getElem hia) (List.getElem?_eq_getElem hib)
      (keys_elem hk (List.getElem_mem hib)) (forall₂_get h2 i _ _ (List.getElem?_eq_getElem hia) hi) e1) hd
  | @map a b hl hkk _ ih =>
    simp only [toJson, Option.map_eq_some_iff] at e e'
    obtain ⟨js, e, rfl⟩ := e
    obtain ⟨js', e', rfl⟩ := e'
    simp only [SJValue.depth]
    refine Nat.add_le_add_left (depthEntries_le fun k c hc => ?_) 1
    obtain ⟨front, back, rfl, _⟩ := ((gathered_collect js).2 k c).mp hc
    obtain ⟨v, hv, e1⟩ := (entries_mem e k c).mp (by simp)
    obtain ⟨w, hw⟩ := (hkk k).mp ⟨v, hv⟩
    obtain ⟨j, e2, hd⟩ := entries_depth (hk _ (.refl _)) e' hw
    exact le_trans (ih k v w hv hw (keys_entry hk hw) e1 e2) hd
  | _ => rw [e, Option.some.injEq] at e'; exact e' ▸ le_rfl

/-- The JSON of a store is one that serde_json can make, if the JSON inside the store is. -/
theorem export_made {env : Env} {types : Bool} {s : Store} (hj : ∀ j, Sub (.json j) (.map s) → j.Made (fun _ => True))
    {j : SJValue} (e : Store.toJson env types s = some j) : j.Made (fun _ => True) := by
  rcases store_toJson e with ⟨v, rfl, e⟩ | e
  · exact toJson_made v (fun j hs => hj j (.map (List.mem_singleton_self _) hs)) j e
  · exact toJson_made _ hj j e

/-- Only a store whose JSON is nested at most 127 deep comes back from a text, whatever the text. -/
theorem C105_depth {env : Env} (hs : env.Serde) (hord : HashOrder env.mapOrd) {s s' : Store} {j : SJValue}
    (e : Store.toJson env true s = some j) {text : List Char} (e' : Store.fromJsonBytes env text = .ok s')
    (hw : Widened (.map s) (.map s')) : j.depth ≤ 127 := by
  obtain ⟨k, e1, e2⟩ := (C36_text_errors env text).2 s' e'
  rw [hs.parse] at e1
  obtain ⟨hmade, hdepth⟩ := C84_made e1
  have ht := tidy_store hord hmade e2
  have hkd := ht.facts.2.2.1
  obtain ⟨j2, e3, _⟩ := ht.written (P := fun _ => True) true fun _ _ => trivial
  have one : ∀ w, s' = [("JSON".toList, w)] → ∃ j3, Store.toJson env true s' = some j3 ∧ toJson env true w = some j3 := by
    rintro w rfl
    simp only [toJson, toJsonEntries, Option.bind_eq_bind, Option.map_eq_some_iff, Option.bind_eq_some_iff] at e3
    obtain ⟨_, ⟨j3, h3, _⟩, _⟩ := e3
    exact ⟨j3, by simpa [Store.toJson, SJValue.get, Store.kJson] using h3, h3⟩
  by_cases h1 : ∃ v, s = [("JSON".toList, v)]
  · obtain ⟨v, rfl⟩ := h1
    have e : toJson env true v = some j := by
      simpa [Store.toJson, SJValue.get, Store.kJson] using e
    obtain ⟨w, rfl, hvw⟩ : ∃ w, s' = [("JSON".toList, w)] ∧ Widened v w := by
      cases hw with
      | map hl hk h =>
        obtain ⟨⟨k', w⟩, rfl⟩ := List.length_eq_one_iff.mp hl.symm
        obtain ⟨w', hw'⟩ := (hk "JSON".toList).mp ⟨v, List.mem_singleton_self _⟩
        simp only [List.mem_singleton, Prod.mk.injEq] at hw'
        obtain ⟨rfl, rfl⟩ := hw'
        exact ⟨w', rfl, h _ v w' (List.mem_singleton_self _) (List.mem_singleton_self _)⟩
    obtain ⟨j3, h3, h4⟩ := one w rfl
    exact le_trans (depth_widened hvw (keys_entry hkd (List.mem_singleton_self _)) e h4)
      (le_trans (depth_store hord hmade e2 h3) hdepth)
  · have e : toJson env true (.map s) = some j := by
      rcases store_toJson e with ⟨v, h, _⟩ | e
      · exact absurd ⟨v, h⟩ h1
      · exact e
    have h2 : ¬ ∃ w, s' = [("JSON".toList, w)] := by
      rintro ⟨w, rfl⟩
      cases hw with
      | map hl hk h =>
        obtain ⟨⟨k', v⟩, rfl⟩ := List.length_eq_one_iff.mp hl
        obtain ⟨v', hv'⟩ := (hk "JSON".toList).mpr ⟨w, List.mem_singleton_self _⟩
        simp only [List.mem_singleton, Prod.mk.injEq] at hv'
        exact h1 ⟨v, by rw [hv'.1]⟩
    have h3 : Store.toJson env true s' = some j2 := by
      unfold Store.toJson
      split
      · rename_i w hw
        split at hw
        · rename_i h3
          obtain ⟨⟨k', x⟩, rfl⟩ := List.length_eq_one_iff.mp h3
          have := get_mem hw
          simp only [List.mem_singleton, Prod.mk.injEq] at this
          obtain ⟨rfl, rfl⟩ := this
          exact absurd ⟨w, rfl⟩ h2
        · cases hw
      · exact e3
    exact le_trans (depth_widened hw hkd e e3) (le_trans (depth_store hord hmade e2 h3) hdepth)

/-- C105 for each store with floats of few digits: its JSON text is imported as the store, up to the documented
widening, exactly if its JSON is (`C36_store_exact`) and is nested at most 127 deep. -/
theorem C105_exact {env : Env} (hs : env.Serde) (hord : HashOrder env.mapOrd) {s : Store}
    (hi : ∀ i, Sub (.integer i) (.map s) → i.Native)
    (hz : ∀ a b, Sub (.imaginary (.cartesian a b)) (.map s) → a.Native ∧ b.Native)
    (hk : KeysDistinct (.map s)) (hj : ∀ j, Sub (.json j) (.map s) → j.Made (fun _ => True)) {j : SJValue}
    (e : Store.toJson env true s = some j) (hf : ∀ x, SJValue.Sub (.number (.float x)) j → FewDigits x) {text : List Char}
    (ht : text = print j ∨ text = pretty 0 j) :
    (∃ s', Store.fromJsonBytes env text = .ok s' ∧ Widened (.map s) (.map s')) ↔
      j.depth ≤ 127 ∧ Jsonable env (.map s) ∧
        ∀ v, s = [("JSON".toList, v)] → (∀ m, v ≠ .map m) ∧ ∀ m, v ≠ .json (.object m) := by
  have hm := made_of_sub (export_made hj e) hf
  have reads : j.depth ≤ 127 → ∀ s', Store.fromJsonBytes env text = .ok s' ↔ Store.fromJson env j = .ok s' := by
    intro hd s'
    obtain ⟨p1, p2⟩ := C83_text_partial hm hd
    have p : parse text = some j := by
      rcases ht with rfl | rfl
      · exact p1
      · exact p2
    simp only [Store.fromJsonBytes, hs.parse, p]
    cases Store.fromJson env j <;> simp
  rw [← C36_store_exact hord hi hz hk hj]
  constructor
  · rintro ⟨s', e', hw⟩
    have hd := C105_depth hs hord e e' hw
    exact ⟨hd, j, s', e, (reads hd s').mp e', hw⟩
  · rintro ⟨hd, j', s', e1, e2, hw⟩
    rw [e, Option.some.injEq] at e1
    subst e1
    exact ⟨s', (reads hd s').mpr e2, hw⟩

/-- C105, in part: a store with any floats, only not too close to the largest one, is imported from its JSON text as
the store, up to the documented widening and the last digits of its floats. Missing: what `C105_exact` excludes,
deeply nested stores and timestamps among them. -/
theorem C105_near_partial {env : Env} (hs : env.Serde) (hord : HashOrder env.mapOrd) {s : Store}
    (h : Jsonable env (.map s)) (hJ : ∀ v, s = [("JSON".toList, v)] → (∀ m, v ≠ .map m) ∧ ∀ m, v ≠ .json (.object m))
    (hj : ∀ j, Sub (.json j) (.map s) → j.Made (fun _ => True)) {j : SJValue}
    (e : Store.toJson env true s = some j) (hf : ∀ x, SJValue.Sub (.number (.float x)) j → |f64Value x| ≤ 17975 * 10 ^ 304)
    (hd : j.depth ≤ 127) :
    ∃ w s', Widened (.map s) (.map w) ∧ NearTo (.map w) (.map s') ∧ Store.fromJsonBytes env (print j) = .ok s' ∧
      Store.fromJsonBytes env (pretty 0 j) = .ok s' := by
  obtain ⟨j', w, e1, e2, hw⟩ := C36_store_partial hord h hJ
  rw [e, Option.some.injEq] at e1
  subst e1
  have hm := export_made hj e
  obtain ⟨j'', hn, p1, p2⟩ := C83_near_partial (made_of_sub hm hf) hd
  obtain ⟨s', e5, hn'⟩ := store_near hord hn hm e2
  refine ⟨w, s', hw, hn', ?_, ?_⟩
  · simp only [Store.fromJsonBytes, hs.parse, p1, e5]
  · simp only [Store.fromJsonBytes, hs.parse, p2, e5]

-- an address and a character come back from the text, the character as a string
example : ∃ j s', Store.toJson serdeEnv true [(['a'], .array [.ipv4 127 0 0 1, .character 'x'])] = some j ∧
    Store.fromJsonBytes serdeEnv (print j) = .ok s' ∧
    Widened (.map [(['a'], .array [.ipv4 127 0 0 1, .character 'x'])]) (.map s') := by
  have subs : ∀ x, Sub x (.map [(['a'], .array [.ipv4 127 0 0 1, .character 'x'])]) →
      x = .map [(['a'], .array [.ipv4 127 0 0 1, .character 'x'])] ∨ (∃ a, x = .array a) ∨ x = .ipv4 127 0 0 1 ∨ x = .character 'x' := by
    intro x h
    rcases h with _ | _ | ⟨hm, h⟩
    · exact .inl rfl
    · simp only [List.mem_singleton, Prod.mk.injEq] at hm
      obtain ⟨_, rfl⟩ := hm
      rcases h with _ | ⟨hm, h⟩
      · exact .inr (.inl ⟨_, rfl⟩)
      · simp only [List.mem_cons, List.not_mem_nil, or_false] at hm
        rcases hm with rfl | rfl <;> cases h
        · exact .inr (.inr (.inl rfl))
        · exact .inr (.inr (.inr rfl))
  have e : Store.toJson serdeEnv true [(['a'], .array [.ipv4 127 0 0 1, .character 'x'])] = some (.object [(['a'], .array
      [.object [(kOctets, .array [num 127, num 0, num 0, num 1]), (kTy, num 13)], .string ['x']])]) := rfl
  have nofloat : ∀ x, ¬ SJValue.Sub (.number (.float x)) (.object [(['a'], .array
      [.object [(kOctets, .array [num 127, num 0, num 0, num 1]), (kTy, num 13)], .string ['x']])]) := by
    intro x h
    rcases h with _ | _ | ⟨hm, h⟩
    simp only [List.mem_singleton, Prod.mk.injEq] at hm
    obtain ⟨_, rfl⟩ := hm
    rcases h with _ | ⟨hm, h⟩
    simp only [List.mem_cons, List.not_mem_nil, or_false] at hm
    rcases hm with rfl | rfl
    · rcases h with _ | _ | ⟨hm, h⟩
      simp only [List.mem_cons, List.not_mem_nil, or_false, Prod.mk.injEq] at hm
      rcases hm with ⟨_, rfl⟩ | ⟨_, rfl⟩
      · rcases h with _ | ⟨hm, h⟩
        simp only [List.mem_cons, List.not_mem_nil, or_false] at hm
        rcases hm with rfl | rfl | rfl | rfl <;> cases h
      · cases h
    · cases h
  obtain ⟨s', h1, h2⟩ := (C105_exact serdeEnv_serde (fun l => .refl l) (fun i h => by simpa using subs _ h)
    (fun a b h => by simpa using subs _ h) (fun m h => by
      rcases subs _ h with h | ⟨a, h⟩ | h | h <;> cases h
      simp) (fun j h => by simpa using subs _ h) e
    (fun x h => absurd h (nofloat x)) (.inl rfl)).mpr ⟨by decide, .map (by simp) (by simp [LooksMarked]) (by
      simp only [List.mem_singleton, Prod.mk.injEq]
      rintro k v ⟨rfl, rfl⟩
      refine .array ?_
      simp only [List.mem_cons, List.not_mem_nil, or_false, forall_eq_or_imp, forall_eq]
      exact ⟨.ipv4 .., .character _⟩), by simp⟩
  exact ⟨_, s', e, h1, h2⟩

/-- Arrays in arrays. -/
def nested : Nat → Value
  | 0 => .null
  | n + 1 => .array [nested n]

theorem nested_json {env : Env} (n : Nat) : ∃ j, toJson env true (nested n) = some j ∧ j.depth = n ∧ Jsonable env (nested n) := by
  induction n with
  | zero => exact ⟨.null, by simp [nested, toJson], rfl, .null⟩
  | succ n ih =>
    obtain ⟨j, e, hd, hj⟩ := ih
    exact ⟨.array [j], by simp [nested, toJson, toJsonList, e], by simp [SJValue.depth, SJValue.depthList, hd]; omega,
      .array (by simpa using hj)⟩

/-- **C105** is violated by nesting: arrays in 127 or more arrays under a key are exported, and come back as JSON, but
there is no text from which they are imported. -/
theorem C105_refuted_deep {env : Env} (hs : env.Serde) (hord : HashOrder env.mapOrd) {n : Nat} (hn : 127 ≤ n) :
    ∃ j s', Store.toJson env true [(['a'], nested n)] = some j ∧ Store.fromJson env j = .ok s' ∧
      Widened (.map [(['a'], nested n)]) (.map s') ∧
      ∀ text s'', Store.fromJsonBytes env text = .ok s'' → ¬ Widened (.map [(['a'], nested n)]) (.map s'') := by
  obtain ⟨j, e, hd, hj⟩ := nested_json (env := env) n
  have e' : Store.toJson env true [(['a'], nested n)] = some (.object [(['a'], j)]) := by
    simp [Store.toJson, SJValue.get, Store.kJson, toJsonEntries, e, SJValue.collect, SJValue.insert]
  obtain ⟨j', s', e1, e2, hw⟩ := C36_store_partial (env := env) hord (s := [(['a'], nested n)])
    (.map (by simp) (by simp [LooksMarked]) (by simpa using hj)) (by simp)
  rw [e', Option.some.injEq] at e1
  subst e1
  refine ⟨_, s', e', e2, hw, fun text s'' h hw' => ?_⟩
  have := C105_depth hs hord e' h hw'
  simp only [SJValue.depth, SJValue.depthEntries] at this
  omega

/-- **C105** is violated by floats with many digits. -/
theorem C105_refuted_float {env : Env} (hs : env.Serde) : ∃ j s', Store.toJson env true [("JSON".toList, .double 0x433FFFFFFFFFFFFF)] = some j ∧
    Store.fromJsonBytes env (print j) = .ok s' ∧ ¬ Widened (.map [("JSON".toList, .double 0x433FFFFFFFFFFFFF)]) (.map s') := by
  refine ⟨.number (.float 0x433FFFFFFFFFFFFF), [("JSON".toList, .double 0x433FFFFFFFFFFFFE)], ?_, ?_, ?_⟩
  · have : SJValue.ofF64 0x433FFFFFFFFFFFFF = some (.float 0x433FFFFFFFFFFFFF) := by decide +kernel
    simp [Store.toJson, toJson, SJValue.get, Store.kJson, this]
  · unfold Store.fromJsonBytes
    rw [hs.parse, parse_witness.1, parse_witness.2]
    rfl
  · intro h
    cases h with
    | map _ _ h =>
      have := h "JSON".toList _ _ (List.mem_singleton_self _) (List.mem_singleton_self _)
      generalize hx : (0x433FFFFFFFFFFFFF : UInt64) = x at this
      generalize hy : (0x433FFFFFFFFFFFFE : UInt64) = y at this
      cases this
      exact absurd (hx.trans hy.symm) (by decide)

/-- **C105** is violated by every store that holds a timestamp. -/
theorem C105_refuted_timestamp {env : Env} (hs : env.Serde) (hc : env.Chrono) (hord : HashOrder env.mapOrd) {s : Store}
    (hi : ∀ i, Sub (.integer i) (.map s) → i.Native)
    (hz : ∀ a b, Sub (.imaginary (.cartesian a b)) (.map s) → a.Native ∧ b.Native)
    (hk : KeysDistinct (.map s)) (hj : ∀ j, Sub (.json j) (.map s) → j.Made (fun _ => True)) {j : SJValue}
    (e : Store.toJson env true s = some j) (hf : ∀ x, SJValue.Sub (.number (.float x)) j → FewDigits x) {text : List Char}
    (ht : text = print j ∨ text = pretty 0 j) {t : Timestamp} (hsub : Sub (.timestamp t) (.map s)) (hv : t.Valid) :
    ¬ ∃ s', Store.fromJsonBytes env text = .ok s' ∧ Widened (.map s) (.map s') := fun h =>
  jsonable_no_timestamp hc ((C105_exact hs hord hi hz hk hj e hf ht).mp h).2.1 hsub hv

-- a store with a float that changes
example : ∃ j w s', Store.toJson serdeEnv true [("JSON".toList, .double 0x433FFFFFFFFFFFFF)] = some j ∧
    Widened (.map [("JSON".toList, .double 0x433FFFFFFFFFFFFF)]) (.map w) ∧ NearTo (.map w) (.map s') ∧
    Store.fromJsonBytes serdeEnv (print j) = .ok s' := by
  have e : Store.toJson serdeEnv true [("JSON".toList, .double 0x433FFFFFFFFFFFFF)] = some (.number (.float 0x433FFFFFFFFFFFFF)) := by
    have : SJValue.ofF64 0x433FFFFFFFFFFFFF = some (.float 0x433FFFFFFFFFFFFF) := by decide +kernel
    simp [Store.toJson, toJson, SJValue.get, Store.kJson, this]
  obtain ⟨w, s', h1, h2, h3, _⟩ := C105_near_partial (s := [("JSON".toList, .double 0x433FFFFFFFFFFFFF)]) serdeEnv_serde
    (fun l => .refl l) (.map (by simp) (by simp [LooksMarked]) (by
      simp only [List.mem_singleton, Prod.mk.injEq]
      rintro k v ⟨rfl, rfl⟩
      exact .double (by decide +kernel))) (by simp) (fun j h => by
      rcases h with _ | _ | ⟨hm, h⟩
      simp only [List.mem_singleton, Prod.mk.injEq] at hm
      obtain ⟨_, rfl⟩ := hm
      cases h) e (fun x h => by
      cases h
      have h1 : |f64Value 0x433FFFFFFFFFFFFF| ≤ 10 ^ 304 := by
        have : |f64Value 0x433FFFFFFFFFFFFF| ≤ 10 ^ 16 := by decide +kernel
        exact this.trans (pow_le_pow_right₀ (by norm_num) (by norm_num))
      have h2 : (1 : ℚ) * 10 ^ 304 ≤ 17975 * 10 ^ 304 := mul_le_mul_of_nonneg_right (by norm_num) (by positivity)
      rw [one_mul] at h2
      exact h1.trans h2) (by decide)
  exact ⟨_, w, s', e, h1, h2, h3⟩

end Souris
