import Verif.Props.JsonSettles
import Verif.Props.JsonUse

/-! # C103 for texts -/

namespace Souris

open Value SerdeJson

theorem depth_mem {a : List SJValue} {j : SJValue} (h : j ∈ a) : j.depth ≤ SJValue.depthList a := by
  induction a with
  | nil => cases h
  | cons x a ih =>
    simp only [SJValue.depthList]
    rcases List.mem_cons.mp h with rfl | h
    · omega
    · have := ih h
      omega

theorem depth_entry {m : List (List Char × SJValue)} {k : List Char} {j : SJValue} (h : (k, j) ∈ m) :
    j.depth ≤ SJValue.depthEntries m := by
  induction m with
  | nil => cases h
  | cons x m ih =>
    obtain ⟨k', x⟩ := x
    simp only [SJValue.depthEntries]
    rcases List.mem_cons.mp h with h | h
    · cases h; omega
    · have := ih h
      omega

theorem depth_nums (a : List Nat) : SJValue.depth (.array (a.map num)) = 1 := by
  have : SJValue.depthList (a.map num) ≤ 0 := depthList_le fun j hj => by
    obtain ⟨n, _, rfl⟩ := List.mem_map.mp hj
    simp [num, SJValue.depth]
  simp only [SJValue.depth]
  omega

theorem depth_marked {types : Bool} {ty : ValueTy} {d : Nat} {es : List (List Char × SJValue)} (h : ∀ e ∈ es, e.2.depth ≤ d) :
    (SJValue.object (es.foldl (fun m e => SJValue.insert e.1 e.2 m) (marked types ty))).depth ≤ 1 + d := by
  have : ∀ m : List (List Char × SJValue), (∀ e ∈ m, e.2.depth ≤ d) →
      (SJValue.object (es.foldl (fun m e => SJValue.insert e.1 e.2 m) m)).depth ≤ 1 + d := by
    induction es with
    | nil =>
      intro m h2
      simp only [List.foldl_nil, SJValue.depth]
      have := depthEntries_le (es := m) (d := d) fun k v hv => h2 _ hv
      omega
    | cons e es ih =>
      intro m h2
      refine ih (fun e he => h e (List.mem_cons_of_mem _ he)) _ fun x hx => ?_
      rcases insert_mem hx with rfl | hx
      · exact h _ List.mem_cons_self
      · exact h2 x hx
  refine this _ ?_
  unfold marked
  split
  · intro e he
    simp only [SJValue.insert, List.mem_singleton] at he
    subst he
    simp [num, SJValue.depth]
  · simp

theorem depth_read_marked {env : Env} {ty : ValueTy} {m : List (List Char × SJValue)} {v : Value}
    (e : fromMarked env ty m = .ok v) {j : SJValue} (e' : toJson env true v = some j) :
    j.depth ≤ SJValue.depth (.object m) := by
  have two : ∀ k a, SJValue.get k m = some (.array a) → 2 ≤ SJValue.depth (.object m) := fun k a h => by
    have := depth_entry (get_mem h)
    simp only [SJValue.depth] at this ⊢
    omega
  have one : 1 ≤ SJValue.depth (.object m) := by simp only [SJValue.depth]; omega
  cases ty <;> simp only [fromMarked] at e
  case imaginary =>
    have hz : ∃ z, v = .imaginary z := by
      repeat' split at e
      all_goals first | cases e; exact ⟨_, rfl⟩ | cases e
    obtain ⟨z, rfl⟩ := hz
    refine le_trans ?_ one
    cases z with
    | cartesian a b =>
      simp only [toJson, imaginaryToJson, Option.bind_eq_bind, Option.bind_eq_some_iff] at e'
      obtain ⟨r, _, i, _, e'⟩ := e'
      cases e'
      exact depth_marked (types := true) (ty := .imaginary) (d := 0) (es := [(kReal, .number r), (kImaginary, .number i)]) (by simp [SJValue.depth])
    | polar a b =>
      simp only [toJson, imaginaryToJson, Option.bind_eq_bind, Option.bind_eq_some_iff] at e'
      obtain ⟨r, _, i, _, e'⟩ := e'
      cases e'
      exact depth_marked (types := true) (ty := .imaginary) (d := 0) (es := [(kModulus, .number r), (kArgument, .number i)]) (by simp [SJValue.depth])
  case timestamp =>
    split at e
    · split at e
      · cases e; cases e'
        exact le_trans (depth_marked (types := true) (ty := .timestamp) (d := 0) (es := [(kTimestamp, .string _)]) (by simp [SJValue.depth])) one
      · cases e
    · cases e
  case timezone =>
    split at e
    · split at e
      · cases e; cases e'
        exact le_trans (depth_marked (types := true) (ty := .timezone) (d := 0) (es := [(kTimezone, .string _)]) (by simp [SJValue.depth])) one
      · cases e
    · cases e
  case binary =>
    split at e
    · rename_i a h
      split at e
      · rename_i b _
        cases e; cases e'
        have hd := depth_nums ((b.map UInt8.ofNat).map UInt8.toNat)
        rw [List.map_map] at hd
        exact le_trans (depth_marked (types := true) (ty := .binary) (d := 1) (es := [(kBytes, .array ((b.map UInt8.ofNat).map (num ∘ UInt8.toNat)))]) (by
          simp only [List.mem_singleton, forall_eq]; omega)) (two _ _ h)
      · cases e
    · cases e
  case ipv4Addr =>
    split at e
    · rename_i h
      split at e
      · cases e; cases e'
        exact le_trans (depth_marked (types := true) (d := 1) (es := [(kOctets, .array (List.map num _))]) (by
          simp only [List.mem_singleton, forall_eq]; exact (depth_nums _).le)) (two _ _ h)
      · cases e
    · cases e
  case ipv6Addr =>
    split at e
    · rename_i h
      split at e
      · cases e; cases e'
        exact le_trans (depth_marked (types := true) (d := 1) (es := [(kOctets, .array (List.map num _))]) (by
          simp only [List.mem_singleton, forall_eq]; exact (depth_nums _).le)) (two _ _ h)
      · cases e
    · cases e
  all_goals cases e

/-- What was read from JSON is written as JSON that is nested no deeper. -/
theorem depth_read {env : Env} (hord : HashOrder env.mapOrd) (j : SJValue) :
    j.Made (fun _ => True) → ∀ v, fromJson env j = .ok v → ∀ j', toJson env true v = some j' → j'.depth ≤ j.depth := by
  induction j using SJValue.induct with
  | h j ha hm =>
    intro hmade v e j' e'
    cases j with
    | null => cases e; cases e'; exact le_rfl
    | bool b => cases e; cases e'; exact le_rfl
    | string s => cases e; cases e'; exact le_rfl
    | number n =>
      simp only [fromJson] at e
      split at e
      · cases e
        simp only [toJson, Option.map_eq_some_iff] at e'
        obtain ⟨n', _, rfl⟩ := e'
        simp [SJValue.depth]
      · split at e
        · cases e
          simp only [toJson, Option.map_eq_some_iff] at e'
          obtain ⟨n', _, rfl⟩ := e'
          simp [SJValue.depth]
        · cases e
    | array a =>
      cases hmade with
      | array h =>
        simp only [fromJson] at e
        rw [Out.bind_eq_ok] at e
        obtain ⟨b, e1, e⟩ := e
        cases e
        have h2 := fromJsonList_forall₂ e1
        simp only [toJson, Option.map_eq_some_iff] at e'
        obtain ⟨js, e', rfl⟩ := e'
        have h3 := toJsonList_forall₂ e'
        simp only [SJValue.depth]
        refine Nat.add_le_add_left (depthList_le fun j' hj' => ?_) 1
        obtain ⟨i, hi⟩ := List.getElem?_of_mem hj'
        have hib : i < b.length := by
          rw [h3.length_eq]
          exact (List.getElem?_eq_some_iff.mp hi).1
        have hia : i < a.length := by rw [h2.length_eq]; exact hib
        refine le_trans (ha a rfl _ (List.getElem_mem hia) (h _ (List.getElem_mem hia)) b[i]
          (forall₂_get h2 i _ _ (List.getElem?_eq_getElem hia) (List.getElem?_eq_getElem hib)) j'
          (forall₂_get h3 i _ _ (List.getElem?_eq_getElem hib) hi)) (depth_mem (List.getElem_mem hia))
    | object m =>
      cases hmade with
      | object ho h =>
        simp only [fromJson] at e
        split at e
        · exact depth_read_marked e e'
        · rw [Out.bind_eq_ok] at e
          obtain ⟨b, e1, e⟩ := e
          cases e
          have hk := made_nodup ho
          have h2 := fromJsonEntries_forall₂ e1
          have hkeys := forall₂_keys (R := fun j w => fromJson env j = .ok w) h2
          rw [collectMap_eq (hkeys ▸ hk)] at e'
          simp only [toJson, Option.map_eq_some_iff] at e'
          obtain ⟨js, e', rfl⟩ := e'
          simp only [SJValue.depth]
          refine Nat.add_le_add_left (depthEntries_le fun k j' hj' => ?_) 1
          obtain ⟨front, back, rfl, _⟩ := ((gathered_collect js).2 k j').mp hj'
          obtain ⟨w, hw, e3⟩ := (entries_mem e' k j').mp (by simp)
          obtain ⟨i, hi⟩ := List.getElem?_of_mem ((hord b).mem_iff.mp hw)
          have hi' : i < m.length := by
            rw [h2.length_eq]
            exact (List.getElem?_eq_some_iff.mp hi).1
          obtain ⟨h3, h4⟩ := forall₂_get h2 i _ _ (List.getElem?_eq_getElem hi') hi
          have hmem := List.getElem_mem hi'
          exact le_trans (hm m rfl m[i].1 m[i].2 hmem (h _ _ hmem) w h4 j' e3) (depth_entry hmem)

theorem depth_store {env : Env} (hord : HashOrder env.mapOrd) {j : SJValue} (hj : j.Made (fun _ => True)) {s : Store}
    (e : Store.fromJson env j = .ok s) {j' : SJValue} (e' : Store.toJson env true s = some j') : j'.depth ≤ j.depth := by
  have ht := tidy_store hord hj e
  have hd := depth_read hord j hj
  have all : ∀ v, toJson env true v = some j' → s = [("JSON".toList, v)] → fromJson env j = .ok (.map s) → j'.depth ≤ j.depth := by
    rintro v e1 rfl e2
    have e3 : toJson env true (.map [("JSON".toList, v)]) = some (.object [("JSON".toList, j')]) := by
      simp [toJson, toJsonEntries, e1, SJValue.collect, SJValue.insert]
    have := hd _ e2 _ e3
    simp only [SJValue.depth, SJValue.depthEntries] at this
    omega
  unfold Store.fromJson at e
  cases h : fromJson env j with
  | ok x =>
    rw [h] at e
    have one : ∀ x, fromJson env j = .ok x → s = [(Store.kJson, x)] → j'.depth ≤ j.depth := by
      rintro x h rfl
      have e1 : toJson env true x = some j' := by
        simpa [Store.toJson, SJValue.get] using e'
      exact hd x h j' e1
    cases x with
    | map m =>
      cases e
      rcases store_toJson e' with ⟨v, rfl, e1⟩ | e1
      · exact all v e1 rfl h
      · exact hd _ h j' e1
    | _ => cases e; exact one _ h rfl
  | err x => rw [h] at e; cases e
  | panic x => rw [h] at e; cases e

/-- C103 for texts, in part: a store that was imported from a JSON text is the same after it was exported as a text,
compact or indented, and imported once more. Missing: stores with timestamps (`C103_refuted_timestamp`), with floats
that need more digits than serde_json reads exactly, and one map under the key `JSON` (`C103_store_exact`). -/
theorem C103_text_partial {env : Env} (hs : env.Serde) (hord : HashOrder env.mapOrd) {text : List Char} {s : Store}
    (e : Store.fromJsonBytes env text = .ok s) (ht : ∀ t, ¬ Sub (.timestamp t) (.map s))
    (hf : ∀ x, HasFloat x (.map s) → FewDigits x) (hm : ∀ m, s ≠ [("JSON".toList, .map m)]) :
    ∃ j s', Store.toJson env true s = some j ∧ Store.fromJsonBytes env (print j) = .ok s' ∧
      Store.fromJsonBytes env (pretty 0 j) = .ok s' ∧ SameAs (.map s) (.map s') := by
  obtain ⟨j, e1, e2⟩ := (C36_text_errors env text).2 s e
  rw [hs.parse] at e1
  obtain ⟨hmade, hdepth⟩ := C84_made e1
  obtain ⟨j', s', e3, e4, h⟩ := (C103_store_exact hord hmade e2).mpr ⟨fun t h => absurd h (ht t), hm⟩
  have hmade' : j'.Made FewDigits := by
    have htidy := tidy_store hord hmade e2
    rcases store_toJson e3 with ⟨v, rfl, e5⟩ | e5
    · cases htidy
      rename_i h
      obtain ⟨j'', e6, hm⟩ := (h _ v (List.mem_singleton_self _)).written (P := FewDigits) true
        fun x hx => hf x (hx.map (List.mem_singleton_self _))
      rw [e5, Option.some.injEq] at e6
      exact e6 ▸ hm
    · obtain ⟨j'', e6, hm⟩ := htidy.written (P := FewDigits) true hf
      rw [e5, Option.some.injEq] at e6
      exact e6 ▸ hm
  obtain ⟨p1, p2⟩ := C83_text_partial hmade' (le_trans (depth_store hord hmade e2 e3) hdepth)
  refine ⟨j', s', e3, ?_, ?_, h⟩
  · simp only [Store.fromJsonBytes, hs.parse, p1, e4]
  · simp only [Store.fromJsonBytes, hs.parse, p2, e4]

-- an address and a number, in a text
example : ∃ text s j s', Store.fromJsonBytes serdeEnv text = .ok s ∧
    s = [("JSON".toList, .array [.ipv4 127 0 0 1, .integer (Integer.ofSigned 8 (-5))])] ∧
    Store.toJson serdeEnv true s = some j ∧ Store.fromJsonBytes serdeEnv (print j) = .ok s' ∧
    SameAs (.map s) (.map s') := by
  have hm : SJValue.Made FewDigits (.array [.object [(kOctets, .array [.number (.posInt 127), .number (.posInt 0),
      .number (.posInt 0), .number (.posInt 1)]), (kTy, .number (.posInt 13))], .number (.negInt (-5))]) := by
    refine .array ?_
    simp only [List.mem_cons, List.not_mem_nil, or_false, forall_eq_or_imp, forall_eq]
    refine ⟨.object (by decide) ?_, .negInt (by decide) (by decide)⟩
    simp only [List.mem_cons, List.not_mem_nil, or_false, Prod.mk.injEq]
    rintro k j (⟨rfl, rfl⟩ | ⟨rfl, rfl⟩)
    · refine .array ?_
      simp only [List.mem_cons, List.not_mem_nil, or_false, forall_eq_or_imp, forall_eq]
      exact ⟨.posInt (by decide), .posInt (by decide), .posInt (by decide), .posInt (by decide)⟩
    · exact .posInt (by decide)
  obtain ⟨p, -⟩ := C83_text_partial hm (by simp [SJValue.depth, SJValue.depthList, SJValue.depthEntries])
  have e : Store.fromJsonBytes serdeEnv (print (.array [.object [(kOctets, .array [.number (.posInt 127), .number (.posInt 0),
      .number (.posInt 0), .number (.posInt 1)]), (kTy, .number (.posInt 13))], .number (.negInt (-5))])) =
      .ok [("JSON".toList, .array [.ipv4 127 0 0 1, .integer (Integer.ofSigned 8 (-5))])] := by
    unfold Store.fromJsonBytes
    rw [serdeEnv_serde.parse, p]
    rfl
  have subs : ∀ x, Sub x (.map [("JSON".toList, .array [.ipv4 127 0 0 1, .integer (Integer.ofSigned 8 (-5))])]) →
      (∃ m, x = .map m) ∨ (∃ a, x = .array a) ∨ x = .ipv4 127 0 0 1 ∨ ∃ i, x = .integer i := by
    intro x h
    rcases h with _ | _ | ⟨hm, h⟩
    · exact .inl ⟨_, rfl⟩
    · simp only [List.mem_singleton, Prod.mk.injEq] at hm
      obtain ⟨_, rfl⟩ := hm
      rcases h with _ | ⟨hm, h⟩
      · exact .inr (.inl ⟨_, rfl⟩)
      · simp only [List.mem_cons, List.not_mem_nil, or_false] at hm
        rcases hm with rfl | rfl <;> cases h
        · exact .inr (.inr (.inl rfl))
        · exact .inr (.inr (.inr ⟨_, rfl⟩))
  obtain ⟨j, s', h1, h2, _, h3⟩ := C103_text_partial serdeEnv_serde (fun l => .refl l) e (fun t h => by simpa using subs _ h)
    (fun x h => by rcases h with h | ⟨y, h | h⟩ <;> simpa using subs _ h) (by simp)
  exact ⟨_, _, j, s', e, rfl, h1, h2, h3⟩

end Souris
