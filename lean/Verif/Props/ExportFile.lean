import Verif.Props.JsonExport

/-! # C71: the exported file is imported -/

namespace Souris

open Value SerdeJson Mouse Cli

/-- What `ExportToJSON` writes is the indented text of the store's JSON. -/
theorem exported_text {env : Env} {T : Term} {path name : List Char} {types : Bool} {store : Store} {s : Session} {text : List Char}
    (hx : (exportTo env T path types name store s).2.log.getLast? = some (.wrote path text)) {j : SJValue}
    (e : Store.toJson env types store = some j) : text = env.jsonPretty j := by
  rcases (C71_export env T path types name store s).2 with ⟨j', h1, _, _, _, said, h2, _⟩ | ⟨j', h1, h2, h3⟩ | ⟨h1, _⟩
  · rw [e, Option.some.injEq] at h1
    subst h1
    rw [h2] at hx
    simp at hx
    exact hx.symm
  · unfold exportTo at hx
    rw [tell_bind, e] at hx
    simp only at hx
    rw [tell_bind] at hx
    rcases h2 with h2 | h2 <;> rw [h2] at hx <;> simp [lift] at hx
  · rw [e] at h1; cases h1

theorem import_file {env : Env} {T : Term} {path text : List Char} (hf : T.files path = .file (utf8 text)) (store : Store) :
    (∃ bytes, readFile T path = .ok bytes ∧ jsonStore env bytes = .ok store) ↔ Store.fromJsonBytes env text = .ok store := by
  have h1 : readFile T path = .ok (utf8 text) := by simp only [readFile, hf]
  have h2 : jsonStore env (utf8 text) = .ok store ↔ Store.fromJsonBytes env text = .ok store := by
    unfold jsonStore
    rw [utf8Decode_utf8]
    cases h : Store.fromJsonBytes env text <;> simp [Out.mapErr, h]
  rw [h1]
  constructor
  · rintro ⟨bytes, e, h⟩
    cases e
    exact h2.mp h
  · exact fun h => ⟨_, rfl, h2.mpr h⟩

/-- C71 for each store with floats of few digits: the file that `ExportToJSON` with types wrote is imported as the
store, up to the documented widening, exactly if its JSON is and is nested at most 127 deep. -/
theorem C71_exact {env : Env} (he : env.Serde) (hord : HashOrder env.mapOrd) (T T' : Term) (path name : List Char)
    {store : Store} (hi : ∀ i, Sub (.integer i) (.map store) → i.Native)
    (hz : ∀ a b, Sub (.imaginary (.cartesian a b)) (.map store) → a.Native ∧ b.Native)
    (hk : KeysDistinct (.map store)) (hj : ∀ j, Sub (.json j) (.map store) → j.Made (fun _ => True)) {j : SJValue}
    (e : Store.toJson env true store = some j) (hd : ∀ x, SJValue.Sub (.number (.float x)) j → FewDigits x) (s : Session)
    {text : List Char} (hx : (exportTo env T path true name store s).2.log.getLast? = some (.wrote path text))
    (hf : T'.files path = .file (utf8 text)) :
    (∃ bytes store', readFile T' path = .ok bytes ∧ jsonStore env bytes = .ok store' ∧ Widened (.map store) (.map store')) ↔
      j.depth ≤ 127 ∧ Jsonable env (.map store) ∧
        ∀ v, store = [("JSON".toList, v)] → (∀ m, v ≠ .map m) ∧ ∀ m, v ≠ .json (.object m) := by
  have ht := exported_text hx e
  rw [he.pretty] at ht
  rw [← C105_exact he hord hi hz hk hj e hd (.inr ht)]
  constructor
  · rintro ⟨bytes, store', h1, h2, hw⟩
    exact ⟨store', (import_file hf store').mp ⟨bytes, h1, h2⟩, hw⟩
  · rintro ⟨store', h, hw⟩
    obtain ⟨bytes, h1, h2⟩ := (import_file hf store').mpr h
    exact ⟨bytes, store', h1, h2, hw⟩

/-- C71, in part: with any floats, only not too close to the largest one, the exported file is imported as the store, up
to the documented widening and the last digits of floats. Missing: what `C71_exact` excludes. -/
theorem C71_near_partial {env : Env} (he : env.Serde) (hord : HashOrder env.mapOrd) (T T' : Term) (path name : List Char)
    {store : Store} (h : Jsonable env (.map store))
    (hno : ∀ v, store = [("JSON".toList, v)] → (∀ m, v ≠ .map m) ∧ ∀ m, v ≠ .json (.object m))
    (hj : ∀ j, Sub (.json j) (.map store) → j.Made (fun _ => True)) {j : SJValue} (e : Store.toJson env true store = some j)
    (hd : ∀ x, SJValue.Sub (.number (.float x)) j → |f64Value x| ≤ 17975 * 10 ^ 304) (hdepth : j.depth ≤ 127) (s : Session)
    {text : List Char} (hx : (exportTo env T path true name store s).2.log.getLast? = some (.wrote path text))
    (hf : T'.files path = .file (utf8 text)) :
    ∃ bytes w store', readFile T' path = .ok bytes ∧ jsonStore env bytes = .ok store' ∧
      Widened (.map store) (.map w) ∧ NearTo (.map w) (.map store') := by
  have ht := exported_text hx e
  rw [he.pretty] at ht
  obtain ⟨w, store', hw, hn, _, h2⟩ := C105_near_partial he hord h hno hj e hd hdepth
  obtain ⟨bytes, h3, h4⟩ := (import_file hf store').mpr (ht ▸ h2)
  exact ⟨bytes, w, store', h3, h4, hw, hn⟩

-- a store with an entry, exported and imported
example : ∃ text, (exportTo serdeEnv sampleTerm ['o'] true ['d'] [(['k'], .boolean true)] (sampleStart [])).2.log.getLast? =
      some (.wrote ['o'] text) ∧
    ∃ bytes store', readFile { sampleTerm with files := fun _ => .file (utf8 text) } ['o'] = .ok bytes ∧
      jsonStore serdeEnv bytes = .ok store' ∧ Widened (.map [(['k'], .boolean true)]) (.map store') := by
  refine ⟨_, rfl, ?_⟩
  have subs : ∀ x, Sub x (.map [(['k'], .boolean true)]) → x = .map [(['k'], .boolean true)] ∨ x = .boolean true := by
    intro x h
    rcases h with _ | _ | ⟨hm, h⟩
    · exact .inl rfl
    · simp only [List.mem_singleton, Prod.mk.injEq] at hm
      obtain ⟨_, rfl⟩ := hm
      cases h
      exact .inr rfl
  refine (C71_exact (T := sampleTerm) (T' := { sampleTerm with files := fun _ => .file (utf8 _) }) (path := ['o']) (name := ['d'])
    (j := .object [(['k'], .bool true)]) serdeEnv_serde (fun l => .refl l) (fun i h => by simpa using subs _ h)
    (fun a b h => by simpa using subs _ h) (fun m h => by
      rcases subs _ h with h | h <;> cases h
      simp) (fun j h => by simpa using subs _ h) rfl (fun x h => by
      rcases h with _ | _ | ⟨hm, h⟩
      simp only [List.mem_singleton, Prod.mk.injEq] at hm
      obtain ⟨_, rfl⟩ := hm
      cases h) (sampleStart []) rfl rfl).mpr ⟨by decide, .map (by simp) (by simp [LooksMarked]) (by
      simp only [List.mem_singleton, Prod.mk.injEq]
      rintro k v ⟨rfl, rfl⟩
      exact .boolean _), by simp⟩

end Souris
