import Verif.Model.StoreSerde
import Verif.Props.Store

/-! # Property C62: `Store::to_bytes` and `Store::from_bytes`; C36 from JSON text -/

namespace Souris

/-- What the derives promise: a value that can be written is read back. -/
def SerdeType.Faithful {T : Type} (S : SerdeType T) : Prop := ∀ t v, S.toValue t = some v → S.ofValue v = some t

/-- C62 is violated by every type and value: `from_bytes` succeeds for no input. -/
theorem C62_refuted (env : Env) {T : Type} (S : SerdeType T) (bytes : List UInt8) (t : T) :
    Store.fromBytes env S bytes ≠ .ok t := by
  unfold Store.fromBytes
  cases h : Store.deser env bytes with
  | ok s => exact absurd h (C33_refuted env bytes s)
  | err e => simp
  | panic p => simp

/-- C62, partial: a value whose JSON has no marked objects is written, and what is written are the bytes of a
store that, converted as `from_bytes` would, is the value. Missing: that `Store::deser` returns that store
(it never does, `C33_refuted`), JSON with marked objects, and a JSON object whose only member is `JSON`. -/
theorem C62_types_partial {env : Env} (hord : HashOrder env.mapOrd) (hb : HashOrder env.byteOrd)
    (hch : HashOrder env.charOrd) {T : Type} {S : SerdeType T} (hS : S.Faithful) {t : T} {j : SJValue}
    (hj : S.toValue t = some j) (hp : j.Plain) (hc : j.Canonical)
    (hno : ∀ m, j = .object m → m.map Prod.fst ≠ ["JSON".toList]) :
    ∃ s bytes, Store.toBytes env S t = .ok bytes ∧ Store.ser env s = .ok bytes ∧ Store.toType env S s = .ok t := by
  have key : ∃ s, Store.fromJson env j = .ok s ∧ Store.toJson env false s = some j := by
    by_cases ho : ∃ m, j = .object m
    · obtain ⟨m, rfl⟩ := ho
      obtain ⟨s, h1, _, h2⟩ := C36_object_partial hord false hp hc (hno m rfl)
      exact ⟨s, h1, h2⟩
    · obtain ⟨s, h1, _, h2⟩ := C36_wrap_partial hord false hp hc fun m h => ho ⟨m, h⟩
      exact ⟨s, h1, h2⟩
  obtain ⟨s, h1, h2⟩ := key
  obtain ⟨b, rest, h3, _⟩ := C34_written env hb hch s
  refine ⟨s, _, ?_, h3, ?_⟩
  · simp only [Store.toBytes, hj, h1, h3]
  · simp only [Store.toType, h2, hS t j hj]

/-- C36, partial, from text: a text that is JSON without marked objects (and not the wrapper) is read as a
store whose JSON is the one in the text. -/
theorem C36_text_partial {env : Env} (hord : HashOrder env.mapOrd) (types : Bool) {text : List Char} {j : SJValue}
    (ht : env.jsonParse text = some j) (hp : j.Plain) (hc : j.Canonical)
    (hno : ∀ m, j = .object m → m.map Prod.fst ≠ ["JSON".toList]) :
    ∃ s, Store.fromJsonBytes env text = .ok s ∧ Store.toJson env types s = some j := by
  by_cases ho : ∃ m, j = .object m
  · obtain ⟨m, rfl⟩ := ho
    obtain ⟨s, h1, _, h2⟩ := C36_object_partial hord types hp hc (hno m rfl)
    exact ⟨s, by simp only [Store.fromJsonBytes, ht, h1], h2⟩
  · obtain ⟨s, h1, _, h2⟩ := C36_wrap_partial hord types hp hc fun m h => ho ⟨m, h⟩
    exact ⟨s, by simp only [Store.fromJsonBytes, ht, h1], h2⟩

/-- C36, from text: a text that is not JSON is refused with serde_json's error, and a store is returned only
for a text that is JSON. -/
theorem C36_text_errors (env : Env) (text : List Char) :
    (env.jsonParse text = none → Store.fromJsonBytes env text = .err .serdeJson) ∧
    (∀ s, Store.fromJsonBytes env text = .ok s → ∃ j, env.jsonParse text = some j ∧ Store.fromJson env j = .ok s) := by
  refine ⟨fun h => by simp only [Store.fromJsonBytes, h], fun s h => ?_⟩
  unfold Store.fromJsonBytes at h
  cases hp : env.jsonParse text with
  | none => rw [hp] at h; cases h
  | some j =>
    rw [hp] at h
    refine ⟨j, rfl, ?_⟩
    cases hj : Store.fromJson env j with
    | ok s' => simp only [hj, Out.ok.injEq] at h; rw [h]
    | err e => simp only [hj] at h; cases h
    | panic p => simp only [hj] at h; cases h

/-- C62: neither function loses an error: what serde cannot write or the store cannot hold is refused. -/
theorem C62_errors (env : Env) {T : Type} (S : SerdeType T) (t : T) :
    (S.toValue t = none → Store.toBytes env S t = .err .serdeJson) ∧
    (∀ j e, S.toValue t = some j → Store.fromJson env j = .err e → Store.toBytes env S t = .err (.store e)) := by
  refine ⟨fun h => ?_, fun j e h1 h2 => ?_⟩
  · simp only [Store.toBytes, h]
  · simp only [Store.toBytes, h1, h2]

/-- C62 is violated even for a working `Store::deser`: a struct with the fields `souris_type` and `octets`
becomes a store whose JSON is no object at all. -/
theorem C62_refuted_marker (env : Env) :
    ∃ s, Store.fromJson env (.object [("octets".toList, .array [.number (.posInt 127), .number (.posInt 0),
          .number (.posInt 0), .number (.posInt 1)]), ("souris_type".toList, .number (.posInt 13))]) = .ok s ∧
      Store.toJson env false s = some (.array [.number (.posInt 127), .number (.posInt 0), .number (.posInt 0),
        .number (.posInt 1)]) :=
  ⟨[(Store.kJson, .ipv4 127 0 0 1)], rfl, rfl⟩

/-- A struct with one `u8` field. -/
def sampleSerde : SerdeType (Fin 256) where
  toValue n := some (.object [("field".toList, .number (.posInt n.val))])
  ofValue
    | .object [(_, .number (.posInt n))] => if h : n < 256 then some ⟨n, h⟩ else none
    | _ => none

example : sampleSerde.Faithful := by
  intro t v h
  cases h
  simp [sampleSerde]

example : Store.toJson sampleEnv false [("field".toList, .integer (Integer.ofUnsigned 8 7))] =
    sampleSerde.toValue 7 := rfl

end Souris
