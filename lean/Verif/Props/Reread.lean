import Verif.Props.JsonUse
import Verif.Props.ValueYields

/-! # C58: JSON that was read is not always read again -/

namespace Souris

open SerdeJson Value

/-- The bytes of any text of JSON, as `Value::ser` frames them, are read as what the text is read as. -/
theorem text_reads {env : Env} {text : List Char} {j : SJValue} (hl : (utf8 text).length < 2 ^ 64) (hj : env.jsonParse text = some j) :
    ∃ bytes, serString none text = .ok bytes ∧ Inverts (deser env none) (tyByte .json 0 :: bytes) (.json j) := by
  obtain ⟨bytes, e, hr⟩ := serString_reads (h := none) (s := text) ⟨hl, fun _ e => by cases e⟩ env
  refine ⟨bytes, e, inverts_of_parsed (parsed_wrapped (r := .json) (need := .jsonNeeded) (fun _ => rfl) ?_ ?_ hr)⟩
  · intro stack c c' e
    simp only [step]
    rw [Parser.bind_apply, e]
    rfl
  · intro stack
    simp only [afterValue, hj]

/-- 2⁵³ − 1 with an exponent of zero is read as it is. -/
theorem parse_whole : parse "9007199254740991e0".toList = some (.number (.float 0x433FFFFFFFFFFFFF)) := by
  have e : signed true (roundTo 9007199254740991 0) = 0x433FFFFFFFFFFFFF := by decide +kernel
  have h := roundTo_nearest (d := 9007199254740991) (k := 0) (by decide +kernel)
  rw [e] at h
  refine C84_exact_partial ⟨[], "9007199254740991e0".toList, [], by decide, blank_nil, blank_nil, .number _ ?_⟩
  refine .posFloat (int := "9007199254740991".toList) (frac := []) (e := 0)
    ⟨[], ['e', '0'], by decide, ⟨⟨by decide, by decide⟩, by decide⟩, .inl ⟨rfl, rfl⟩, .plain (.inl rfl) ⟨by decide, by decide⟩⟩
    (by decide) ⟨by decide, by decide, by decide⟩ (by unfold F64Finite; decide) (by decide) h

/-- **C58** is violated by JSON with a float of many digits: there are bytes that are read as a value, and what is written
for that value is read as another one. -/
theorem C58_refuted_json {env : Env} (hs : env.Serde) : ∃ sent stored : List UInt8, ∃ j j' : SJValue, j' ≠ j ∧
    sent.length = 21 ∧ stored.length = 21 ∧
    Inverts (deser env none) sent (.json j) ∧ ser env none (.json j) = .ok stored ∧
    Inverts (deser env none) stored (.json j') := by
  obtain ⟨sent, e, h1⟩ := text_reads (env := env) (text := "9007199254740991e0".toList) (by decide)
    (by rw [hs.parse]; exact parse_whole)
  obtain ⟨stored, h2, h3⟩ := json_rereads (env := env) (j := .number (.float 0x433FFFFFFFFFFFFF))
    (j' := .number (.float 0x433FFFFFFFFFFFFE)) (by rw [hs.print]; decide +kernel)
    (by rw [hs.print, hs.parse, parse_witness.1]; exact parse_witness.2)
  have e' : ser env none (.json (.number (.float 0x433FFFFFFFFFFFFF))) =
      .ok (0x70 :: 0x10 :: 18 :: utf8 "9007199254740991.0".toList) := by
    simp only [ser, hs.print, parse_witness.1]
    rfl
  have l : (tyByte .json 0 :: sent).length = 21 := by
    have : serString none "9007199254740991e0".toList = .ok (0x10 :: 18 :: utf8 "9007199254740991e0".toList) := rfl
    rw [this, Out.ok.injEq] at e
    rw [← e]
    decide
  have l' : stored.length = 21 := by
    rw [h2, Out.ok.injEq] at e'
    rw [e']
    decide
  exact ⟨_, stored, _, _, (fun e => by injection e with e; injection e with e; revert e; decide), l, l', h1, h2, h3⟩

example : ∃ sent stored : List UInt8, ∃ j j' : SJValue, j' ≠ j ∧ sent.length = 21 ∧ stored.length = 21 ∧
    Inverts (deser serdeEnv none) sent (.json j) ∧
    ser serdeEnv none (.json j) = .ok stored ∧ Inverts (deser serdeEnv none) stored (.json j') :=
  C58_refuted_json serdeEnv_serde

/-- **C58**: and a daemon that accepted such a value holds it, yet whoever fetches it gets another one. -/
theorem C58_refuted_served {env : Env} (hs : env.Serde) (hord : HashOrder env.mapOrd) (n k : List Char) :
    ∃ (hist : List Happening) (j j' : SJValue), j' ≠ j ∧ Sent env hist n k (.json j) ∧
      ((Daemon.history env {} hist).handle env (.getValue n k)).1 = .value (.json j) ∧
      (Daemon.history env {} hist).Fetches env n k (.json j') := by
  obtain ⟨sent, stored, j, j', hne, l, l', h1, h2, h3⟩ := C58_refuted_json hs
  have r1 := h1 [] [] (by rw [List.nil_append, List.append_nil, l]; decide)
  have r3 := h3 [] [] (by rw [List.nil_append, List.append_nil, l']; decide)
  simp only [List.nil_append, List.append_nil] at r1 r3
  have one : env.mapOrd [(k, Value.json j)] = [(k, Value.json j)] := List.perm_singleton.mp (hord _)
  have got : ((Daemon.history env {} [.request (.addKv n k true false sent)]).handle env (.getValue n k)).1 =
      .value (.json j) := by
    simp only [Daemon.history, List.foldl, Daemon.happen, Daemon.handle, Request.route, Cursor.new]
    rw [show deser env none ⟨sent, 0⟩ = _ from r1]
    simp [Daemon.exec, Daemon.addKv, Daemon.invalidate, Dbs.addKv, Dbs.getValue, AMap.get, AMap.insert, Dbs.storeInsert, one]
  exact ⟨[.request (.addKv n k true false sent)], j, j', hne, ⟨true, false, sent, _, by simp, r1⟩, got,
    _, stored, _, got, h2, r3⟩

example : ∃ (hist : List Happening) (j j' : SJValue), j' ≠ j ∧ Sent serdeEnv hist ['d'] ['k'] (.json j) ∧
    ((Daemon.history serdeEnv {} hist).handle serdeEnv (.getValue ['d'] ['k'])).1 = .value (.json j) ∧
    (Daemon.history serdeEnv {} hist).Fetches serdeEnv ['d'] ['k'] (.json j') :=
  C58_refuted_served serdeEnv_serde (fun l => List.Perm.refl l) _ _

end Souris
