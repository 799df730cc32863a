import Verif.Lemmas.JsonBound
import Verif.Props.Amplify
import Verif.Props.Display
import Verif.Props.Http
import Verif.Props.JsonText
import Verif.Props.MouseChoice
import Verif.Props.StoreSerde
import Verif.Props.ValueEq
import Verif.Props.ValueYields

/-! # The claims about values that contain JSON, with the JSON text of serde_json

Elsewhere the text form of JSON is a parameter, and hypotheses say what is needed of it. Here it is what
`SerdeJson` models. -/

namespace Souris

open SerdeJson Value

/-- The JSON text form is that of serde_json. -/
structure Env.Serde (env : Env) : Prop where
  print : env.jsonPrint = SerdeJson.print
  pretty : env.jsonPretty = SerdeJson.pretty 0
  parse : env.jsonParse = SerdeJson.parse

/-- The environment of the examples with that. -/
def serdeEnv : Env := { sampleEnv with jsonPrint := print, jsonPretty := pretty 0, jsonParse := parse }

theorem serdeEnv_serde : serdeEnv.Serde := ⟨rfl, rfl, rfl⟩

/-! ## What was read is well formed -/

theorem made_of_doc {P : UInt64 → Prop} {N : List Char → SJNumber → Prop} (hN : ∀ t n, N t n → SJValue.Made P (.number n))
    {d : Nat} {t : List Char} {j : SJValue} (h : JsonDoc N d t j) : j.Made P := by
  induction h with
  | null => exact .null
  | true => exact .bool _
  | false => exact .bool _
  | number _ h => exact hN _ _ h
  | string => exact .string _
  | emptyArray => exact .array (by simp)
  | emptyObject => exact .object .nil (by simp)
  | array _ _ _ ih =>
    refine .array fun j hj => ?_
    obtain ⟨e, he, rfl⟩ := List.mem_map.mp hj
    exact ih e he
  | object _ _ _ _ hm ih =>
    refine .object hm.1 fun k j hj => ?_
    obtain ⟨front, back, e, _⟩ := (hm.2 k j).mp hj
    have hmem : (k, j) ∈ front ++ (k, j) :: back := by simp
    rw [← e] at hmem
    obtain ⟨x, hx, e'⟩ := List.mem_map.mp hmem
    cases e'
    exact ih x hx

/-- **C84**: whatever is read consists of numbers of 64 bits and finite floats, with the keys of objects in
order, and is nested at most 127 deep. -/
theorem C84_made {s : List Char} {j : SJValue} (h : parse s = some j) : j.Made (fun _ => True) ∧ j.depth ≤ 127 := by
  obtain ⟨_, t, _, _, _, _, hdoc⟩ := C84_sound_partial h
  refine ⟨made_of_doc (fun t n h => ?_) hdoc, doc_depth hdoc⟩
  cases h with
  | posInt _ hv => exact .posInt hv
  | negInt _ h0 hv => exact .negInt (by omega) (by omega)
  | posFloat _ _ hb => exact .float hb trivial
  | negFloat _ _ hb => exact .float hb trivial

theorem made_canonical {P : UInt64 → Prop} {j : SJValue} (h : j.Made P) : j.Canonical := by
  induction h with
  | null => exact .null
  | bool b => exact .bool b
  | posInt => exact .posInt _
  | negInt => exact .negInt _
  | @float b h =>
    refine .float ?_
    unfold F64Finite at h
    exact decide_eq_true h
  | string s => exact .string s
  | array _ ih => exact .array ih
  | object ho _ ih => exact .object (ho.imp fun h => (keyLt_iff _ _).mp h) ih

/-- A class to which all floats inside belong. -/
theorem made_of_sub {P Q : UInt64 → Prop} {j : SJValue} (h : j.Made P)
    (hq : ∀ b, SJValue.Sub (.number (.float b)) j → Q b) : j.Made Q := by
  induction h with
  | null => exact .null
  | bool b => exact .bool b
  | posInt h => exact .posInt h
  | negInt h h0 => exact .negInt h h0
  | float h => exact .float h (hq _ (.refl _))
  | string s => exact .string s
  | array _ ih => exact .array fun j hj => ih j hj fun b hb => hq b (.array hj hb)
  | object ho _ ih => exact .object ho fun k j hj => ih k j hj fun b hb => hq b (.object hj hb)

/-! ## Values (C26, C58) -/

/-- **C26** for JSON, in part: it is read back from its bytes if it is nested at most 127 deep and its floats
have few digits. Otherwise this is false, see below. -/
theorem C26_json_partial {env : Env} (hs : env.Serde) (hlz : env.lz.Lossless) (hord : HashOrder env.byteOrd) {j : SJValue}
    (h : j.Made FewDigits) (hd : j.depth ≤ 127) (hl : (utf8 (print j)).length < 2 ^ 64) :
    ∃ bytes, ser env none (.json j) = .ok bytes ∧ Inverts (deser env none) bytes (.json j) := by
  refine C26_exact_partial hlz hord (.json ⟨by rw [hs.print]; exact hl, fun _ e => (by cases e)⟩ ?_)
    (fun i h => by cases h) (fun a b h => by cases h)
  rw [hs.print, hs.parse]
  exact (C83_text_partial h hd).1

example : ∃ j bytes, j.depth = 1 ∧ ser serdeEnv none (.json j) = .ok bytes ∧ Inverts (deser serdeEnv none) bytes (.json j) := by
  have hm : SJValue.Made FewDigits (.array [.number (.float 0x4004000000000000), .bool true]) := by
    refine .array fun j hj => ?_
    simp only [List.mem_cons, List.not_mem_nil, or_false] at hj
    rcases hj with rfl | rfl
    · exact .float fewDigits_sample.1 fewDigits_sample.2
    · exact .bool _
  obtain ⟨bytes, h⟩ := C26_json_partial serdeEnv_serde (fun _ _ => rfl) (fun _ => .refl _) hm (by decide) (by decide +kernel)
  exact ⟨_, bytes, rfl, h⟩

/-- What is written for JSON is read as whatever its text is read as. -/
theorem json_rereads {env : Env} {j j' : SJValue} (hl : (utf8 (env.jsonPrint j)).length < 2 ^ 64)
    (hj : env.jsonParse (env.jsonPrint j) = some j') :
    ∃ bytes, ser env none (.json j) = .ok bytes ∧ Inverts (deser env none) bytes (.json j') := by
  obtain ⟨bytes, e, hr⟩ := parsed_json (h := none) ⟨hl, fun _ e => by cases e⟩ hj
  exact ⟨bytes, e, inverts_of_parsed hr⟩

/-- **C26** is violated: JSON with a float of many digits is written, and another number is read. -/
theorem C26_refuted_json_float {env : Env} (hs : env.Serde) : ∃ j j' bytes, j.Made (fun _ => True) ∧ j.depth = 0 ∧ j' ≠ j ∧
    bytes.length = 21 ∧ ser env none (.json j) = .ok bytes ∧ Inverts (deser env none) bytes (.json j') := by
  obtain ⟨bytes, h1, h2⟩ := json_rereads (env := env) (j := .number (.float 0x433FFFFFFFFFFFFF))
    (j' := .number (.float 0x433FFFFFFFFFFFFE)) (by rw [hs.print]; decide +kernel)
    (by rw [hs.print, hs.parse, parse_witness.1]; exact parse_witness.2)
  have e : ser env none (.json (.number (.float 0x433FFFFFFFFFFFFF))) =
      .ok (0x70 :: 0x10 :: 18 :: utf8 "9007199254740991.0".toList) := by
    simp only [ser, hs.print, parse_witness.1]
    rfl
  have hl : bytes.length = 21 := by
    rw [h1, Out.ok.injEq] at e
    rw [e]
    decide
  exact ⟨_, _, bytes, .float (by unfold F64Finite; decide) trivial, rfl, (fun e => by cases e), hl, h1, h2⟩

/-- **C26** is violated: JSON that is nested too deep is written, and no bytes at all are read as it. -/
theorem C26_refuted_json_deep {env : Env} (hs : env.Serde) (hcap : 1 ≤ env.arrayCapMax) {j : SJValue} (hd : 127 < j.depth)
    (hl : (utf8 (print j)).length < 2 ^ 64) :
    (∃ bytes, ser env none (.json j) = .ok bytes) ∧
    ∀ c v c', deser env none c = .ok (v, c') → ¬ SameAs (.json j) v := by
  constructor
  · obtain ⟨bytes, e, _⟩ := serString_reads (h := none) (s := env.jsonPrint j) ⟨by rw [hs.print]; exact hl, fun _ e => by cases e⟩ env
    exact ⟨tyByte .json 0 :: bytes, by simp only [ser, e]; rfl⟩
  · intro c v c' e h
    cases h
    obtain ⟨n, _, o, hl, ho⟩ := C27_terminates env none c
    rw [ho] at e
    have hk := loops_keeps hcap hl (by intro st hst; rw [List.mem_singleton.mp hst]; trivial) _ c' e
    have := hk (fun _ => False) (fun b h => by cases h) fun j' h ⟨s, hp⟩ => by
      cases h
      rw [hs.parse] at hp
      exact absurd hp (C83_refuted_deep hd s)
    cases this with
    | json _ hj => exact hj

example : ∃ j : SJValue, 127 < j.depth ∧ (utf8 (print j)).length < 2 ^ 64 := by
  let deep : Nat → SJValue := fun n => Nat.rec .null (fun _ j => .array [j]) n
  exact ⟨deep 128, by decide +kernel, by decide +kernel⟩

/-- **C58** with serde_json, in part: whatever the bytes were, a value that was read from them can be written and
read again, if its binary data is kept and the floats in its JSON have few digits. That the JSON is
not nested too deep and consists of numbers that exist is a consequence of its having been read. -/
theorem C58_json_partial {env : Env} (hs : env.Serde) (hlz : env.lz.Lossless) (hord : HashOrder env.byteOrd)
    (hcap : 1 ≤ env.arrayCapMax) {c c' : Cursor UInt8} {v : Value} (e : deser env none c = .ok (v, c'))
    (hb : ∀ b, Sub (.binary b) v → BinaryKept env b)
    (hf : ∀ j b, Sub (.json j) v → SJValue.Sub (.number (.float b)) j → FewDigits b)
    (hl : ∀ j, Sub (.json j) v → (utf8 (print j)).length < 2 ^ 64) :
    ∃ bytes v', ser env none v = .ok bytes ∧ SameAs v v' ∧ Inverts (deser env none) bytes v' ∧
      ser env none v' = .ok bytes := by
  refine C58_reread_partial hlz hord hcap e hb fun j hj ⟨s, hp⟩ => ?_
  rw [hs.parse] at hp
  obtain ⟨h1, h2⟩ := C84_made hp
  unfold JsonKept
  rw [hs.print, hs.parse]
  refine ⟨hl j hj, (C83_text_partial ?_ h2).1⟩
  exact made_of_sub h1 fun b hb => hf j b hj hb

/-- JSON with white space and a float. -/
example : ∃ bytes v c' bytes' v', deser serdeEnv none (Cursor.new bytes) = .ok (v, c') ∧
    v = .json (.array [.number (.float 0x4004000000000000)]) ∧ ser serdeEnv none v = .ok bytes' ∧
    SameAs v v' ∧ Inverts (deser serdeEnv none) bytes' v' := by
  have h25 : JsonExact "2.5".toList (.float 0x4004000000000000) := by
    have e : signed true (roundTo 25 (-1)) = 0x4004000000000000 := by decide +kernel
    have h := roundTo_nearest (d := 25) (k := -1) (by decide +kernel)
    rw [e] at h
    refine .posFloat (int := ['2']) (frac := ['5']) (e := 0)
      ⟨['.', '5'], [], rfl, ⟨⟨by decide, by decide⟩, by decide⟩, .inr ⟨⟨by decide, by decide⟩, rfl⟩, .none⟩
      (by decide) ⟨by decide, by decide, by decide⟩ (by unfold F64Finite; decide) (by decide) h
  have hp : parse "[ 2.5]".toList = some (.array [.number (.float 0x4004000000000000)]) := by
    refine C84_exact_partial ⟨[], _, [], (by simp [JsonElement.whole]), blank_nil, blank_nil,
      .array (es := [⟨[' '], "2.5".toList, [], .number (.float 0x4004000000000000)⟩]) (by simp)
      (by simp only [List.mem_singleton, forall_eq]; exact ⟨fun c hc => by rw [List.mem_singleton.mp hc]; simp [JsonSpace], blank_nil⟩)
      (by simp only [List.mem_singleton, forall_eq]; exact .number _ h25)⟩
  obtain ⟨bytes, e, hr⟩ := serString_reads (h := none) (s := "[ 2.5]".toList) ⟨by decide, fun _ e => by cases e⟩ serdeEnv
  have hi : Inverts (deser serdeEnv none) (tyByte .json 0 :: bytes) (.json (.array [.number (.float 0x4004000000000000)])) := by
    refine inverts_of_parsed (parsed_wrapped (r := .json) (need := .jsonNeeded) (fun _ => rfl) ?_ ?_ hr)
    · intro stack c c' e
      simp only [step]
      rw [Parser.bind_apply, e]
      rfl
    · intro stack
      have hp' : serdeEnv.jsonParse "[ 2.5]".toList = some (.array [.number (.float 0x4004000000000000)]) := hp
      simp only [afterValue, hp']
  have e' : bytes = 0x10 :: 6 :: utf8 "[ 2.5]".toList := (Out.ok.inj e).symm
  subst e'
  have h := hi [] [] (by decide)
  simp only [List.nil_append, List.append_nil] at h
  obtain ⟨bytes', v', h1, h2, h3, _⟩ := C58_json_partial serdeEnv_serde (fun _ _ => rfl) (fun _ => .refl _) (by decide) h
    (fun b hb => by cases hb)
    (fun j b hj hb => by
      cases hj
      cases hb with
      | array hv hb =>
        rw [List.mem_singleton.mp hv] at hb
        cases hb
        exact fewDigits_sample.2)
    (fun j hj => by cases hj; decide +kernel)
  exact ⟨_, _, _, bytes', v', h, rfl, h1, h2, h3⟩

/-! ## Sizes (C80) -/

/-- What is printed for JSON that was read is at most 31 times as long as what was read. -/
theorem serde_bounded {env : Env} (hs : env.Serde) : env.JsonBounded := by
  intro s j h
  rw [hs.parse] at h
  rw [hs.print]
  obtain ⟨before, t, after, rfl, _, _, hdoc⟩ := C84_sound_partial h
  have := print_length hdoc
  simp only [List.length_append]
  omega

/-- **C80** with serde_json, in part: as `C80_value_partial`. -/
theorem C80_json_value_partial {env : Env} (hs : env.Serde) (hz : env.lz.Bounded) (hm : HashOrder env.mapOrd)
    (h : Option (Huffman Char)) {c c' : Cursor UInt8} {v : Value} (e : Value.deser env h c = .ok (v, c'))
    (hv : v.NoLongRun) : v.size env ≤ 255 * (c'.pos - c.pos) :=
  C80_value_partial hz (serde_bounded hs) hm h e hv

/-- **C80** with serde_json, in part: as `C80_daemon_partial`. -/
theorem C80_json_daemon_partial {env : Env} (hs : env.Serde) (hz : env.lz.Bounded) (hm : HashOrder env.mapOrd)
    (hs' : List Happening) (hr : (Daemon.history env {} hs').dbs.NoLongRun) :
    Dbs.size env (Daemon.history env {} hs').dbs ≤
      ((hs'.filterMap Happening.request?).map fun r => 2 + r.named + 255 * r.bytes).sum :=
  C80_daemon_partial hz (serde_bounded hs) hm hs' hr

/-- Some text is printed many times as long as it was: one digit and an exponent as 17 characters. -/
example : serdeEnv.JsonBounded ∧ (print (.number (.float 0x430C6BF526340000))).length = 18 := by
  exact ⟨serde_bounded serdeEnv_serde, by decide +kernel⟩

/-! ## HTTP (C72) -/

theorem serde_textOk {env : Env} (hs : env.Serde) : Http.TextOk env where
  string s := by
    rw [hs.print, hs.parse]
    exact (C83_text_partial (.string s) (by simp [SJValue.depth])).1
  names ns := by
    rw [hs.print, hs.parse]
    refine (C83_text_partial (.array fun j hj => ?_) ?_).1
    · obtain ⟨s, _, rfl⟩ := List.mem_map.mp hj
      exact .string s
    · have := depthList_le (vs := ns.map SJValue.string) (d := 0) fun j hj => by
        obtain ⟨s, _, rfl⟩ := List.mem_map.mp hj
        simp [SJValue.depth]
      simp only [SJValue.depth]
      omega

open Http in
/-- **C72** with serde_json: the calls whose answers are JSON texts do over HTTP what they do in the model where
results are passed as they are. The other calls do not use JSON (`C72_sync`, `C72_async`). -/
theorem C72_json {env : Env} {L : Link} (hs : env.Serde) (hl : L.Reads) (h0 : Fits L []) :
    Sync.getAllDbs (L.line env) env = Client.Sync.getAllDbs env ∧ Async.getAllDbs (L.line env) env = Client.Async.getAllDbs env ∧
    ∀ name key, Fits L [name, key] → ∀ c o v,
      Sync.addEntryToDb (L.line env) env name c o key v = Client.Sync.addEntryToDb env name c o key v ∧
      Async.addEntryToDb (L.line env) env name c o key v = Client.Async.addEntryToDb env name c o key v :=
  ⟨(C72_sync (serde_textOk hs) hl).2.1, (C72_async (serde_textOk hs) h0).2.1, fun name key h c o v =>
    ⟨((C72_sync (serde_textOk hs) hl).2.2.2 name key h).1 c o v, ((C72_async (serde_textOk hs) h0).2.2.2.2 name key h).1 c o v⟩⟩

example : Http.Sync.getAllDbs (sampleLink.line serdeEnv) serdeEnv = Client.Sync.getAllDbs serdeEnv :=
  (C72_json serdeEnv_serde sampleLink_reads (by unfold Http.Fits; decide)).1

/-! ## Equality, hashing and texts (C29, C78) -/

/-- **C29** is violated: equal JSON zeros, different data for the hash. -/
theorem C29_refuted_hash_json_float {env : Env} (hs : env.Serde) :
    Value.eq (.json (.number (.float 0))) (.json (.number (.float 0x8000000000000000))) = true ∧
      hashItems env (.json (.number (.float 0))) ≠ hashItems env (.json (.number (.float 0x8000000000000000))) :=
  C29_refuted_hash_json_zero env (by rw [hs.print]; decide +kernel)

/-- **C78** is violated: JSON null looks like null. -/
theorem C78_refuted_json_null {env : Env} (hs : env.Serde) (sh : Shows) : display env sh (.json .null) = display env sh .null :=
  (C78_refuted_types env sh).2 (by rw [hs.print]; decide +kernel)

/-- **C78** for JSON, in part: the text of JSON tells which JSON it is, if it is not nested too deep and its
floats have few digits. -/
theorem C78_json_partial {env : Env} (hs : env.Serde) (sh : Shows) {j k : SJValue} (hj : j.Made FewDigits) (hk : k.Made FewDigits)
    (dj : j.depth ≤ 127) (dk : k.depth ≤ 127) (h : display env sh (.json j) = display env sh (.json k)) : j = k := by
  simp only [display, hs.print] at h
  have := (C83_text_partial hj dj).1
  rw [h, (C83_text_partial hk dk).1] at this
  exact (Option.some.inj this).symm

example (sh : Shows) : ∃ j k : SJValue, j.Made FewDigits ∧ k.Made FewDigits ∧ j.depth ≤ 127 ∧ k.depth ≤ 127 ∧
    display serdeEnv sh (.json j) ≠ display serdeEnv sh (.json k) := by
  refine ⟨.string ['1'], .number (.posInt 1), .string _, .posInt (by decide), by decide, by decide, ?_⟩
  show print _ ≠ print _
  decide +kernel

/-! ## Stores from and to JSON text (C36, C71) -/

theorem made_plain {P : UInt64 → Prop} {j : SJValue} (h : j.Made P) (hm : ∀ m, SJValue.Sub (.object m) j → ¬ SJValue.Marked m) :
    j.Plain := by
  induction h with
  | null => exact .null
  | bool b => exact .bool b
  | posInt h => exact .number h
  | negInt h h0 => exact .number ⟨h, h0⟩
  | float => exact .number trivial
  | string s => exact .string s
  | array _ ih => exact .array fun j hj => ih j hj fun m h => hm m (.array hj h)
  | @object m ho _ ih =>
    refine .object ?_ (hm m (.refl _)) fun k j hj => ih k j hj fun m h => hm m (.object hj h)
    rw [List.Nodup, List.pairwise_map]
    exact ho.imp fun h e => by
      rw [keyLt_iff, e] at h
      exact absurd h (List.lt_irrefl _)

/-- **C36** with serde_json, from text, in part: a text that is JSON, nested at most 127 deep, with integers of 64
bits and numbers with few digits, without marked objects and not the wrapper, is read as a store whose JSON is
what the text says. -/
theorem C36_json_partial {env : Env} (hs : env.Serde) (hord : HashOrder env.mapOrd) (types : Bool) {text : List Char} {j : SJValue}
    (ht : JsonText JsonExact 127 text j) (hm : ∀ m, SJValue.Sub (.object m) j → ¬ SJValue.Marked m)
    (hno : ∀ m, j = .object m → m.map Prod.fst ≠ ["JSON".toList]) :
    ∃ s, Store.fromJsonBytes env text = .ok s ∧ Store.toJson env types s = some j := by
  have hp := C84_exact_partial ht
  have h := (C84_made hp).1
  exact C36_text_partial hord types (by rw [hs.parse]; exact hp) (made_plain h hm) (made_canonical h) hno

/-- **C36** with serde_json, from text: a store is returned only for a text that is JSON. -/
theorem C36_json_errors {env : Env} (hs : env.Serde) {text : List Char} {s : Store} (h : Store.fromJsonBytes env text = .ok s) :
    ∃ j, JsonText JsonNum 127 text j := by
  obtain ⟨j, hj, _⟩ := (C36_text_errors env text).2 s h
  rw [hs.parse] at hj
  exact ⟨j, C84_sound_partial hj⟩

example : ∃ text j s, j = .object [(['a'], .null)] ∧ Store.fromJsonBytes serdeEnv text = .ok s ∧
    Store.toJson serdeEnv true s = some j := by
  have hdoc : JsonDoc JsonExact 127 "{\"a\":null}".toList (.object [(['a'], .null)]) :=
    .object (ms := [⟨[], ['a'], ['a'], [], ⟨[], "null".toList, [], .null⟩⟩]) (by simp)
      (by simp only [List.mem_singleton, forall_eq]; exact ⟨blank_nil, blank_nil, blank_nil, blank_nil⟩)
      (by simp only [List.mem_singleton, forall_eq]; exact .plain (by decide) (by decide) (by decide) .nil)
      (by simp only [List.mem_singleton, forall_eq]; exact .null _) (gathered_collect _)
  obtain ⟨s, h⟩ := C36_json_partial serdeEnv_serde (fun _ => .refl _) true (text := "{\"a\":null}".toList)
    ⟨[], _, [], (by simp), blank_nil, blank_nil, hdoc⟩
    (fun m hm => by
      cases hm with
      | refl =>
        rintro ⟨n, _, h⟩
        rw [List.mem_singleton, Prod.mk.injEq] at h
        cases h.2
      | object hv h =>
        rw [List.mem_singleton, Prod.mk.injEq] at hv
        obtain ⟨rfl, rfl⟩ := hv
        cases h)
    (fun m hm => by cases hm; decide)
  exact ⟨_, _, s, rfl, h⟩

open Mouse Cli in
/-- **C71** with serde_json, in part: as `C71_import_partial`, if the exported JSON is nested at most 127 deep and
has only floats with few digits. -/
theorem C71_json_partial {env : Env} (he : env.Serde) (hord : HashOrder env.mapOrd) (T T' : Term) (path name : List Char)
    {store : Store} (hs : Jsonable env (.map store))
    (hno : ∀ v, store = [("JSON".toList, v)] → (∀ m, v ≠ .map m) ∧ ∀ m, v ≠ .json (.object m)) (s : Session)
    (hj : ∀ j, Store.toJson env true store = some j → j.Made FewDigits ∧ j.depth ≤ 127)
    {text : List Char} (hx : (exportTo env T path true name store s).2.log.getLast? = some (.wrote path text))
    (hf : T'.files path = .file (utf8 text)) :
    ∃ bytes store', readFile T' path = .ok bytes ∧ jsonStore env bytes = .ok store' ∧ Widened (.map store) (.map store') := by
  refine C71_import_partial hord T T' path name hs hno s hx (fun j h => ?_) hf
  obtain ⟨h1, h2⟩ := hj j h
  rw [he.pretty, he.parse]
  exact (C83_text_partial h1 h2).2

/-! ## Written and fetched (C52) -/

/-- **C52** is violated by JSON with a float of many digits: the client is told that the value was written, and
another number is fetched. -/
theorem C52_refuted_json_float {env : Env} (hs : env.Serde) (hm : HashOrder env.mapOrd) (n k : List Char) : ∃ j j' : SJValue, j' ≠ j ∧
    (Client.Async.addEntryToDb env n true true k (.json j) {}).1 = .ok .insertedKeyIntoNewDB ∧
    ((Client.Async.addEntryToDb env n true true k (.json j) {}).2.handle env (.getValue n k)).1 = .value (.json j') := by
  obtain ⟨j, j', bytes, _, _, hne, hl, h1, h2⟩ := C26_refuted_json_float hs
  have h3 : Value.deser env none (Cursor.new bytes) = .ok (.json j', ⟨bytes, bytes.length⟩) := by
    have := h2 [] [] (by simp [hl])
    simpa [Cursor.new] using this
  have hp : Dbs.storeInsert env [] (k, .json j') = [(k, .json j')] := List.perm_singleton.mp (hm _)
  refine ⟨j, j', hne, ?_⟩
  simp only [Client.Async.addEntryToDb, Client.withBody, h1, Client.request, Daemon.handle, Request.route, h3, Daemon.exec,
    Daemon.addKv, Daemon.invalidate, Dbs.addKv, AMap.get]
  refine ⟨rfl, ?_⟩
  simp [AMap.insert, hp, Dbs.getValue, AMap.get]

end Souris
