import Verif.Lemmas.JsonBytes
import Verif.Props.JsonUse
import Verif.Model.Http
import Verif.Model.Mouse

/-! # C84, C36: JSON that arrives as bytes -/

namespace Souris

open SerdeJson

/-- **C84**, from bytes: what is read byte by byte is what is read from the text whose UTF-8 bytes they are; bytes that
are not UTF-8 are refused, wherever in them the fault is. -/
theorem C84_bytes (b : List UInt8) : parseBytes b = (utf8Decode b).bind parse := by
  have same : ∀ s, parseBytes (utf8 s) = parse s := by
    intro s
    have hl : s.length ≤ (utf8 s).length := utf8Decode_length (utf8Decode_utf8 s)
    unfold parseBytes parse
    rw [← wide_eq, (value_wide _).1, value_more (n := 2 * s.length + 1) le_rfl (by omega)]
    cases value (2 * s.length + 1) 128 s with
    | none => rfl
    | some a =>
      simp only [Option.map_some, left]
      have : (skip (wide a.2)).isEmpty = (skip a.2).isEmpty := by
        rw [skip_wide]
        cases skip a.2 with
        | nil => rfl
        | cons c r =>
          have := wide_length (c :: r)
          cases hw : wide (c :: r) with
          | nil => rw [hw] at this; simp at this
          | cons => rfl
      rw [this]
  cases hd : utf8Decode b with
  | some s =>
    rw [← utf8_utf8Decode hd, same]
    rfl
  | none =>
    rw [Option.bind_none]
    by_contra hne
    obtain ⟨j, hj⟩ := Option.ne_none_iff_exists'.mp hne
    unfold parseBytes at hj
    split at hj
    · cases hj
    · rename_i v rest hv
      split_ifs at hj with he
      have hn : ∀ c ∈ latin b, c.toNat < 256 := by
        intro c hc
        simp only [latin, List.mem_map] at hc
        obtain ⟨x, _, rfl⟩ := hc
        rw [latin_toNat]
        exact x.toNat_lt
      obtain ⟨t, ht⟩ := (value_whole _).1 _ _ _ _ hn hv
      rw [← wide_self (blank_ascii (skip_nil_iff.mp he)), ← wide_append, wide_eq] at ht
      rw [latin_inj ht, utf8Decode_utf8] at hd
      cases hd

/-- **C84**, from bytes: a value comes only from the bytes of a JSON text for it. -/
theorem C84_bytes_sound {b : List UInt8} {j : SJValue} (h : parseBytes b = some j) :
    ∃ s, b = utf8 s ∧ JsonText JsonNum 127 s j := by
  rw [C84_bytes] at h
  obtain ⟨s, hs, hj⟩ := Option.bind_eq_some_iff.mp h
  exact ⟨s, (utf8_utf8Decode hs).symm, C84_sound_partial hj⟩

/-- **C84**, from bytes, in part: the bytes of a JSON text are read as the value that it stands for, if it is nested at
most 127 deep and its numbers are integers of 64 bits or have few digits. -/
theorem C84_bytes_partial {s : List Char} {j : SJValue} (h : JsonText JsonExact 127 s j) : parseBytes (utf8 s) = some j := by
  rw [C84_bytes, utf8Decode_utf8]
  exact C84_exact_partial h

/-- A string with a character of two bytes and an escape. -/
example : parseBytes [0x22, 0xC3, 0xA9, 0x5C, 0x6E, 0x22] = some (.string ['é', '\n']) := by
  have h : JsonText JsonExact 127 ['"', 'é', '\\', 'n', '"'] (.string ['é', '\n']) :=
    ⟨[], _, [], rfl, blank_nil, blank_nil, .string 127 (t := ['é', '\\', 'n'])
      (.plain (by decide) (by decide) (by decide) (.short (by decide) .nil))⟩
  have := C84_bytes_partial h
  rwa [show utf8 ['"', 'é', '\\', 'n', '"'] = [0x22, 0xC3, 0xA9, 0x5C, 0x6E, 0x22] by decide] at this

/-- The first byte of a character of two bytes, and an escape in the place of the second one: refused. -/
example : parseBytes [0x22, 0xC3, 0x5C, 0x75, 0x30, 0x30, 0x41, 0x39, 0x22] = none := by
  rw [Option.eq_none_iff_forall_ne_some]
  intro j h
  obtain ⟨s, hs, _⟩ := C84_bytes_sound h
  have h1 := utf8Decode_utf8 s
  rw [← hs] at h1
  have h2 : utf8Decode [0x22, 0xC3, 0x5C, 0x75, 0x30, 0x30, 0x41, 0x39, 0x22] = none := by decide +kernel
  rw [h2] at h1
  cases h1

/-- **C36**, from bytes: a store is read from bytes exactly if they are the UTF-8 bytes of a text from which it is
read. -/
theorem C36_bytes {env : Env} (he : env.Serde) {b : List UInt8} {s : Store} :
    Store.fromJsonSlice env b = .ok s ↔ ∃ text, b = utf8 text ∧ Store.fromJsonBytes env text = .ok s := by
  have same : ∀ text, Store.fromJsonSlice env (utf8 text) = Store.fromJsonBytes env text := by
    intro text
    unfold Store.fromJsonSlice Store.fromJsonBytes
    rw [C84_bytes, utf8Decode_utf8, he.parse]
    rfl
  constructor
  · intro h
    have h' := h
    unfold Store.fromJsonSlice at h'
    split at h'
    · cases h'
    · rename_i v hv
      obtain ⟨text, rfl, _⟩ := C84_bytes_sound hv
      exact ⟨text, rfl, by rw [← same]; exact h⟩
  · rintro ⟨text, rfl, h⟩
    rw [same]
    exact h

/-- **C36**, from bytes, in part: the bytes of a text that is JSON, nested at most 127 deep, with integers of 64 bits and
numbers with few digits, without marked objects and not the wrapper, are read as a store whose JSON is what the text
says. -/
theorem C36_bytes_partial {env : Env} (he : env.Serde) (hord : HashOrder env.mapOrd) (types : Bool) {text : List Char} {j : SJValue}
    (ht : JsonText JsonExact 127 text j) (hm : ∀ m, SJValue.Sub (.object m) j → ¬ SJValue.Marked m)
    (hno : ∀ m, j = .object m → m.map Prod.fst ≠ ["JSON".toList]) :
    ∃ s, Store.fromJsonSlice env (utf8 text) = .ok s ∧ Store.toJson env types s = some j := by
  obtain ⟨s, h, hj⟩ := C36_json_partial he hord types ht hm hno
  exact ⟨s, (C36_bytes he).mpr ⟨text, rfl, h⟩, hj⟩

/-- **C36**, from bytes: bytes that are not the UTF-8 bytes of a JSON text are refused with an error. -/
theorem C36_bytes_errors {env : Env} {b : List UInt8} (h : ∀ text j, b = utf8 text → ¬ JsonText JsonNum 127 text j) :
    Store.fromJsonSlice env b = .err .serdeJson := by
  unfold Store.fromJsonSlice
  cases hb : parseBytes b with
  | none => rfl
  | some j =>
    obtain ⟨text, e, ht⟩ := C84_bytes_sound hb
    exact absurd ht (h text j e)

/-- The file that `mouse` imports is read as `from_json_bytes` reads its bytes. -/
theorem C71_bytes {env : Env} (he : env.Serde) (b : List UInt8) :
    Mouse.jsonStore env b = (Store.fromJsonSlice env b).mapErr fun _ => .error .store := by
  unfold Mouse.jsonStore Store.fromJsonSlice Store.fromJsonBytes
  rw [C84_bytes, he.parse]
  cases utf8Decode b with
  | none => rfl
  | some t => rfl

/-- A reply that the clients take for JSON is read as `from_slice` reads its bytes. -/
theorem C95_bytes {env : Env} (he : env.Serde) {α : Type} (f : SJValue → Option α) (b : List UInt8) :
    Http.fromSlice env f b = Out.ofOption .json ((parseBytes b).bind f) := by
  unfold Http.fromSlice
  rw [C84_bytes, he.parse]
  cases utf8Decode b with
  | none => rfl
  | some t =>
    simp only [Option.bind_some]
    cases parse t with
    | none => rfl
    | some j => rfl

/-- Bytes that are not UTF-8, read into a store: an error. -/
example : Store.fromJsonSlice serdeEnv [0x22, 0xFF, 0x22] = .err .serdeJson := by
  refine C36_bytes_errors fun text j e _ => ?_
  have h1 := utf8Decode_utf8 text
  rw [← e] at h1
  have h2 : utf8Decode [0x22, 0xFF, 0x22] = none := by decide +kernel
  rw [h2] at h1
  cases h1

end Souris
