import Verif.Lemmas.Lz4Count
import Verif.Props.ChronoUse
import Verif.Props.Client
import Verif.Props.Format
import Verif.Props.ValueFails

/-! # The claims about binary data, with LZ4

Elsewhere lz4_flex is a parameter, and hypotheses say what is needed of it. Here it is what `Lz4` models, whatever its
hash table finds. -/

namespace Souris

open Value Lz4 Client

/-- Binary data is compressed with LZ4. -/
def Env.Lz4 (env : Env) : Prop := ∃ z : Souris.Lz4, z.Earlier ∧ env.lz = z.codec

theorem Env.Lz4.lossless {env : Env} (h : env.Lz4) : env.lz.Lossless := by
  obtain ⟨z, hz, e⟩ := h
  rw [e]
  exact C89_lossless hz

theorem Env.Lz4.bounded {env : Env} (h : env.Lz4) : env.lz.Bounded := by
  obtain ⟨z, _, e⟩ := h
  rw [e]
  exact C89_bounded z

theorem Env.Lz4.allocates {env : Env} (h : env.Lz4) : env.lz.Allocates := by
  obtain ⟨z, _, e⟩ := h
  rw [e]
  exact (C89_panics z).1

/-- The environment of the examples with serde_json, chrono and LZ4. -/
def realEnv : Env := { chronoEnv with lz := threeBack.codec }

theorem realEnv_lz4 : realEnv.Lz4 := ⟨threeBack, threeBack_earlier, rfl⟩

/-! ## Round trips -/

/-- C23: the compressed form of any data is read back as the data, and whatever follows is left alone. -/
theorem C23_lz4 {z : Souris.Lz4} (hz : z.Earlier) (b : List UInt8) (hb : b.length ≤ isizeMax) :
    Inverts (Binary.unLz z.codec) (Binary.lz z.codec b) b := C23_lz_lossless _ (C89_lossless hz) b hb

/-- C25, partial: as `C25_roundtrip_partial`. -/
theorem C25_lz4_partial {z : Souris.Lz4} (hz : z.Earlier)
    {ord : List (Node UInt8 × Nat) → List (Node UInt8 × Nat)} (hord : HashOrder ord)
    (b : List UInt8) (hb : b.length ≤ isizeMax) :
    ∃ comp bytes, Binary.ser z.codec ord b = .ok (comp, bytes) ∧
      (b.length ≤ 2 ^ 21 ∨ ¬ TwoSymbols b ∨ comp ≠ .huffman → Inverts (Binary.deser z.codec comp) bytes b) :=
  C25_roundtrip_partial _ (C89_lossless hz) hord b hb

/-- C25 is violated, with LZ4: whatever its hash table finds, there is data of 16 MiB that is stored with the Huffman
code, and reading it back panics. -/
theorem C25_refuted_lz4 {z : Souris.Lz4} (hz : z.Earlier)
    {ord : List (Node UInt8 × Nat) → List (Node UInt8 × Nat)} (hord : HashOrder ord) :
    ∃ b bytes : List UInt8, b.length = 2 ^ 24 + 1 ∧ Binary.ser z.codec ord b = .ok (.huffman, bytes) ∧
      Binary.deser z.codec .huffman (Cursor.new bytes) = .panic .index := by
  obtain ⟨A, hl, hb, h2, hlz, hrle⟩ := incompressible hz (2 ^ 24 + 1) (by norm_num)
  obtain ⟨h, e1, _, hsz⟩ := C24_refuted hord _ hl h2 0 1 (by decide) hb
  have hlz' : (z.compress A).length ≤ (Binary.lz z.codec A).length := by
    unfold Binary.lz
    split
    · rename_i h0; subst h0; simp at hl
    · show (z.compress A).length ≤ _
      simp only [List.length_append]
      have : (z.codec.compress A).length = (z.compress A).length := rfl
      omega
  obtain ⟨comp, bytes, es, hs, _, _, _, hle⟩ := Binary.ser_spec z.codec e1
  simp only [Prod.mk.injEq] at hs
  have hc : comp = .huffman := by
    rcases hs with ⟨_, rfl⟩ | ⟨_, rfl⟩ | ⟨_, rfl⟩ | ⟨h, _⟩
    · simp only [List.length_append, hl] at hle; omega
    · omega
    · omega
    · exact h
  subst hc
  exact ⟨A, bytes, hl, es, (C25_refuted hord).1 _ _ hl h2 hb _ es⟩

/-- C26, partial: as `C26_never_wrong_partial`. -/
theorem C26_lz4_partial {env : Env} (hlz : env.Lz4) (hord : HashOrder env.byteOrd) {h : Option (Huffman Char)} {v : Value}
    (hv : Faithful env h v) {bytes : List UInt8} (e : ser env h v = .ok bytes) (hlen : bytes.length < 2 ^ 64) :
    ((∃ v' c', deser env h (Cursor.new bytes) = .ok (v', c')) ↔ Storable env h v) ∧
    ∀ v' c', deser env h (Cursor.new bytes) = .ok (v', c') →
      SameAs v v' ∧ c'.pos = bytes.length ∧ ser env h v' = .ok bytes :=
  C26_never_wrong_partial hlz.lossless hord hv e hlen

/-- C52, partial: as `C52_write_read_partial`. -/
theorem C52_lz4_partial {env : Env} (hlz : env.Lz4) (hb : HashOrder env.byteOrd)
    (hord : HashOrder env.mapOrd) (before : List Happening) (n k : List Char) (create overwrite : Bool) (v : Value)
    (hv : Faithful env none v) (hlen : ∀ bytes, Value.ser env none v = .ok bytes → bytes.length < 2 ^ 64)
    {c : CreationResult}
    (e : (Async.addEntryToDb env n create overwrite k v (Daemon.history env {} before)).1 = .ok c) (hc : c.Wrote)
    (since : List Happening) (hno : ∀ x ∈ since, ¬ x.Touches n k) :
    ∃ w, ((Async.addEntryToDb env n create overwrite k v (Daemon.history env {} before)).2.history env since).Fetches
      env n k w ∧ SameAs v w :=
  C52_write_read_partial hlz.lossless hb hord before n k create overwrite v hv hlen e hc since hno

/-- C77, partial: as `C77_recoverable_partial`. -/
theorem C77_lz4_partial {env : Env} (hlz : env.Lz4) (hb : HashOrder env.byteOrd) (hc : HashOrder env.charOrd) :
    ∃ read : List UInt8 → Option Store, ∀ s : Store, Sound env (.map s) → (Value.map s).size env < 2 ^ 40 →
      ¬ Store.OneCharacter env s →
      ∃ bytes s', Store.ser env s = .ok bytes ∧ read bytes = some s' ∧ SameAs (.map s) (.map s') :=
  C77_recoverable_partial hlz.lossless hb hc

/-! ## Panics -/

/-- C28, partial: as `C28_panics_partial`. -/
theorem C28_lz4_partial {env : Env} (hlz : env.Lz4) (h : Option (Huffman Char)) (c : Cursor UInt8) (r : Panic)
    (e : deser env h c = .panic r) :
    r = .capacityOverflow ∨ r = .unreachable ∨
      (2 ^ 21 ≤ c.backing.length ∧ (r = .index ∨ r = .unwrapNone)) := C28_panics_partial env hlz.allocates h c r e

/-- C28, partial: as `C28_store_panics_partial`. -/
theorem C28_store_lz4_partial {env : Env} (hlz : env.Lz4) (bytes : List UInt8) (r : Panic)
    (e : Store.deser env bytes = .panic r) :
    (r = .arith ∧ ∃ b, bytes[8]? = some b ∧ b &&& 0x80 ≠ 0) ∨ r = .capacityOverflow ∨ r = .unreachable ∨
      r = .index ∨ r = .unwrapNone := C28_store_panics_partial env hlz.allocates bytes r e

/-- C28 is violated: twelve bytes hold compressed data that claims to be 2^64 - 1 bytes long; lz4_flex is asked for
that much and panics. -/
theorem C28_refuted_lz4 {env : Env} (hlz : env.Lz4) (h : Option (Huffman Char)) :
    ∃ bytes : List UInt8, bytes.length = 12 ∧ deser env h (Cursor.new bytes) = .panic .capacityOverflow := by
  obtain ⟨z, _, e⟩ := hlz
  refine ⟨[0x22] ++ (Integer.ofUnsigned 8 (2 ^ 64 - 1)).ser.2 ++ (Integer.ofUnsigned 8 1).ser.2 ++ [0],
    by decide +kernel, ?_⟩
  obtain ⟨lz, _, _, _, _, _, _, _, _, _, _, _⟩ := env
  dsimp only at e
  subst e
  rfl

/-! ## Sizes -/

/-- C80, partial: as `C80_json_value_partial`. -/
theorem C80_lz4_value_partial {env : Env} (hs : env.Serde) (hz : env.Lz4) (hm : HashOrder env.mapOrd)
    (h : Option (Huffman Char)) {c c' : Cursor UInt8} {v : Value} (e : Value.deser env h c = .ok (v, c'))
    (hv : v.NoLongRun) : v.size env ≤ 255 * (c'.pos - c.pos) := C80_json_value_partial hs hz.bounded hm h e hv

/-- C80, partial: as `C80_json_daemon_partial`. -/
theorem C80_lz4_daemon_partial {env : Env} (hs : env.Serde) (hz : env.Lz4) (hm : HashOrder env.mapOrd)
    (hs' : List Happening) (hr : (Daemon.history env {} hs').dbs.NoLongRun) :
    Dbs.size env (Daemon.history env {} hs').dbs ≤
      ((hs'.filterMap Happening.request?).map fun r => 2 + r.named + 255 * r.bytes).sum :=
  C80_json_daemon_partial hs hz.bounded hm hs' hr

-- the repetitive data of the example above is stored with LZ4, and read back
example : Binary.ser threeBack.codec id abcs = .ok (.lempelZiv, [45, 14] ++ threeBack.codec.compress abcs) := by
  decide +kernel
example : ∃ c, Binary.deser threeBack.codec .lempelZiv (Cursor.new ([45, 14] ++ threeBack.codec.compress abcs)) =
    .ok (abcs, c) := ⟨⟨[45, 14] ++ threeBack.codec.compress abcs, 16⟩, by decide +kernel⟩
example : realEnv.Serde ∧ realEnv.Chrono ∧ realEnv.Lz4 ∧ HashOrder realEnv.byteOrd :=
  ⟨⟨rfl, rfl, rfl⟩, ⟨rfl, rfl⟩, realEnv_lz4, fun l => .refl l⟩

end Souris
