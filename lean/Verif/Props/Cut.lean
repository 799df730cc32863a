import Verif.Lemmas.Cut
import Verif.Props.ValueFails
import Verif.Props.Daemon
import Verif.Props.Store

/-! # C107: messages that are cut off or continued -/

namespace Souris

open Value

/-- C107, more bytes: whatever bytes have arrived, those that come behind them change only the answer that there are not
enough. A value stays the same value and ends at the same place, any other error stays the same error, and a panic
stays the same panic. And if the answer was that there are not enough bytes, then a value that is read with more of them
takes up some of those. -/
theorem C107_stream (env : Env) (h : Option (Huffman Char)) (b tail : List UInt8) :
    match deser env h (Cursor.new b) with
    | .ok (v, c) => c.backing = b ∧ c.pos ≤ b.length ∧
        deser env h (Cursor.new (b ++ tail)) = .ok (v, ⟨b ++ tail, c.pos⟩)
    | .err e => (e.Short ∧ ∀ v c, deser env h (Cursor.new (b ++ tail)) = .ok (v, c) → b.length < c.pos) ∨
        deser env h (Cursor.new (b ++ tail)) = .err e
    | .panic r => deser env h (Cursor.new (b ++ tail)) = .panic r := by
  obtain ⟨n, _, o, hl, ho⟩ := C27_terminates env h (Cursor.new b)
  have := loops_streams hl (Nat.zero_le _) tail
  rw [ho]
  cases o with
  | ok y =>
    obtain ⟨h1, _, h3, h4⟩ := this
    exact ⟨h1, h3, deser_of_loops h4⟩
  | err e =>
    refine this.imp (fun hs => ⟨hs.1, fun v c hv => ?_⟩) fun h => deser_of_loops h
    obtain ⟨m, _, o, hl, ho⟩ := C27_terminates env h (Cursor.new (b ++ tail))
    rw [hv] at ho
    subst ho
    exact hs.2 m v c hl
  | panic r => exact deser_of_loops this

/-- C107, cut off: a message that is read as a value and is cut anywhere is read as the same value if all the bytes that the
value takes up are left, and otherwise refused for having too few bytes, never read as another value, refused for another
reason or answered with a panic. -/
theorem C107_cut (env : Env) (h : Option (Huffman Char)) : NoticesCut ValueSerError.Short (deser env h) := by
  intro b tail v c e
  have := C107_stream env h b tail
  cases o : deser env h (Cursor.new b) with
  | ok y =>
    obtain ⟨y, b', j⟩ := y
    rw [o] at this
    obtain ⟨h1, h2, h3⟩ := this
    simp only at h1 h2 h3
    rw [e, Out.ok.injEq, Prod.mk.injEq] at h3
    obtain ⟨rfl, rfl⟩ := h3
    subst h1
    rw [if_pos h2]
  | err x =>
    rw [o] at this
    rcases this with h | h
    · rw [if_neg (by have := h.2 v c e; omega)]
      exact ⟨x, rfl, h.1⟩
    · rw [e] at h; cases h
  | panic r => rw [o] at this; simp only at this; rw [e] at this; cases this

/-- C107, as a special case: if some of the value is missing, the answer is that there are not enough bytes. -/
theorem C107_truncated {env : Env} {h : Option (Huffman Char)} {b tail : List UInt8} {v : Value} {c : Cursor UInt8}
    (e : deser env h (Cursor.new (b ++ tail)) = .ok (v, c)) (hc : b.length < c.pos) :
    ∃ x, deser env h (Cursor.new b) = .err x ∧ x.Short := by
  have := C107_cut env h b tail v c e
  rwa [if_neg (by omega)] at this

/-- C107, cut off, for the parts that can be read on their own: integers, bit sequences, complex numbers, trees of bytes
and of characters, and binary data under each compression. -/
theorem C107_parts :
    (∀ ss, NoticesCut IntegerSerError.Short (Integer.deser ss)) ∧ NoticesCut IntegerSerError.Short Bits.deser ∧
    (∀ m, NoticesCut IntegerSerError.Short (Imaginary.deser m)) ∧ NoticesCut HuffmanSerError.Short Huffman.deser8 ∧
    NoticesCut HuffmanSerError.Short Huffman.deserChar ∧
    ∀ z ct, NoticesCut BinarySerError.Short (Binary.deser z ct) :=
  ⟨fun ss => (Integer.deser_streams ss).noticesCut, Bits.deser_streams.noticesCut,
    fun m => (Imaginary.deser_streams m).noticesCut, Huffman.deser8_streams.noticesCut, Huffman.deserChar_streams.noticesCut,
    fun z ct => (Binary.deser_streams z ct).noticesCut⟩

/-- C107, cut off, for what is written: of the bytes that a storable value is written as, any that do not reach the end are
refused for being too few. -/
theorem C107_written_partial {env : Env} {h : Option (Huffman Char)} (hlz : env.lz.Lossless)
    (hord : HashOrder env.byteOrd) {v : Value} (hv : Storable env h v) {b rest : List UInt8}
    (e : ser env h v = .ok (b ++ rest)) (hr : rest ≠ []) (hlen : (b ++ rest).length < 2 ^ 64) :
    ∃ x, deser env h (Cursor.new b) = .err x ∧ x.Short := by
  obtain ⟨bytes, v', e', _, hi⟩ := C26_roundtrip_partial hlz hord hv
  rw [e, Out.ok.injEq] at e'
  subst e'
  have := hi [] [] (by simpa using hlen)
  refine C107_truncated (tail := rest) (v := v') (c := ⟨b ++ rest, (b ++ rest).length⟩) ?_ ?_
  · simpa [Cursor.At, Cursor.new] using this
  · have : 0 < rest.length := List.length_pos_of_ne_nil hr
    simp only [List.length_append]
    omega

/-- C107, hence no message begins with another: two values that come back and are written as bytes of which the one begins
with the other are written as the same bytes. -/
theorem C107_prefix_free_partial {env : Env} {h : Option (Huffman Char)} (hlz : env.lz.Lossless)
    (hord : HashOrder env.byteOrd) {v w : Value} (hv : Storable env h v) (hw : Storable env h w) {b rest : List UInt8}
    (ev : ser env h v = .ok b) (ew : ser env h w = .ok (b ++ rest)) (hlen : (b ++ rest).length < 2 ^ 64) : rest = [] := by
  by_contra hr
  obtain ⟨x, hx, _⟩ := C107_written_partial hlz hord hw ew hr hlen
  obtain ⟨bytes, v', e', _, hi⟩ := C26_roundtrip_partial hlz hord hv
  rw [ev, Out.ok.injEq] at e'
  subst e'
  have := hi [] [] (by rw [List.length_append] at hlen; simp only [List.nil_append, List.append_nil]; omega)
  simp only [List.nil_append, List.append_nil, List.length_nil] at this
  rw [Cursor.new] at hx
  rw [hx] at this
  cases this

/-- C107, a request that is cut off: it is answered with 400, for being too short, and changes nothing. -/
theorem C107_request {env : Env} {b tail : List UInt8} {v : Value} {c : Cursor UInt8}
    (e : deser env none (Cursor.new (b ++ tail)) = .ok (v, c)) (hc : b.length < c.pos) (n k : List Char) (create over : Bool)
    (d : Daemon) :
    ∃ x, ValueSerError.Short x ∧ d.handle env (.addKv n k create over b) = (.rejected x, d) := by
  obtain ⟨x, hx, hs⟩ := C107_truncated e hc
  refine ⟨x, hs, ?_⟩
  simp only [Daemon.handle, Request.route, hx]

/-- C107 is violated for what is added: any bytes at all behind a message that is read as a value go unnoticed. -/
theorem C107_refuted_trailing {env : Env} {h : Option (Huffman Char)} {b : List UInt8} {v : Value} {c : Cursor UInt8}
    (e : deser env h (Cursor.new b) = .ok (v, c)) (tail : List UInt8) :
    deser env h (Cursor.new (b ++ tail)) = .ok (v, ⟨b ++ tail, c.pos⟩) := by
  have := C107_stream env h b tail
  rw [e] at this
  exact this.2.2

/-- C107 is violated for requests: with any bytes behind the value, the daemon does and answers what it does and answers
without them. -/
theorem C107_refuted_request {env : Env} {b : List UInt8} {v : Value} {c : Cursor UInt8}
    (e : deser env none (Cursor.new b) = .ok (v, c)) (tail : List UInt8) (n k : List Char) (create over : Bool) (d : Daemon) :
    d.handle env (.addKv n k create over (b ++ tail)) = d.handle env (.addKv n k create over b) := by
  simp only [Daemon.handle, Request.route, e, C107_refuted_trailing e tail]

/-- What `Store::deser` does behind the magic bytes and the flag. -/
theorem store_deser_head (env : Env) (flag : UInt8) (ct : BinaryCompression)
    (hlow : BinaryCompression.ofByte (flag &&& 0b01111111) = .ok ct) (comp : List UInt8) :
    Store.deser env (Store.magic ++ flag :: comp) =
      match Binary.deser env.lz ct ⟨Store.magic ++ flag :: comp, 9⟩ with
      | .ok (data, _) => Store.deserValue env (decide (flag &&& 0b10000000 ≠ 0)) data >>= Store.ofValue
      | .err e => .err (.binary e)
      | .panic r => .panic r := by
  have hread : (Cursor.new (Store.magic ++ flag :: comp)).read 8
      = (some Store.magic, ⟨Store.magic ++ flag :: comp, 8⟩) := by
    simp [Cursor.read, Cursor.new, checkedAdd, usizeMod, Store.magic, Cursor.slice]
  have hnext : Parser.next StoreSerError.notEnoughBytes ⟨Store.magic ++ flag :: comp, 8⟩
      = .ok (flag, ⟨Store.magic ++ flag :: comp, 9⟩) := by
    simp [Parser.next, Cursor.next, Store.magic]
  unfold Store.deser
  rw [hread]
  simp only [ne_eq, not_true_eq_false, if_false]
  unfold Store.deserRest
  rw [Parser.bind_apply, hnext]
  simp only [Out.ok_bind]
  rw [Parser.bind_apply, hlow]
  simp only [Parser.mapErr_apply, Parser.lift_ok, Out.mapErr_ok, Out.ok_bind]
  rw [Parser.bind_apply, Parser.mapErr_apply]
  cases Binary.deser env.lz ct ⟨Store.magic ++ flag :: comp, 9⟩ with
  | err e => rfl
  | panic r => rfl
  | ok y =>
    simp only [Out.mapErr_ok, Out.ok_bind]
    rw [Parser.bind_apply]
    cases Store.deserValue env (decide (flag &&& 0b10000000 ≠ 0)) y.1 with
    | err e => rfl
    | panic r => rfl
    | ok v =>
      simp only [Parser.lift_ok, Out.ok_bind]
      cases Store.ofValue v <;> rfl

/-- The flag, and that the contents are found again behind it. -/
theorem store_ser_head {env : Env} (hlz : env.lz.Lossless) (hb : HashOrder env.byteOrd) (hc : HashOrder env.charOrd) (s : Store) :
    ∃ (coder : Option (Huffman Char)) (mb : List UInt8) (flag : UInt8) (ct : BinaryCompression) (comp : List UInt8),
      Value.ser env coder (.map s) = .ok mb ∧ Store.ser env s = .ok (Store.magic ++ flag :: comp) ∧
      BinaryCompression.ofByte (flag &&& 0b01111111) = .ok ct ∧
      (BinaryKept env (coder.elim [] Huffman.serChar ++ mb) → ∃ data, Inverts (Binary.deser env.lz ct) comp data) := by
  obtain ⟨h, mb, ct, comp, e1, e2, e3, hg, _, _⟩ := ser_shape env hb hc s
  refine ⟨h, mb, _, ct, comp, e2, e1, by cases h.isSome <;> cases ct <;> rfl, fun hkept => ?_⟩
  generalize hdata : h.elim [] Huffman.serChar ++ mb = data at hkept e3
  obtain ⟨ct', comp', e4, hinv⟩ := C25_exact env.lz hlz hb data hkept.1
  rw [e3, Out.ok.injEq, Prod.mk.injEq] at e4
  obtain ⟨rfl, rfl⟩ := e4
  exact ⟨data, hinv.mpr fun hct h2 h' bits m en hm => (hkept.2 h2 ⟨comp, by rw [e3, hct]⟩ h' bits en).2 m hm⟩

/-- C107, files that are cut off: every store is written, and no beginning of the file, wherever it ends, is taken for a
store or for another kind of damage: the answer is that there are not enough bytes. Missing: contents whose code is of a
length that is lost (C25_exact), of which there are none up to 2 MiB. -/
theorem C107_file_partial {env : Env} (hlz : env.lz.Lossless) (hb : HashOrder env.byteOrd) (hc : HashOrder env.charOrd)
    (s : Store) :
    ∃ (coder : Option (Huffman Char)) (mb file : List UInt8), Value.ser env coder (.map s) = .ok mb ∧
      Store.ser env s = .ok file ∧
      (BinaryKept env (coder.elim [] Huffman.serChar ++ mb) → file.length < 2 ^ 64 →
        ∀ b rest, file = b ++ rest → rest ≠ [] → ∃ x, Store.deser env b = .err x ∧ x.Short) := by
  obtain ⟨coder, mb, flag, ct, comp, e1, e2, hlow, hi⟩ := store_ser_head hlz hb hc s
  refine ⟨coder, mb, _, e1, e2, fun hk hlen b rest hbr hr => ?_⟩
  obtain ⟨data, hi⟩ := hi hk
  have hrl : 0 < rest.length := List.length_pos_of_ne_nil hr
  have hml : Store.magic.length = 8 := rfl
  by_cases h8 : b.length < 8
  · refine ⟨.notEnoughBytes, ?_, trivial⟩
    unfold Store.deser
    have : (Cursor.new b).read 8 = (none, Cursor.new b) := by
      simp only [Cursor.read, Cursor.new, show checkedAdd 0 8 = some 8 from rfl]
      exact if_pos h8
    rw [this]
  · obtain ⟨b1, rfl⟩ : ∃ b1, b = Store.magic ++ b1 := by
      refine ⟨b.drop 8, ?_⟩
      have h1 : b.take 8 = Store.magic := by
        have := congrArg (List.take 8) hbr
        rw [List.take_append_of_le_length (by omega), List.take_append_of_le_length (by omega)] at this
        rw [← this]; rfl
      rw [← h1, List.take_append_drop]
    rw [List.append_assoc, List.append_right_inj] at hbr
    cases b1 with
    | nil =>
      refine ⟨.notEnoughBytes, ?_, trivial⟩
      rfl
    | cons x c1 =>
      simp only [List.cons_append, List.cons.injEq] at hbr
      obtain ⟨rfl, rfl⟩ := hbr
      have hfull := hi (Store.magic ++ [flag]) [] (by simpa using hlen)
      simp only [List.append_nil, List.append_assoc, List.singleton_append] at hfull
      have hs := (Binary.deser_streams (P := fun _ => False) env.lz ct).2 (Store.magic ++ flag :: c1) rest 9
        (by simp only [List.length_append, List.length_cons, hml]; omega)
      rw [store_deser_head env flag ct hlow]
      rw [show (Store.magic ++ flag :: c1) ++ rest = Store.magic ++ flag :: (c1 ++ rest) by simp] at hs
      rw [show (Store.magic ++ [flag]).length = 9 from rfl] at hfull
      rw [hfull] at hs
      cases e : Binary.deser env.lz ct ⟨Store.magic ++ flag :: c1, 9⟩ with
      | ok y =>
        rw [e] at hs
        obtain ⟨_, _, h3, h4⟩ := hs
        rw [Out.ok.injEq, Prod.mk.injEq, Cursor.mk.injEq] at h4
        have := h4.2.2
        simp only [List.length_append, List.length_cons] at this h3
        omega
      | err x =>
        rw [e] at hs
        rcases hs with hs | hs
        · exact ⟨_, rfl, hs.1⟩
        · cases hs
      | panic r =>
        rw [e] at hs
        rcases hs with hs | hs
        · exact hs.elim
        · cases hs

/-- C107 is violated for what is added to a file: whatever follows, the file is read as what it is read as without it. -/
theorem C107_refuted_file {env : Env} (hlz : env.lz.Lossless) (hb : HashOrder env.byteOrd) (hc : HashOrder env.charOrd)
    (s : Store) :
    ∃ (coder : Option (Huffman Char)) (mb file : List UInt8), Value.ser env coder (.map s) = .ok mb ∧
      Store.ser env s = .ok file ∧
      (BinaryKept env (coder.elim [] Huffman.serChar ++ mb) → ∀ tail, (file ++ tail).length < 2 ^ 64 →
        Store.deser env (file ++ tail) = Store.deser env file) := by
  obtain ⟨coder, mb, flag, ct, comp, e1, e2, hlow, hi⟩ := store_ser_head hlz hb hc s
  refine ⟨coder, mb, _, e1, e2, fun hk tail hlen => ?_⟩
  obtain ⟨data, hi⟩ := hi hk
  have h1 := hi (Store.magic ++ [flag]) [] (by
    simp only [List.length_append, List.length_cons] at hlen ⊢
    simp only [List.length_nil]
    omega)
  have h2 := hi (Store.magic ++ [flag]) tail (by simpa using hlen)
  simp only [List.append_nil, List.append_assoc, List.cons_append, List.nil_append] at h1 h2
  rw [show (Store.magic ++ [flag]).length = 9 from rfl] at h1 h2
  rw [List.append_assoc, List.cons_append, store_deser_head env flag ct hlow, store_deser_head env flag ct hlow, h1, h2]

/-- The file of a database with one entry. -/
def cutFile : List UInt8 := [83, 79, 85, 82, 73, 83, 68, 66, 128, 10, 0, 108, 119, 130, 17, 1, 1, 17, 1, 0]

/-- Cut at any place, it is refused for being too short. -/
example : Store.ser sampleEnv [(['k'], .string ['v'])] = .ok cutFile ∧ (List.range 20).all fun n =>
    match Store.deser sampleEnv (cutFile.take n) with
    | .err .notEnoughBytes => true
    | .err (.binary .notEnoughBytes) => true
    | .err (.binary (.integer .notEnoughBytes)) => true
    | _ => false := by
  constructor <;> decide +kernel

/-- A written value of seven bytes: each beginning of it is too short, and the daemon keeps nothing of it. -/
example : ser sampleEnv none (.string ['s', 'o', 'u', 'r', 'i']) = .ok [0x10, 5, 115, 111, 117, 114, 105] ∧
    (∃ x, deser sampleEnv none (Cursor.new [0x10, 5, 115, 111]) = .err x ∧ x.Short) ∧
    ∃ x, ValueSerError.Short x ∧ Daemon.handle sampleEnv (.addKv ['d'] ['k'] true true [0x10, 5, 115, 111]) {} = (.rejected x, {}) := by
  have e : deser sampleEnv none (Cursor.new ([0x10, 5, 115, 111] ++ [117, 114, 105])) =
      .ok (.string ['s', 'o', 'u', 'r', 'i'], ⟨[0x10, 5, 115, 111, 117, 114, 105], 7⟩) := by rfl
  exact ⟨by decide +kernel, C107_truncated e (by decide), C107_request e (by decide) _ _ _ _ _⟩

/-- And with a whole further message behind it the same value is kept. -/
example (d : Daemon) : d.handle sampleEnv (.addKv ['d'] ['k'] true true ([0x10, 1, 115] ++ [0x10, 1, 116])) =
    d.handle sampleEnv (.addKv ['d'] ['k'] true true [0x10, 1, 115]) :=
  C107_refuted_request (v := .string ['s']) (c := ⟨[0x10, 1, 115], 3⟩) (by rfl) _ _ _ _ _ _

end Souris
