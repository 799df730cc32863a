import Verif.Props.ValueLoop
import Verif.Props.Huffman

/-! # Values: C26 (round trip), C32 (tags) -/

namespace Souris

open Value

/-! ## C32: tag tables -/

/-- C32: a byte converts to a tag exactly when it is the code of that tag. -/
theorem C32_valueTy (b : UInt8) (t : ValueTy) : ValueTy.ofU8 b = .ok t ↔ b = t.toU8 := by
  constructor
  · intro h
    revert b
    have hall : ∀ n : Fin 256, ∀ t, ValueTy.ofU8 (UInt8.ofNat n.val) = .ok t → UInt8.ofNat n.val = t.toU8 := by
      intro n t
      cases t <;> revert n <;> decide +kernel
    intro b h
    have hb : UInt8.ofNat b.toNat = b := by simp
    have := hall ⟨b.toNat, b.toNat_lt⟩ t
    simp only [hb] at this
    exact this h
  · rintro rfl; exact ValueTy.ofU8_toU8 t

/-- C32: the codes of different tags differ. -/
theorem C32_valueTy_distinct (t u : ValueTy) (h : t.toU8 = u.toU8) : t = u := by
  have h1 := ValueTy.ofU8_toU8 t
  rw [h, ValueTy.ofU8_toU8 u] at h1
  simpa using h1.symm

/-- C32: bytes from 16 on are rejected, naming the byte. -/
theorem C32_valueTy_rejected (b : UInt8) : (∀ t : ValueTy, t.toU8 ≠ b) ↔ ValueTy.ofU8 b = .err (.invalidType b) := by
  constructor
  · intro h
    cases e : ValueTy.ofU8 b with
    | ok t => exact absurd ((C32_valueTy b t).mp e).symm (h t)
    | panic r => exact absurd e (ValueTy.ofU8_noPanic b r)
    | err x =>
      unfold ValueTy.ofU8 at e
      have key : ∀ (P : Prop) [Decidable P] (t : ValueTy) (y : Out ValueSerError ValueTy),
          (if P then .ok t else y) = .err x → y = .err x := by
        intro P _ t y hy
        by_cases hP : P
        · rw [if_pos hP] at hy; cases hy
        · rwa [if_neg hP] at hy
      repeat replace e := key _ _ _ e
      exact e.symm
  · intro h t ht
    rw [← ht, ValueTy.ofU8_toU8] at h
    cases h

/-- C32: signedness codes. -/
theorem C32_signedState (b : UInt8) (s : SignedState) : SignedState.ofU8 b = .ok s ↔ b = s.toU8 := by
  unfold SignedState.ofU8
  cases s <;> simp only [SignedState.toU8] <;> split_ifs <;> simp_all

/-- C32: other bytes are rejected. -/
theorem C32_signedState_rejected (b : UInt8) (h : ∀ s : SignedState, s.toU8 ≠ b) :
    SignedState.ofU8 b = .err (.invalidSignedStateDiscriminant b) := by
  have h0 := h .unsigned; have h1 := h .signedPositive; have h2 := h .signedNegative
  simp only [SignedState.toU8] at h0 h1 h2
  unfold SignedState.ofU8
  rw [if_neg (Ne.symm h0), if_neg (Ne.symm h1), if_neg (Ne.symm h2)]

/-- C32: compression codes. -/
theorem C32_compression (b : UInt8) (t : BinaryCompression) : BinaryCompression.ofByte b = .ok t ↔ b = t.toByte := by
  unfold BinaryCompression.ofByte
  cases t <;> simp only [BinaryCompression.toByte] <;> split_ifs <;> simp_all

/-- C32: other bytes are rejected. -/
theorem C32_compression_rejected (b : UInt8) (h : ∀ t : BinaryCompression, t.toByte ≠ b) :
    BinaryCompression.ofByte b = .err (.noCompressionTypeFound b) := by
  have h0 := h .nothing; have h1 := h .runLengthEncoding; have h2 := h .lempelZiv; have h3 := h .huffman
  simp only [BinaryCompression.toByte] at h0 h1 h2 h3
  unfold BinaryCompression.ofByte
  rw [if_neg (Ne.symm h0), if_neg (Ne.symm h1), if_neg (Ne.symm h2), if_neg (Ne.symm h3)]

/-- C32: whatever `ser` writes for a value, its first byte holds the value's tag in the upper four bits
(as the code table says), so the flags below never disturb it. -/
theorem C32_type_byte {env : Env} {h : Option (Huffman Char)} {v : Value} {bytes : List UInt8}
    (e : ser env h v = .ok bytes) : ∃ b rest, bytes = b :: rest ∧ b.toNat / 16 = v.asTy.toU8.toNat := by
  have key : ∀ (t : ValueTy) (f : UInt8) (rest : List UInt8), f < 16 → bytes = tyByte t f :: rest →
      ∃ b rest, bytes = b :: rest ∧ b.toNat / 16 = t.toU8.toNat := by
    intro t f rest hf hb
    refine ⟨_, rest, hb, ?_⟩
    clear hb
    revert f
    cases t <;> exact fun f hf => forall_lt16 (P := fun f => (tyByte _ f).toNat / 16 = _) (by decide +kernel) f hf
  have str : ∀ s, serString h s = .ok bytes → ∃ f rest, f < 16 ∧ bytes = tyByte .string f :: rest := by
    intro s hs
    unfold serString at hs
    simp only at hs
    split at hs
    · simp only [Out.ok.injEq] at hs; exact ⟨0, _, by decide, hs.symm⟩
    · split at hs
      · rw [Out.bind_eq_ok] at hs
        obtain ⟨x, _, hx⟩ := hs
        simp only [Out.pure_eq, Out.ok.injEq] at hx
        exact ⟨1, _, by decide, hx.symm⟩
      · simp only [Out.ok.injEq] at hs; exact ⟨0, _, by decide, hs.symm⟩
      · cases hs
  have len : ∀ (t : ValueTy) (n : Nat), ∃ f rest, f < 16 ∧ serLen t n = tyByte t f :: rest := by
    intro t n
    unfold serLen
    split
    · rename_i h7
      have : ∀ m : Fin 7, (UInt8.ofNat m.val <<< 1) < 16 := by decide +kernel
      exact ⟨_, [], this ⟨n, h7⟩, rfl⟩
    · exact ⟨1, _, by decide, rfl⟩
  cases v with
  | character c => simp only [ser, Out.ok.injEq] at e; exact key _ 0 _ (by decide) e.symm
  | string s =>
    obtain ⟨f, rest, hf, hb⟩ := str s (by simpa only [ser] using e)
    exact key _ f rest hf hb
  | binary b =>
    simp only [ser] at e
    rw [Out.bind_eq_ok] at e
    obtain ⟨⟨ct, bs⟩, _, hx⟩ := e
    simp only [Out.pure_eq, Out.ok.injEq] at hx
    exact key _ ct.toByte _ (by cases ct <;> decide) hx.symm
  | boolean b => simp only [ser, Out.ok.injEq] at e; exact key _ _ _ (by cases b <;> decide) e.symm
  | integer i =>
    simp only [ser, Out.ok.injEq] at e
    exact key _ _ _ (stateByte_lt _) e.symm
  | imaginary z => simp only [ser, Out.ok.injEq] at e; exact key _ _ _ z.ser_lt e.symm
  | timestamp t => simp only [ser, Out.ok.injEq] at e; exact key _ _ _ (stateByte_lt _) e.symm
  | json j =>
    simp only [ser] at e
    rw [Out.bind_eq_ok] at e
    obtain ⟨x, _, hx⟩ := e
    simp only [Out.pure_eq, Out.ok.injEq] at hx
    exact key _ 0 _ (by decide) hx.symm
  | null => simp only [ser, Out.ok.injEq] at e; exact key _ 0 _ (by decide) e.symm
  | single x => simp only [ser, Out.ok.injEq] at e; exact key _ 0 _ (by decide) e.symm
  | double x => simp only [ser, Out.ok.injEq] at e; exact key _ 0 _ (by decide) e.symm
  | array a =>
    simp only [ser] at e
    rw [Out.bind_eq_ok] at e
    obtain ⟨x, _, hx⟩ := e
    simp only [Out.pure_eq, Out.ok.injEq] at hx
    obtain ⟨f, rest, hf, hl⟩ := len .array a.length
    exact key _ f (rest ++ x) hf (by rw [← hx, hl]; rfl)
  | map m =>
    simp only [ser] at e
    rw [Out.bind_eq_ok] at e
    obtain ⟨x, _, hx⟩ := e
    simp only [Out.pure_eq, Out.ok.injEq] at hx
    obtain ⟨f, rest, hf, hl⟩ := len .map m.length
    exact key _ f (rest ++ x) hf (by rw [← hx, hl]; rfl)
  | timezone n =>
    simp only [ser] at e
    rw [Out.bind_eq_ok] at e
    obtain ⟨x, _, hx⟩ := e
    simp only [Out.pure_eq, Out.ok.injEq] at hx
    exact key _ 0 _ (by decide) hx.symm
  | ipv4 a b c d => simp only [ser, Out.ok.injEq] at e; exact key _ 0 _ (by decide) e.symm
  | ipv6 a b c d e f g i => simp only [ser, Out.ok.injEq] at e; exact key _ 0 _ (by decide) e.symm

example : ValueTy.ofU8 11 = .ok .array ∧ ValueTy.ofU8 16 = .err (.invalidType 16) := by decide
example : ∃ bytes, ser sampleEnv none (.array [.null, .integer (Integer.ofSigned 4 (-5))]) = .ok bytes ∧
    bytes.head? = some 0xB4 := ⟨_, rfl, rfl⟩

/-! ## C26: round trip -/

theorem inverts_of_parsed {env : Env} {h : Option (Huffman Char)} {bytes : List UInt8} {v : Value}
    (hp : Parsed env h bytes v) : Inverts (deser env h) bytes v := by
  intro pre tail hlen
  have h1 := hp pre tail [] hlen
  have h2 : Loops env h 1 [.foundValue v] (Cursor.At (pre ++ bytes) tail)
      (.ok (v, Cursor.At (pre ++ bytes) tail)) := .done rfl
  obtain ⟨n, h3⟩ := h1.loops h2
  have := deser_of_loops h3
  simpa [Cursor.At] using this

/-- C26, partial: for every lossless lz4 and every hash order, each storable value of any depth is
written, and reading the bytes back, with anything before and behind them, gives a value with the same
contents and stops exactly behind them. Missing: maps, empty arrays, misplaced leap seconds, JSON that its own
text form does not preserve, one-symbol coders, and texts and binary data stored under a code with one of the
lengths above 2 MiB that C15 tells; see `C26_refuted_*` and, for the last, `C26_binary_exact` and
`C26_string_exact`. -/
theorem C26_roundtrip_partial {env : Env} {h : Option (Huffman Char)} (hlz : env.lz.Lossless)
    (hord : HashOrder env.byteOrd) {v : Value} (hv : Storable env h v) :
    ∃ bytes v', ser env h v = .ok bytes ∧ SameAs v v' ∧ Inverts (deser env h) bytes v' := by
  obtain ⟨bytes, v', e, hs, hp⟩ := ser_parsed hlz hord hv
  exact ⟨bytes, v', e, hs.1, inverts_of_parsed hp⟩

/-- C26, partial: what is read back, written again, gives the same bytes. -/
theorem C26_stable_partial {env : Env} {h : Option (Huffman Char)} (hlz : env.lz.Lossless)
    (hord : HashOrder env.byteOrd) {v : Value} (hv : Storable env h v) :
    ∃ bytes v', ser env h v = .ok bytes ∧ SameAs v v' ∧ Inverts (deser env h) bytes v' ∧
      ser env h v' = .ok bytes := by
  obtain ⟨bytes, v', e, hs, hp⟩ := ser_parsed hlz hord hv
  exact ⟨bytes, v', e, hs.1, inverts_of_parsed hp, hs.2.2.trans e⟩

/-- C26, partial: when moreover the value's integers were built from native integers and none is an
unsigned zero (C04), the very same value comes back, with the same cached byte counts and hence
indistinguishable by any operation. -/
theorem C26_exact_partial {env : Env} {h : Option (Huffman Char)} (hlz : env.lz.Lossless)
    (hord : HashOrder env.byteOrd) {v : Value} (hv : Storable env h v)
    (hi : ∀ i, Sub (.integer i) v → i.Native ∧ ¬ (i.signedState = .unsigned ∧ i.value = 0))
    (hz : ∀ a b, Sub (.imaginary (.cartesian a b)) v →
      (a.Native ∧ ¬ (a.signedState = .unsigned ∧ a.value = 0)) ∧
      (b.Native ∧ ¬ (b.signedState = .unsigned ∧ b.value = 0))) :
    ∃ bytes, ser env h v = .ok bytes ∧ Inverts (deser env h) bytes v := by
  obtain ⟨bytes, v', e, hs, hp⟩ := ser_parsed hlz hord hv
  have : v' = v := by
    refine hs.2.1 ⟨fun i h => (hi i h).1.normUsed_eq (hi i h).2, fun z h => ?_⟩
    cases z with
    | polar m a => rfl
    | cartesian a b =>
      obtain ⟨h1, h2⟩ := hz a b h
      simp only [Imaginary.norm, h1.1.normUsed_eq h1.2, h2.1.normUsed_eq h2.2]
  exact ⟨bytes, e, this ▸ inverts_of_parsed hp⟩

/-- A storable value of three levels. -/
example : Storable sampleEnv none (.array [.null, .array [.string ['a', 'é'], .boolean true], .character '🐭']) := by
  have str : StringStorable none ['a', 'é'] := ⟨by decide, by simp⟩
  refine .array (by simp) (by decide) (by decide) ?_
  simp only [List.mem_cons, List.not_mem_nil, or_false, forall_eq_or_imp, forall_eq]
  refine ⟨.null, .array (by simp) (by decide) (by decide) ?_, .character _⟩
  simp only [List.mem_cons, List.not_mem_nil, or_false, forall_eq_or_imp, forall_eq]
  exact ⟨.string str, .boolean _⟩

/-- C26 is violated by every value that is or contains a map or an empty array: no byte string at all
deserialises to a value with those contents. -/
theorem C26_refuted_maps_and_empty_arrays (env : Env) (h : Option (Huffman Char)) (v : Value)
    (hv : HasMap v ∨ HasEmptyArray v) (c c' : Cursor UInt8) (v' : Value)
    (e : deser env h c = .ok (v', c')) : ¬ SameAs v v' := by
  intro hs
  obtain ⟨n, _, o, hl, ho⟩ := C27_terminates env h c
  rw [ho] at e
  have hclean := loops_clean hl (by intro st hst; rw [List.mem_singleton.mp hst]; trivial) v' c' e
  rcases hs.unclean hv with h | h
  · exact hclean.1 h
  · exact hclean.2 h

/-- C26 is violated in particular by maps: `deser` returns an error or panics on what `ser` wrote for
any map. -/
theorem C26_refuted_map (env : Env) (h : Option (Huffman Char)) (m : List (List Char × Value))
    (bytes : List UInt8) (e : ser env h (.map m) = .ok bytes) :
    ∀ x, deser env h (Cursor.new bytes) ≠ .ok x := by
  intro x hx
  obtain ⟨v', c'⟩ := x
  obtain ⟨b, rest, rfl, hb⟩ := C32_type_byte e
  obtain ⟨n, _, o, hl, ho⟩ := C27_terminates env h (Cursor.new (b :: rest))
  rw [ho] at hx
  have hty : ValueTy.ofU8 ((b &&& 0b11110000) >>> 4) = .ok .map := by
    rw [C32_valueTy]
    have hall : ∀ k : Fin 256, (UInt8.ofNat k.val).toNat / 16 = 8 →
        (UInt8.ofNat k.val &&& 0b11110000) >>> 4 = ValueTy.map.toU8 := by decide +kernel
    have := hall ⟨b.toNat, b.toNat_lt⟩
    simp only [show UInt8.ofNat b.toNat = b by simp] at this
    exact this hb
  have hnext : Parser.next ValueSerError.notEnoughBytes (Cursor.new (b :: rest)) = .ok (b, ⟨b :: rest, 1⟩) := by
    simp [Parser.next, Cursor.next, Cursor.new]
  have hstep : ∀ s c1, step env h .valueNeeded [] (Cursor.new (b :: rest)) = .ok (s, c1) →
      ∃ sf l by', s = .inr (.map sf l by' :: []) := by
    intro s c1 hs
    simp only [step] at hs
    rw [Parser.bind_apply, Out.bind_eq_ok] at hs
    obtain ⟨⟨r, c2⟩, e1, e2⟩ := hs
    rw [parsePrimitive_eq, Parser.bind_apply, hnext] at e1
    simp only [Out.ok_bind] at e1
    rw [hty, Parser.bind_apply] at e1
    simp only [Parser.lift_ok, Out.ok_bind, primBody] at e1
    rw [Parser.bind_apply, Out.bind_eq_ok] at e1
    obtain ⟨⟨len, c3⟩, _, e3⟩ := e1
    simp only [Parser.pure_apply, Out.ok.injEq, Prod.mk.injEq] at e3
    obtain ⟨rfl, rfl⟩ := e3
    simp only at e2
    split at e2
    · simp only [Parser.pure_apply, Out.ok.injEq, Prod.mk.injEq] at e2
      exact ⟨_, _, _, e2.1.symm⟩
    · simp at e2
  cases hl with
  | done e1 => obtain ⟨_, _, _, h⟩ := hstep _ _ e1; cases h
  | err e1 => cases hx
  | panic e1 => cases hx
  | more e1 hn =>
    obtain ⟨_, _, _, h⟩ := hstep _ _ e1
    simp only [Sum.inr.injEq] at h
    subst h
    exact map_doomed hn _ hx

/-- C26 is violated: a timestamp with a leap-second fraction outside second 59 exists in chrono, is
written, and is refused on reading. -/
theorem C26_refuted_leap_second (env : Env) (h : Option (Huffman Char)) :
    ∃ t : Timestamp, t.Valid ∧ ∃ bytes, ser env h (.timestamp t) = .ok bytes ∧
      deser env h (Cursor.new bytes) = .err .invalidDateOrTime :=
  ⟨⟨2024, 2, 29, 12, 30, 15, 1500000000⟩, by unfold Timestamp.Valid; decide, _, rfl, rfl⟩

/-- C26 is violated: with the coder of a text that repeats one character, that text itself comes back
empty. -/
theorem C26_refuted_one_symbol (env : Env) {ord : List (Node Char × Nat) → List (Node Char × Nat)}
    (hord : HashOrder ord) (x : Char) (n : Nat) :
    ∃ coder bytes, Huffman.new ord (List.replicate (n + 1) x) = .ok coder ∧
      ser env (some coder) (.string (List.replicate (n + 1) x)) = .ok bytes ∧
      Inverts (deser env (some coder)) bytes (.string []) := by
  have he : (Huffman.ofRoot (.leaf x)).encode (List.replicate (n + 1) x) = .ok (Bits.ofList []) := by
    have hcs : (List.replicate (n + 1) x).map (Huffman.codeOf (.leaf x))
        = (List.replicate (n + 1) ([] : List Bool)).map some := by simp [Huffman.codeOf]
    rw [Huffman.encode_ok _ hcs]
    simp
  obtain ⟨bytes, hser, hrd⟩ := Bits.reads_ofList (l := []) (by simp)
  refine ⟨_, tyByte .string 1 :: bytes, new_replicate hord x n, ?_, ?_⟩
  · simp only [ser, serString, he, hser]; rfl
  · have hp : Reads (parsePrimitive env (some (Huffman.ofRoot (.leaf x)))) (tyByte .string 1 :: bytes)
        (.value (.string [])) := by
      refine prim_reads (by decide) ?_
      refine ret_reads (fun s => ParseResult.value (.string s)) ?_
      unfold parseString
      rw [if_pos (by decide)]
      refine Reads.bind' (b2 := []) (by simp) (hrd.mapErr _) ?_
      rw [Huffman.decode_ofList]
      simp only [Huffman.decodeAux, ne_eq, not_true_eq_false, if_false]
      exact (Reads.lift []).mapErr _
    exact inverts_of_parsed (parsed_value hp)

end Souris
