import Verif.Lemmas.Value
import Verif.Spec.ValueEq
import Verif.Props.BinaryExact
import Verif.Props.Integer

/-! # Lemmas about reading back what `Value::ser` wrote -/

namespace Souris

theorem Reads.of_inverts {ε α : Type} {p : Parser ε α} {bs : List UInt8} {x : α} (h : Inverts p bs x) :
    Reads p bs x := by
  intro pre tail hlen
  have := h pre tail hlen
  simpa [Cursor.At] using this

namespace Value

/-! ## Pieces -/

theorem uintP_reads {w n : Nat} (hw : Width w) (hn : IsUnsigned w n) :
    Reads (uintP w) (Integer.ofUnsigned w n).ser.2 n := by
  have := Bits.uint_reads hw hn ValueSerError.integer
    (k' := fun m => (pure m : Parser ValueSerError Nat)) (Reads.pure n)
  rw [List.append_nil] at this
  have he : uintP w = ((Integer.deser .unsigned).mapErr ValueSerError.integer >>= fun i =>
      (Parser.lift (i.toUnsigned w)).mapErr ValueSerError.integer >>= fun m => pure m) := by
    funext c
    unfold uintP intP
    simp only [Parser.bind_apply]
    cases Parser.mapErr ValueSerError.integer (Integer.deser .unsigned) c with
    | ok x =>
      simp only [Out.ok_bind]
      cases Parser.mapErr ValueSerError.integer (Parser.lift (Integer.toUnsigned w x.1)) x.2 <;> rfl
    | err x => rfl
    | panic x => rfl
  rw [he]
  exact this

theorem intP_reads {i : Integer} (hi : i.Serialisable) : Reads (intP i.signedState) i.ser.2 i.normUsed :=
  hi.reads.mapErr _

theorem signedOfU8_toU8 (s : SignedState) : SignedState.ofU8 s.toU8 = .ok s := by cases s <;> rfl

theorem stateByte (t : ValueTy) (s : SignedState) : tyByte t s.toU8 &&& 3 = s.toU8 := by
  cases t <;> cases s <;> rfl

theorem stateByte_lt (s : SignedState) : s.toU8 < 16 := by cases s <;> decide

/-- What follows the type byte in `parse_primitive`. -/
def primBody (env : Env) (h : Option (Huffman Char)) (byte : UInt8) : ValueTy → Parser ValueSerError ParseResult
  | .integer => do
    let ss ← (Parser.lift (SignedState.ofU8 (byte &&& 3))).mapErr .integer
    let i ← intP ss
    return .value (.integer i)
  | .imaginary => do
    let z ← (Imaginary.deser (byte &&& 0b1111)).mapErr .integer
    return .value (.imaginary z)
  | .character => do
    let n ← uintP 4
    let ch ← Parser.lift (charOf n)
    return .value (.character ch)
  | .timestamp => do
    let t ← timestampP byte
    return .value (.timestamp t)
  | .string => do
    let s ← parseString h byte
    return .value (.string s)
  | .json => return .json
  | .binary => do
    let ct ← (Parser.lift (BinaryCompression.ofByte (byte &&& 0b1111))).mapErr .binary
    let b ← (Binary.deser env.lz ct).mapErr .binary
    return .value (.binary b)
  | .boolean => return .value (.boolean (byte &&& 1 > 0))
  | .null => return .value .null
  | .singleFloat => do
    let bs ← Parser.read .notEnoughBytes 4
    return .value (.single (UInt32.ofNat (ofLe bs)))
  | .doubleFloat => do
    let bs ← Parser.read .notEnoughBytes 8
    return .value (.double (UInt64.ofNat (ofLe bs)))
  | .map => do
    let len ← lenP byte .map
    return .newMap len byte
  | .array => do
    let len ← lenP byte .array
    return .newArray len
  | .timezone => return .timezone
  | .ipv4Addr => do
    let bs ← Parser.read .notEnoughBytes 4
    return .value (.ipv4 (bs.getD 0 0) (bs.getD 1 0) (bs.getD 2 0) (bs.getD 3 0))
  | .ipv6Addr => do
    let bs ← Parser.read .notEnoughBytes 16
    return .value (.ipv6 (at16 bs 0) (at16 bs 1) (at16 bs 2) (at16 bs 3) (at16 bs 4) (at16 bs 5)
      (at16 bs 6) (at16 bs 7))

theorem parsePrimitive_eq (env : Env) (h : Option (Huffman Char)) : parsePrimitive env h = (do
    let byte ← Parser.next .notEnoughBytes
    let ty ← Parser.lift (ValueTy.ofU8 ((byte &&& 0b11110000) >>> 4))
    primBody env h byte ty) := by
  unfold parsePrimitive
  congr 1

theorem prim_reads {env : Env} {h : Option (Huffman Char)} {t : ValueTy} {f : UInt8} (hf : f < 16)
    {bs : List UInt8} {r : ParseResult} (hk : Reads (primBody env h (tyByte t f) t) bs r) :
    Reads (parsePrimitive env h) (tyByte t f :: bs) r := by
  rw [parsePrimitive_eq]
  refine Reads.bind' (b1 := [tyByte t f]) (b2 := bs) rfl (Reads.next _ _) ?_
  refine Reads.bind' (b1 := []) (b2 := bs) rfl (x := t) ?_ hk
  rw [tyByte_ty t f hf, ValueTy.ofU8_toU8]
  exact Reads.lift t

theorem ret_reads {ε α β : Type} {p : Parser ε α} {bs : List UInt8} {x : α} (f : α → β) (h : Reads p bs x) :
    Reads (p >>= fun a => (pure (f a) : Parser ε β)) bs (f x) :=
  Reads.bind' (b2 := []) (by simp) h (Reads.pure _)

theorem lenP_reads {env : Env} {h : Option (Huffman Char)} {t : ValueTy} {n : Nat} (hn : n < 2 ^ 64)
    {mk : Nat → UInt8 → ParseResult}
    (hb : ∀ b, primBody env h b t = lenP b t >>= fun len => pure (mk len b)) :
    ∃ b, Reads (parsePrimitive env h) (serLen t n) (mk n b) := by
  have key : ∀ (f : UInt8) (bs : List UInt8), f < 16 →
      Reads (if tyByte t f &&& 1 > 0 then uintP 8
        else (pure ((tyByte t f &&& 0b00001110) >>> 1).toNat : Parser ValueSerError Nat)) bs n →
      ∃ b, Reads (parsePrimitive env h) (tyByte t f :: bs) (mk n b) := by
    intro f bs hf hr
    refine ⟨tyByte t f, prim_reads hf ?_⟩
    rw [hb]
    refine ret_reads (fun len => mk len (tyByte t f)) ?_
    unfold lenP
    refine Reads.bind' (b1 := []) rfl (x := t) ?_ ?_
    · rw [tyByte_ty t f hf, ValueTy.ofU8_toU8]; exact Reads.lift t
    · rw [if_pos rfl]; exact hr
  unfold serLen
  by_cases h7 : n < 7
  · rw [if_pos h7]
    have hall : ∀ m : Fin 7, (UInt8.ofNat m.val <<< 1) < 16 ∧ (UInt8.ofNat m.val <<< 1) &&& 1 = 0 ∧
        (((UInt8.ofNat m.val <<< 1) &&& 0b00001110) >>> 1).toNat = m.val := by decide +kernel
    obtain ⟨h1, h2, h3⟩ := hall ⟨n, h7⟩
    simp only at h1 h2 h3
    refine key _ [] h1 ?_
    rw [tyByte_and1 _ _ h1, h2, if_neg (by decide), tyByte_and14 _ _ h1, h3]
    exact Reads.pure n
  · rw [if_neg h7]
    refine key 1 _ (by decide) ?_
    rw [tyByte_and1 _ _ (by decide), if_pos (by decide)]
    exact uintP_reads (by unfold Width; decide) hn

theorem bytesToRead_kept {n : Nat} (h : KeptLength n) : Bits.bytesToRead n = (n + 7) / 8 :=
  h.2 _ (Bits.roundF32_nearest n)

theorem keptLength_iff {n : Nat} (hn : n < 2 ^ 64) : KeptLength n ↔ Bits.bytesToRead n = (n + 7) / 8 := by
  refine ⟨bytesToRead_kept, fun h => ⟨hn, fun m hm => ?_⟩⟩
  rw [Bits.nearest_unique hm (Bits.roundF32_nearest n)]
  exact h

theorem keptLength_small {n : Nat} (h : n ≤ 2 ^ 24) : KeptLength n :=
  (keptLength_iff (by omega)).mpr (Bits.bytesToRead_small h)

/-- Binary data of up to 2 MiB is kept. -/
theorem binaryKept_small {env : Env} (hord : HashOrder env.byteOrd) {b : List UInt8} (h : b.length ≤ 2 ^ 21) :
    BinaryKept env b := by
  refine ⟨by omega, fun h2 _ coder bits e => keptLength_small ?_⟩
  have hne : b ≠ [] := by
    obtain ⟨x, hx, _⟩ := h2
    exact List.ne_nil_of_mem hx
  obtain ⟨h', bits', e', hle⟩ := C24_no_longer hord b hne
  rw [e] at e'
  simp only [Out.ok.injEq, Prod.mk.injEq] at e'
  rw [e'.2]
  omega

theorem serString_reads {h : Option (Huffman Char)} {s : List Char} (hs : StringStorable h s) (env : Env) :
    ∃ bytes, serString h s = .ok bytes ∧ Reads (parsePrimitive env h) bytes (.value (.string s)) := by
  have plain : Reads (parsePrimitive env h)
      (tyByte .string 0 :: ((Integer.ofUnsigned 8 (utf8 s).length).ser.2 ++ utf8 s)) (.value (.string s)) := by
    refine prim_reads (by decide) ?_
    refine ret_reads (fun s => ParseResult.value (.string s)) ?_
    unfold parseString
    rw [if_neg (by decide)]
    refine Reads.bind (uintP_reads (by unfold Width; decide) hs.1) ?_
    refine Reads.bind' (b2 := []) (by simp) (Reads.read _ rfl) ?_
    rw [utf8Decode_utf8]
    exact Reads.lift s
  cases h with
  | none => exact ⟨_, rfl, plain⟩
  | some coder =>
    obtain ⟨⟨l, r, rfl⟩, hb⟩ := hs.2 coder rfl
    by_cases hall : ∀ x ∈ s, x ∈ (Node.branch l r).leaves
    · obtain ⟨cs, hcs⟩ := Huffman.exists_codes _ s hall
      have he := Huffman.encode_ok _ hcs
      have hlen := hb _ he
      have hlen' : KeptLength cs.flatten.length := hlen
      obtain ⟨bytes, hser, hrd⟩ := Bits.reads_kept hlen'.1 (bytesToRead_kept hlen')
      refine ⟨tyByte .string 1 :: bytes, ?_, ?_⟩
      · unfold serString; simp only [he, hser]; rfl
      · refine prim_reads (by decide) ?_
        refine ret_reads (fun s => ParseResult.value (.string s)) ?_
        unfold parseString
        rw [if_pos (by decide)]
        refine Reads.bind' (b2 := []) (by simp) (hrd.mapErr _) ?_
        rw [Huffman.decode_ofList, Huffman.decodeAux_codes _ ⟨l, r, rfl⟩ s cs hcs []]
        exact (Reads.lift s).mapErr _
    · push Not at hall
      refine ⟨_, ?_, plain⟩
      unfold serString
      simp only [Huffman.encode_err _ hall]

theorem charOf_toNat (c : Char) : charOf c.toNat = .ok c := by
  unfold charOf
  have h : c.toNat.isValidChar := c.valid
  rw [dif_pos h]
  rfl

theorem char_lt (c : Char) : IsUnsigned 4 c.toNat := by
  have : c.toNat < 2 ^ 32 := c.val.toNat_lt
  exact this

theorem timestamp_reads {t : Timestamp} (hv : t.Valid) (hl : t.LeapAt59) (env : Env)
    (h : Option (Huffman Char)) :
    Reads (parsePrimitive env h) (serTimestamp t) (.value (.timestamp t)) := by
  obtain ⟨⟨⟨hy1, hy2⟩, ⟨hm1, hm2⟩, ⟨hd1, hd2⟩⟩, hh, hmi, hs, hn⟩ := hv
  have hdays := monthDays_le t.year t.month
  have w4 : Width 4 := by unfold Width; decide
  have hu : ∀ n, n < 2 ^ 32 → IsUnsigned 4 n := fun n h => h
  have hys : IsSigned 4 t.year := by
    constructor
    · calc (-(2 ^ (8 * 4 - 1)) : Int) ≤ -262143 := by norm_num
        _ ≤ _ := hy1
    · calc t.year ≤ 262142 := hy2
        _ < (2 ^ (8 * 4 - 1) : Int) := by norm_num
  have hi : (Integer.ofSigned 4 t.year).Native := .signed w4 hys
  have hst : (Integer.ofSigned 4 t.year).signedState ≠ .unsigned := by
    unfold Integer.ofSigned; split_ifs <;> simp
  have hnorm : (Integer.ofSigned 4 t.year).normUsed = Integer.ofSigned 4 t.year :=
    hi.normUsed_eq (fun h => hst h.1)
  have hstate : (Integer.ofSigned 4 t.year).ser.1 = (Integer.ofSigned 4 t.year).signedState :=
    Integer.WF.ser_state _
  unfold serTimestamp
  refine prim_reads (by rw [hstate]; exact stateByte_lt _) ?_
  refine ret_reads (fun t => ParseResult.value (.timestamp t)) ?_
  rw [hstate]
  unfold timestampP
  refine Reads.bind' (b1 := []) rfl (x := (Integer.ofSigned 4 t.year).signedState) ?_ ?_
  · rw [stateByte, signedOfU8_toU8]; exact (Reads.lift _).mapErr _
  refine Reads.bind (intP_reads hi.serialisable) ?_
  refine Reads.bind' (b1 := []) rfl (x := t.year) ?_ ?_
  · rw [hnorm, C01_signed_roundtrip w4 hys]; exact (Reads.lift _).mapErr _
  refine Reads.bind (uintP_reads w4 (hu _ (by omega))) ?_
  refine Reads.bind (uintP_reads w4 (hu _ (by omega))) ?_
  have hdate : Timestamp.dateOk t.year t.month t.day = true :=
    dateOk_iff.mpr ⟨⟨hy1, hy2⟩, ⟨hm1, hm2⟩, hd1, hd2⟩
  rw [if_neg (by rw [hdate]; simp)]
  refine Reads.bind (uintP_reads w4 (hu _ (by omega))) ?_
  refine Reads.bind (uintP_reads w4 (hu _ (by omega))) ?_
  refine Reads.bind (uintP_reads w4 (hu _ (by omega))) ?_
  refine Reads.bind' (b2 := []) (by simp) (uintP_reads (n := t.nano) w4 (hu _ (by omega))) ?_
  have htime : Timestamp.timeOk t.hour t.minute t.sec t.nano = true := by
    simp only [Timestamp.timeOk, decide_eq_true_eq]
    exact ⟨hh, hmi, hs, hn, hl⟩
  rw [if_neg (by rw [htime]; simp)]
  exact Reads.pure t

/-! ## The loop -/

/-- Some iterations of the loop. -/
inductive Steps (env : Env) (h : Option (Huffman Char)) :
    List DState → Cursor UInt8 → List DState → Cursor UInt8 → Prop
  | refl (s : List DState) (c : Cursor UInt8) : Steps env h s c s c
  | head {st : DState} {stack s1 s2 : List DState} {c c1 c2 : Cursor UInt8}
      (e : step env h st stack c = .ok (.inr s1, c1)) (hs : Steps env h s1 c1 s2 c2) :
      Steps env h (st :: stack) c s2 c2

theorem Steps.trans {env : Env} {h : Option (Huffman Char)} {s1 s2 s3 : List DState} {c1 c2 c3 : Cursor UInt8}
    (h1 : Steps env h s1 c1 s2 c2) (h2 : Steps env h s2 c2 s3 c3) : Steps env h s1 c1 s3 c3 := by
  induction h1 with
  | refl => exact h2
  | head e _ ih => exact .head e (ih h2)

theorem Steps.one {env : Env} {h : Option (Huffman Char)} {st : DState} {stack s1 : List DState} {c c1 : Cursor UInt8}
    (e : step env h st stack c = .ok (.inr s1, c1)) : Steps env h (st :: stack) c s1 c1 :=
  .head e (.refl _ _)

theorem Steps.loops {env : Env} {h : Option (Huffman Char)} {s1 s2 : List DState} {c1 c2 : Cursor UInt8}
    (h1 : Steps env h s1 c1 s2 c2) {n : Nat} {o : Out ValueSerError (Value × Cursor UInt8)}
    (h2 : Loops env h n s2 c2 o) : ∃ m, Loops env h m s1 c1 o := by
  induction h1 with
  | refl => exact ⟨n, h2⟩
  | head e _ ih =>
    obtain ⟨m, hm⟩ := ih h2
    exact ⟨m + 1, .more e hm⟩

/-- The loop, needing a value, finds `v` in `bytes`, whatever the rest of the stack. -/
def Parsed (env : Env) (h : Option (Huffman Char)) (bytes : List UInt8) (v : Value) : Prop :=
  ∀ pre tail : List UInt8, ∀ stack : List DState, (pre ++ bytes ++ tail).length < usizeMod →
    Steps env h (.valueNeeded :: stack) (Cursor.At pre (bytes ++ tail))
      (.foundValue v :: stack) (Cursor.At (pre ++ bytes) tail)

theorem parsed_value {env : Env} {h : Option (Huffman Char)} {bytes : List UInt8} {v : Value}
    (hr : Reads (parsePrimitive env h) bytes (.value v)) : Parsed env h bytes v := by
  intro pre tail stack hlen
  refine Steps.one ?_
  simp only [step]
  rw [Parser.bind_apply, hr pre tail hlen]
  rfl

/-- JSON and timezones: a marker, then a string. -/
theorem parsed_wrapped {env : Env} {h : Option (Huffman Char)} {bytes : List UInt8} {s : List Char} {v : Value}
    {t : ValueTy} {r : ParseResult} {need : DState}
    (hp : ∀ b, primBody env h b t = pure r)
    (hstep : ∀ stack c c', parsePrimitive env h c = .ok (r, c') →
      step env h .valueNeeded stack c = .ok (.inr (.valueNeeded :: need :: stack), c'))
    (hafter : ∀ stack, afterValue env (.string s) (need :: stack) = .ok (.inr (.foundValue v :: stack)))
    (hs : Reads (parsePrimitive env h) bytes (.value (.string s))) :
    Parsed env h (tyByte t 0 :: bytes) v := by
  intro pre tail stack hlen
  have h1 : Reads (parsePrimitive env h) [tyByte t 0] r := by
    refine prim_reads (by decide) ?_
    rw [hp]
    exact Reads.pure r
  have e1 := h1 pre (bytes ++ tail) (by simpa using hlen)
  have e2 := hstep stack _ _ e1
  refine .head (by simpa using e2) ?_
  have hl2 : (pre ++ [tyByte t 0] ++ bytes ++ tail).length < usizeMod := by simpa using hlen
  refine Steps.trans (parsed_value hs (pre ++ [tyByte t 0]) tail (need :: stack) hl2) ?_
  have e3 : step env h (.foundValue (.string s)) (need :: stack) (Cursor.At (pre ++ [tyByte t 0] ++ bytes) tail)
      = .ok (.inr (.foundValue v :: stack), Cursor.At (pre ++ [tyByte t 0] ++ bytes) tail) := by
    simp only [step, hafter stack, Parser.lift_ok]
  have := Steps.one e3
  simpa using this

/-- Every integer in the value already has the form in which it comes back. -/
def Normal (v : Value) : Prop :=
  (∀ i, Sub (.integer i) v → i.normUsed = i) ∧ (∀ z, Sub (.imaginary z) v → z.norm = z)

/-- What comes back for a value; written again it gives the same bytes. -/
def Back (env : Env) (h : Option (Huffman Char)) (v v' : Value) : Prop :=
  SameAs v v' ∧ (Normal v → v' = v) ∧ ser env h v' = ser env h v

theorem Back.leaf {env : Env} {h : Option (Huffman Char)} {v : Value} (hs : SameAs v v) :
    Back env h v v := ⟨hs, fun _ => rfl, rfl⟩

theorem normUsed_ser (i : Integer) : i.normUsed.ser = i.ser := by
  unfold Integer.normUsed Integer.ser
  by_cases h : i.used ≤ 1 ∧ (i.content.headD 0).toNat ≤ oneByteMaxSize
  · simp only [if_pos h]
    split
    · rw [if_pos ⟨Nat.le_refl 1, h.2⟩]
    · rw [if_pos ⟨Nat.zero_le 1, h.2⟩]
  · simp only [if_neg h]

theorem norm_ser (z : Imaginary) : z.norm.ser = z.ser := by
  cases z with
  | cartesian a b => simp only [Imaginary.norm, Imaginary.ser, normUsed_ser]
  | polar m a => rfl

theorem back_array_eq {env : Env} {co : Option (Huffman Char)} {a a' : List Value}
    (h : List.Forall₂ (Back env co) a a') (hn : ∀ v ∈ a, Normal v) : a' = a := by
  induction h with
  | nil => rfl
  | cons h1 _ ih => rw [h1.2.1 (hn _ (by simp)), ih fun v hv => hn v (by simp [hv])]

/-- The elements of an array. -/
theorem parsed_elements {R : Value → Value → Prop} {env : Env} {h : Option (Huffman Char)} (a : List Value)
    (ih : ∀ v ∈ a, ∃ bytes v', ser env h v = .ok bytes ∧ R v v' ∧ Parsed env h bytes v') :
    ∃ bytes a', serList env h a = .ok bytes ∧ List.Forall₂ R a a' ∧
      ∀ (pre tail : List UInt8) (stack : List DState) (soFar : List Value), a ≠ [] →
        (pre ++ bytes ++ tail).length < usizeMod →
        Steps env h (.array soFar a.length :: stack) (Cursor.At pre (bytes ++ tail))
          (.foundValue (.array (soFar ++ a')) :: stack) (Cursor.At (pre ++ bytes) tail) := by
  induction a with
  | nil => exact ⟨[], [], rfl, .nil, fun _ _ _ _ hne => absurd rfl hne⟩
  | cons v a iha =>
    obtain ⟨b1, v', e1, s1, p1⟩ := ih v (by simp)
    obtain ⟨b2, a', e2, s2, p2⟩ := iha (fun w hw => ih w (by simp [hw]))
    refine ⟨b1 ++ b2, v' :: a', ?_, .cons s1 s2, ?_⟩
    · simp only [serList, e1, e2]; rfl
    · intro pre tail stack soFar _ hlen
      refine .head (s1 := .valueNeeded :: .array soFar (v :: a).length :: stack)
        (c1 := Cursor.At pre (b1 ++ b2 ++ tail)) rfl ?_
      have hl1 : (pre ++ b1 ++ (b2 ++ tail)).length < usizeMod := by simpa using hlen
      have q1 := p1 pre (b2 ++ tail) (.array soFar (v :: a).length :: stack) hl1
      rw [List.append_assoc b1]
      refine q1.trans ?_
      cases a with
      | nil =>
        cases s2
        simp only [serList, Out.ok.injEq] at e2
        subst e2
        refine .head (s1 := .foundValue (.array (soFar ++ [v'])) :: stack) (c1 := Cursor.At (pre ++ b1) tail) rfl ?_
        have := Steps.refl (env := env) (h := h) (.foundValue (.array (soFar ++ [v'])) :: stack)
          (Cursor.At (pre ++ b1) tail)
        simpa using this
      | cons w a =>
        refine .head (s1 := .array (soFar ++ [v']) (w :: a).length :: stack)
          (c1 := Cursor.At (pre ++ b1) (b2 ++ tail)) ?_ ?_
        · simp [step, afterValue]
        · have hl2 : (pre ++ b1 ++ b2 ++ tail).length < usizeMod := by simpa using hlen
          have q2 := p2 (pre ++ b1) tail stack (soFar ++ [v']) (by simp) hl2
          simpa using q2

theorem sameAs_array {a a' : List Value} (h : List.Forall₂ SameAs a a') : SameAs (.array a) (.array a') := by
  refine .array h.length_eq ?_
  intro i v v' hv hv'
  induction h generalizing i with
  | nil => simp at hv
  | cons h1 _ ih =>
    cases i with
    | zero => simp only [List.getElem?_cons_zero, Option.some.injEq] at hv hv'; rw [← hv, ← hv']; exact h1
    | succ i => exact ih i (by simpa using hv) (by simpa using hv')

theorem back_array {env : Env} {co : Option (Huffman Char)} {a a' : List Value}
    (h : List.Forall₂ (Back env co) a a') : Back env co (.array a) (.array a') := by
  refine ⟨sameAs_array (h.imp fun _ _ h => h.1), fun hn => ?_, ?_⟩
  rotate_left
  · have hl : serList env co a' = serList env co a := by
      induction h with
      | nil => rfl
      | cons h1 _ ih => simp only [serList, h1.2.2, ih]
    simp only [ser, hl, h.length_eq]
  rw [back_array_eq h fun v hv => ⟨fun i hi => hn.1 i (.array hv hi), fun z hz => hn.2 z (.array hv hz)⟩]

theorem readU32_ofNat (x : UInt32) : UInt32.ofNat (ofLe (leBytes 4 x.toNat)) = x := by
  rw [ofLe_leBytes_of_lt]
  · exact UInt32.ofNat_toNat
  · exact x.toNat_lt

theorem at16_le16 (x : UInt16) : UInt16.ofNat (ofLe (le16 x)) = x := by
  unfold le16
  rw [ofLe_leBytes_of_lt]
  · exact UInt16.ofNat_toNat
  · exact x.toNat_lt

theorem le16_two (x : UInt16) : ∃ lo hi, le16 x = [lo, hi] ∧ UInt16.ofNat (ofLe [lo, hi]) = x := by
  have hl : (le16 x).length = 2 := by simp [le16]
  match h : le16 x, hl with
  | [lo, hi], _ => exact ⟨lo, hi, rfl, by rw [← h]; exact at16_le16 x⟩

/-- JSON that is read as something, perhaps something else. -/
theorem parsed_json {env : Env} {h : Option (Huffman Char)} {j j' : SJValue} (hs : StringStorable h (env.jsonPrint j))
    (hj : env.jsonParse (env.jsonPrint j) = some j') :
    ∃ bytes, ser env h (.json j) = .ok bytes ∧ Parsed env h bytes (.json j') := by
  obtain ⟨bytes, e, hr⟩ := serString_reads hs env
  refine ⟨tyByte .json 0 :: bytes, by simp only [ser, e]; rfl, ?_⟩
  refine parsed_wrapped (r := .json) (need := .jsonNeeded) (fun _ => rfl) ?_ ?_ hr
  · intro stack c c' e
    simp only [step]
    rw [Parser.bind_apply, e]
    rfl
  · intro stack; simp only [afterValue, hj]

/-- An array of values that are read. -/
theorem parsed_array {R : Value → Value → Prop} {env : Env} {h : Option (Huffman Char)} {a : List Value} (hne : a ≠ [])
    (hl : a.length < 2 ^ 64) (hc : a.length ≤ env.arrayCapMax)
    (ih : ∀ v ∈ a, ∃ bytes v', ser env h v = .ok bytes ∧ R v v' ∧ Parsed env h bytes v') :
    ∃ bytes a', ser env h (.array a) = .ok bytes ∧ List.Forall₂ R a a' ∧ Parsed env h bytes (.array a') := by
  obtain ⟨bytes, a', e, hs, hp⟩ := parsed_elements a ih
  refine ⟨serLen .array a.length ++ bytes, a', by simp only [ser, e]; rfl, hs, ?_⟩
  obtain ⟨_, hr⟩ := lenP_reads (env := env) (h := h) (t := .array) hl
    (mk := fun n _ => .newArray n) (fun b => rfl)
  intro pre tail stack hlen
  have hl1 : (pre ++ serLen .array a.length ++ (bytes ++ tail)).length < usizeMod := by simpa using hlen
  have e1 := hr pre (bytes ++ tail) hl1
  rw [List.append_assoc]
  refine .head (s1 := .array [] a.length :: stack)
    (c1 := Cursor.At (pre ++ serLen .array a.length) (bytes ++ tail)) ?_ ?_
  · simp only [step]
    rw [Parser.bind_apply, e1]
    simp only [Out.ok_bind]
    rw [if_pos hc]
    rfl
  · have hl2 : (pre ++ serLen .array a.length ++ bytes ++ tail).length < usizeMod := by simpa using hlen
    have := hp (pre ++ serLen .array a.length) tail stack [] hne hl2
    simpa using this

theorem ser_parsed {env : Env} {h : Option (Huffman Char)} (hlz : env.lz.Lossless)
    (hord : HashOrder env.byteOrd) {v : Value} (hv : Storable env h v) :
    ∃ bytes v', ser env h v = .ok bytes ∧ Back env h v v' ∧ Parsed env h bytes v' := by
  induction hv with
  | character c =>
    refine ⟨_, _, rfl, .leaf (.character c), parsed_value (prim_reads (by decide) ?_)⟩
    refine Reads.bind' (b2 := []) (by simp) (uintP_reads (by unfold Width; decide) (char_lt c)) ?_
    refine Reads.bind' (b1 := []) rfl (x := c) ?_ (Reads.pure _)
    rw [charOf_toNat]; exact Reads.lift c
  | @string s hs =>
    obtain ⟨bytes, e, hr⟩ := serString_reads hs env
    exact ⟨bytes, _, by simp only [ser, e], .leaf (.string s), parsed_value hr⟩
  | @binary b hb =>
    obtain ⟨ct, bytes, e, hr⟩ := C25_exact env.lz hlz hord b hb.1
    have hr := hr.mpr fun hc h2 coder bits m en hm => (hb.2 h2 ⟨bytes, hc ▸ e⟩ coder bits en).2 m hm
    refine ⟨tyByte .binary ct.toByte :: bytes, _, by simp only [ser, e]; rfl, .leaf (.binary b), parsed_value ?_⟩
    have hct : ct.toByte < 16 ∧ BinaryCompression.ofByte ct.toByte = .ok ct := by
      cases ct <;> exact ⟨by decide, rfl⟩
    refine prim_reads hct.1 ?_
    refine Reads.bind' (b1 := []) rfl (x := ct) ?_ ?_
    · rw [tyByte_and15 _ _ hct.1, hct.2]; exact (Reads.lift ct).mapErr _
    · exact ret_reads (fun b => ParseResult.value (.binary b)) ((Reads.of_inverts hr).mapErr _)
  | boolean b =>
    refine ⟨_, _, rfl, .leaf (.boolean b), parsed_value (prim_reads (by cases b <;> decide) ?_)⟩
    cases b <;> exact Reads.pure _
  | @integer i hi =>
    refine ⟨_, .integer i.normUsed, rfl, ⟨.integer i.normUsed_sameAs, fun hn => by rw [hn.1 i (.refl _)],
      by simp only [ser, normUsed_ser]⟩, parsed_value ?_⟩
    have hst := Integer.WF.ser_state i
    rw [hst]
    refine prim_reads (stateByte_lt _) ?_
    refine Reads.bind' (b1 := []) rfl (x := i.signedState) ?_ ?_
    · rw [stateByte, signedOfU8_toU8]; exact (Reads.lift _).mapErr _
    · exact ret_reads (fun i => ParseResult.value (.integer i)) (intP_reads hi.serialisable)
  | @imaginary z hz =>
    refine ⟨_, .imaginary z.norm, rfl, ⟨.imaginary z.norm_sameAs, fun hn => by rw [hn.2 z (.refl _)],
      by simp only [ser, norm_ser]⟩, parsed_value (prim_reads z.ser_lt ?_)⟩
    refine ret_reads (fun z => ParseResult.value (.imaginary z)) ?_
    rw [tyByte_and15 _ _ z.ser_lt]
    exact (Imaginary.deser_reads hz).mapErr _
  | @timestamp t hv hl =>
    exact ⟨_, _, rfl, .leaf (.timestamp t), parsed_value (timestamp_reads hv hl env h)⟩
  | @json j hs hj =>
    obtain ⟨bytes, e, hr⟩ := parsed_json hs hj
    exact ⟨bytes, _, e, .leaf (.json j), hr⟩
  | null => exact ⟨_, _, rfl, .leaf .null, parsed_value (prim_reads (by decide) (Reads.pure _))⟩
  | single x =>
    refine ⟨_, _, rfl, .leaf (.single x), parsed_value (prim_reads (by decide) ?_)⟩
    have := ret_reads (fun bs => ParseResult.value (.single (UInt32.ofNat (ofLe bs))))
      (Reads.read ValueSerError.notEnoughBytes (n := 4) (bs := leBytes 4 x.toNat) (by simp))
    rw [readU32_ofNat] at this
    exact this
  | double x =>
    refine ⟨_, _, rfl, .leaf (.double x), parsed_value (prim_reads (by decide) ?_)⟩
    have := ret_reads (fun bs => ParseResult.value (.double (UInt64.ofNat (ofLe bs))))
      (Reads.read ValueSerError.notEnoughBytes (n := 8) (bs := leBytes 8 x.toNat) (by simp))
    rw [readU64_ofNat] at this
    exact this
  | @array a hne hl hc ha ih =>
    obtain ⟨bytes, a', e, hs, hp⟩ := parsed_array hne hl hc ih
    exact ⟨bytes, .array a', e, back_array hs, hp⟩
  | @timezone n hs hn =>
    obtain ⟨bytes, e, hr⟩ := serString_reads hs env
    refine ⟨tyByte .timezone 0 :: bytes, _, by simp only [ser, e]; rfl, .leaf (.timezone n), ?_⟩
    refine parsed_wrapped (r := .timezone) (need := .timezoneNeeded) (fun _ => rfl) ?_ ?_ hr
    · intro stack c c' e
      simp only [step]
      rw [Parser.bind_apply, e]
      rfl
    · intro stack; simp only [afterValue, if_pos hn]
  | ipv4 a b c d =>
    refine ⟨_, _, rfl, .leaf (.ipv4 a b c d), parsed_value (prim_reads (by decide) ?_)⟩
    exact ret_reads (fun bs : List UInt8 => ParseResult.value (.ipv4 (bs.getD 0 0) (bs.getD 1 0) (bs.getD 2 0)
      (bs.getD 3 0))) (Reads.read ValueSerError.notEnoughBytes (n := 4) (bs := [a, b, c, d]) rfl)
  | ipv6 a b c d e f g i =>
    refine ⟨_, _, rfl, .leaf (.ipv6 a b c d e f g i), parsed_value (prim_reads (by decide) ?_)⟩
    obtain ⟨a1, a2, ea, ha⟩ := le16_two a
    obtain ⟨b1, b2, eb, hb⟩ := le16_two b
    obtain ⟨c1, c2, ec, hc⟩ := le16_two c
    obtain ⟨d1, d2, ed, hd⟩ := le16_two d
    obtain ⟨e1, e2, ee, he⟩ := le16_two e
    obtain ⟨f1, f2, ef, hf⟩ := le16_two f
    obtain ⟨g1, g2, eg, hg⟩ := le16_two g
    obtain ⟨i1, i2, ei, hi⟩ := le16_two i
    rw [ea, eb, ec, ed, ee, ef, eg, ei]
    have := ret_reads (fun bs : List UInt8 => ParseResult.value (.ipv6 (at16 bs 0) (at16 bs 1) (at16 bs 2)
      (at16 bs 3) (at16 bs 4) (at16 bs 5) (at16 bs 6) (at16 bs 7)))
      (Reads.read ValueSerError.notEnoughBytes (n := 16)
        (bs := [a1, a2, b1, b2, c1, c2, d1, d2, e1, e2, f1, f2, g1, g2, i1, i2]) rfl)
    simp only [at16, List.getD_cons_zero, List.getD_cons_succ, Nat.reduceMul, Nat.reduceAdd, ha, hb, hc, hd, he,
      hf, hg, hi] at this
    exact this

end Value

end Souris
