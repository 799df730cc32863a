import Verif.Spec.Format
import Verif.Lemmas.Store
import Verif.Props.Value

/-! # Lemmas about what a file determines

`Fixed` is a reader of the format that differs from `Value::deser` in four places: the number of bytes of a
bit string is computed exactly, maps and empty arrays are built, and dates are not checked. -/

namespace Souris

namespace Fixed

/-- The bits of a `Bits::ser`, at any length. -/
def bits : Parser ValueSerError Bits := do
  let valid ← Value.uintP 8
  let backing ← Parser.read .notEnoughBytes ((valid + 7) / 8)
  return ⟨backing, valid⟩

/-- What follows the type byte of a string. -/
def stringBody (h : Option (Huffman Char)) (byte : UInt8) : Parser ValueSerError (List Char) :=
  if byte &&& 1 > 0 then
    match h with
    | none => Parser.fail .noHuffman
    | some h => do
      let b ← bits
      (Parser.lift (h.decode b)).mapErr .huffman
  else do
    let len ← Value.uintP 8
    let bs ← Parser.read .notEnoughBytes len
    Parser.lift (Out.ofOption .nonUtf8String (utf8Decode bs))

/-- A string. -/
def string (h : Option (Huffman Char)) : Parser ValueSerError (List Char) := do
  let byte ← Parser.next .notEnoughBytes
  stringBody h byte

/-- Bytes under Huffman compression. -/
def unHuffman : Parser ValueSerError (List UInt8) := do
  let first ← Parser.next .notEnoughBytes
  if first = 0 then return []
  else if first = 1 then do
    let count ← Value.uintP 8
    let element ← Parser.next .notEnoughBytes
    return List.replicate count element
  else do
    let h ← Huffman.deser8.mapErr .huffman
    let b ← bits
    (Parser.lift (h.decode b)).mapErr .huffman

/-- Compressed bytes. -/
def binary (z : Lz) : BinaryCompression → Parser ValueSerError (List UInt8)
  | .huffman => unHuffman
  | ct => (Binary.deser z ct).mapErr .binary

/-- What follows the type byte of a timestamp. -/
def timestamp (byte : UInt8) : Parser ValueSerError Timestamp := do
  let ss ← (Parser.lift (SignedState.ofU8 (byte &&& 3))).mapErr .integer
  let yi ← Value.intP ss
  let year ← (Parser.lift (yi.toSigned 4)).mapErr .integer
  let month ← Value.uintP 4
  let day ← Value.uintP 4
  let hour ← Value.uintP 4
  let minute ← Value.uintP 4
  let sec ← Value.uintP 4
  let nano ← Value.uintP 4
  return ⟨year, month, day, hour, minute, sec, nano⟩

/-- `n` times the same. -/
def times {α : Type} (p : Parser ValueSerError α) : Nat → Parser ValueSerError (List α)
  | 0 => pure []
  | n + 1 => do
    let x ← p
    let xs ← times p n
    return x :: xs

/-- What follows the type byte, given the reader of nested values. -/
def body (env : Env) (h : Option (Huffman Char)) (nested : Parser ValueSerError Value) (byte : UInt8) :
    ValueTy → Parser ValueSerError Value
  | .string => do
    let s ← stringBody h byte
    return .string s
  | .json => do
    let s ← string h
    Parser.lift (Out.ofOption .notEnoughBytes ((env.jsonParse s).map Value.json))
  | .timezone => do
    let s ← string h
    return .timezone s
  | .binary => do
    let ct ← (Parser.lift (BinaryCompression.ofByte (byte &&& 0b1111))).mapErr .binary
    let b ← binary env.lz ct
    return .binary b
  | .timestamp => do
    let t ← timestamp byte
    return .timestamp t
  | .array => do
    let n ← Value.lenP byte .array
    let a ← times nested n
    return .array a
  | .map => do
    let n ← Value.lenP byte .map
    let m ← times (do let k ← string h; let v ← nested; return (k, v)) n
    return .map m
  | ty => do
    let r ← Value.primBody env h byte ty
    match r with
    | .value v => return v
    | _ => Parser.fail .notEnoughBytes

/-- A value, nested at most `fuel` deep. -/
def value (env : Env) (h : Option (Huffman Char)) : Nat → Parser ValueSerError Value
  | 0 => Parser.fail .notEnoughBytes
  | fuel + 1 => do
    let byte ← Parser.next .notEnoughBytes
    let ty ← Parser.lift (ValueTy.ofU8 ((byte &&& 0b11110000) >>> 4))
    body env h (value env h fuel) byte ty

/-- A file. -/
def store (env : Env) (bytes : List UInt8) : Option Store :=
  match bytes.drop 8 with
  | [] => none
  | flag :: comp =>
    match BinaryCompression.ofByte (flag &&& 0b01111111) with
    | .ok ct =>
      match binary env.lz ct (Cursor.new comp) with
      | .ok (data, _) =>
        match Store.deserCoder (flag &&& 0b10000000 ≠ 0) (Cursor.new data) with
        | .ok (h, c) =>
          match value env h data.length c with
          | .ok (.map m, _) => some m
          | _ => none
        | _ => none
      | _ => none
    | _ => none

/-! ## Pieces -/

theorem bits_reads {l : List Bool} (hl : l.length < 2 ^ 64) :
    Reads bits (Binary.usizeSer l.length ++ Bits.pack l) (Bits.ofList l) := by
  unfold bits
  refine Reads.bind (Value.uintP_reads (by unfold Width; decide) hl) ?_
  refine Reads.bind' (b2 := []) (by simp) (Reads.read _ (Bits.pack_length l)) ?_
  exact Reads.pure _

/-- A coder of at least two symbols, if any. -/
def Branching (h : Option (Huffman Char)) : Prop :=
  ∀ coder, h = some coder → ∃ l r, coder = Huffman.ofRoot (.branch l r)

theorem decode_codes {T : Type} [DecidableEq T] {root : Node T} (hbr : ∃ l r, root = Node.branch l r) {b : List T}
    {cs : List (List Bool)} (hcs : b.map (Huffman.codeOf root) = cs.map some) :
    (Huffman.ofRoot root).decode (Bits.ofList cs.flatten) = .ok b := by
  rw [Huffman.decode_ofList]
  show Huffman.decodeAux root root [] cs.flatten = _
  rw [Huffman.decodeAux_codes root hbr b cs hcs]
  simp

theorem string_body {h : Option (Huffman Char)} (hh : Branching h) {s : List Char} (hs : (utf8 s).length < 2 ^ 64)
    {bytes : List UInt8} (e : Value.serString h s = .ok bytes) (hb : bytes.length < 2 ^ 61) :
    ∃ f rest, f < 16 ∧ bytes = Value.tyByte .string f :: rest ∧
      Reads (stringBody h (Value.tyByte .string f)) rest s := by
  have plain : Reads (stringBody h (Value.tyByte .string 0))
      ((Integer.ofUnsigned 8 (utf8 s).length).ser.2 ++ utf8 s) s := by
    unfold stringBody
    rw [if_neg (by decide)]
    refine Reads.bind (Value.uintP_reads (by unfold Width; decide) hs) ?_
    refine Reads.bind' (b2 := []) (by simp) (Reads.read _ rfl) ?_
    rw [utf8Decode_utf8]
    exact Reads.lift s
  cases h with
  | none =>
    simp only [Value.serString, Out.ok.injEq] at e
    exact ⟨0, _, by decide, e.symm, plain⟩
  | some coder =>
    obtain ⟨l, r, rfl⟩ := hh coder rfl
    by_cases hall : ∀ x ∈ s, x ∈ (Node.branch l r).leaves
    · obtain ⟨cs, hcs⟩ := Huffman.exists_codes _ s hall
      have he := Huffman.encode_ok _ hcs
      simp only [Value.serString, he, Bits.ser, Bits.properBytes_ofList, Out.ok_bind, Out.pure_eq, Out.ok.injEq] at e
      refine ⟨1, _, by decide, e.symm, ?_⟩
      unfold stringBody
      rw [if_pos (by decide)]
      have hlen : cs.flatten.length < 2 ^ 64 := by
        have := Bits.pack_length cs.flatten
        have h2 : (Bits.pack cs.flatten).length ≤ bytes.length := by
          rw [← e]; simp only [List.length_cons, List.length_append]; omega
        omega
      refine Reads.bind' (b2 := []) (by simp [Bits.ofList, Binary.usizeSer]) (bits_reads hlen) ?_
      rw [decode_codes ⟨l, r, rfl⟩ hcs]
      exact (Reads.lift s).mapErr _
    · push Not at hall
      simp only [Value.serString, Huffman.encode_err _ hall, Out.ok.injEq] at e
      exact ⟨0, _, by decide, e.symm, plain⟩

theorem string_reads {h : Option (Huffman Char)} (hh : Branching h) {s : List Char} (hs : (utf8 s).length < 2 ^ 64)
    {bytes : List UInt8} (e : Value.serString h s = .ok bytes) (hb : bytes.length < 2 ^ 61) :
    Reads (string h) bytes s := by
  obtain ⟨f, rest, hf, rfl, hr⟩ := string_body hh hs e hb
  exact Reads.bind' (b1 := [_]) rfl (Reads.next _ _) hr

theorem binary_reads {z : Lz} (hz : z.Lossless) {ord : List (Node UInt8 × Nat) → List (Node UInt8 × Nat)}
    (hord : HashOrder ord) {b : List UInt8} (hb : b.length < 2 ^ 60) {ct : BinaryCompression} {bytes : List UInt8}
    (e : Binary.ser z ord b = .ok (ct, bytes)) : Reads (binary z ct) bytes b := by
  have hmax : b.length ≤ isizeMax := by unfold isizeMax; omega
  obtain ⟨ct', bytes', e', hr⟩ := C25_roundtrip_partial z hz hord b hmax
  rw [e, Out.ok.injEq, Prod.mk.injEq] at e'
  obtain ⟨rfl, rfl⟩ := e'
  by_cases hct : ct = .huffman
  · subst hct
    show Reads unHuffman bytes b
    obtain ⟨ct', bytes', e', _, hlen, _⟩ := C25_never_expands z hord b (by omega)
    rw [e, Out.ok.injEq, Prod.mk.injEq] at e'
    obtain ⟨_, rfl⟩ := e'
    obtain ⟨huff, eh⟩ := C24_huffman_total hord b
    obtain ⟨ct', bytes', e', hs, _⟩ := Binary.ser_spec z eh
    rw [e, Out.ok.injEq, Prod.mk.injEq] at e'
    obtain ⟨rfl, rfl⟩ := e'
    simp only [Prod.mk.injEq, reduceCtorEq, false_and, true_and, false_or] at hs
    subst hs
    by_cases h2 : TwoSymbols b
    · obtain ⟨root, cs, hbr, _, _, hcs, _, e2⟩ := Binary.huffman_two hord b h2
      rw [eh, Out.ok.injEq] at e2
      subst e2
      unfold unHuffman
      refine Reads.bind' (b1 := [2]) rfl (Reads.next _ 2) ?_
      rw [if_neg (by decide), if_neg (by decide)]
      have ht : Reads Huffman.deser8 root.ser8 (Huffman.ofRoot root) :=
        Reads.bind' (b2 := []) (by simp) (Node.deser8_reads root) (Reads.pure _)
      refine Reads.bind (ht.mapErr _) ?_
      have hl : cs.flatten.length < 2 ^ 64 := by
        have := Bits.pack_length cs.flatten
        simp only [List.length_cons, List.length_append] at hlen
        omega
      refine Reads.bind' (b2 := []) (by simp) (bits_reads hl) ?_
      rw [decode_codes hbr hcs]
      exact (Reads.lift b).mapErr _
    · have hall : Binary.allEqual b = true := (Binary.allEqual_iff b).mpr h2
      cases b with
      | nil =>
        simp only [Binary.huffman, Out.ok.injEq] at eh
        subst eh
        unfold unHuffman
        refine Reads.bind' (b1 := [0]) (b2 := []) rfl (Reads.next _ 0) ?_
        rw [if_pos rfl]
        exact Reads.pure _
      | cons x xs =>
        simp only [Binary.huffman, if_pos hall, Out.ok.injEq] at eh
        subst eh
        unfold unHuffman
        refine Reads.bind' (b1 := [1]) rfl (Reads.next _ 1) ?_
        rw [if_neg (by decide), if_pos rfl]
        refine Reads.bind (Value.uintP_reads (by unfold Width; decide) (show _ < _ by omega)) ?_
        refine Reads.bind' (b1 := [x]) (b2 := []) rfl (Reads.next _ x) ?_
        rw [List.length_cons, ← Binary.eq_replicate_of_allEqual hall]
        exact Reads.pure _
  · have := (Reads.of_inverts (hr (.inr (.inr hct)))).mapErr ValueSerError.binary
    cases ct with
    | huffman => exact absurd rfl hct
    | _ => exact this

theorem timestamp_reads {t : Timestamp} (hv : t.Valid) :
    ∃ f rest, f < 16 ∧ Value.serTimestamp t = Value.tyByte .timestamp f :: rest ∧
      Reads (timestamp (Value.tyByte .timestamp f)) rest t := by
  obtain ⟨⟨⟨hy1, hy2⟩, ⟨hm1, hm2⟩, ⟨hd1, hd2⟩⟩, hh, hmi, hs, hn⟩ := hv
  have hdays := monthDays_le t.year t.month
  have w4 : Width 4 := by unfold Width; decide
  have hu : ∀ n, n < 2 ^ 32 → IsUnsigned 4 n := fun n h => h
  have hys : IsSigned 4 t.year := by
    constructor
    · calc (-(2 ^ (8 * 4 - 1)) : Int) ≤ -262143 := by norm_num
        _ ≤ _ := hy1
    · calc t.year ≤ 262142 := hy2
        _ < (2 ^ (8 * 4 - 1) : Int) := by norm_num
  have hi : (Integer.ofSigned 4 t.year).Native := .signed w4 hys
  have hst : (Integer.ofSigned 4 t.year).signedState ≠ .unsigned := by
    unfold Integer.ofSigned; split_ifs <;> simp
  have hnorm : (Integer.ofSigned 4 t.year).normUsed = Integer.ofSigned 4 t.year :=
    hi.normUsed_eq (fun h => hst h.1)
  have hstate : (Integer.ofSigned 4 t.year).ser.1 = (Integer.ofSigned 4 t.year).signedState :=
    Integer.WF.ser_state _
  refine ⟨_, _, Value.stateByte_lt _, rfl, ?_⟩
  rw [hstate]
  unfold timestamp
  refine Reads.bind' (b1 := []) rfl (x := (Integer.ofSigned 4 t.year).signedState) ?_ ?_
  · rw [Value.stateByte, Value.signedOfU8_toU8]; exact (Reads.lift _).mapErr _
  refine Reads.bind (Value.intP_reads hi.serialisable) ?_
  refine Reads.bind' (b1 := []) rfl (x := t.year) ?_ ?_
  · rw [hnorm, C01_signed_roundtrip w4 hys]; exact (Reads.lift _).mapErr _
  refine Reads.bind (Value.uintP_reads w4 (hu _ (by omega))) ?_
  refine Reads.bind (Value.uintP_reads w4 (hu _ (by omega))) ?_
  refine Reads.bind (Value.uintP_reads w4 (hu _ (by omega))) ?_
  refine Reads.bind (Value.uintP_reads w4 (hu _ (by omega))) ?_
  refine Reads.bind (Value.uintP_reads w4 (hu _ (by omega))) ?_
  refine Reads.bind' (b2 := []) (by simp) (Value.uintP_reads (n := t.nano) w4 (hu _ (by omega))) ?_
  exact Reads.pure t

theorem value_of_body {env : Env} {h : Option (Huffman Char)} {t : ValueTy} {f : UInt8} (hf : f < 16) {fuel : Nat}
    {bs : List UInt8} {v : Value} (hk : Reads (body env h (value env h fuel) (Value.tyByte t f) t) bs v) :
    Reads (value env h (fuel + 1)) (Value.tyByte t f :: bs) v := by
  unfold value
  refine Reads.bind' (b1 := [Value.tyByte t f]) (b2 := bs) rfl (Reads.next _ _) ?_
  refine Reads.bind' (b1 := []) (b2 := bs) rfl (x := t) ?_ hk
  rw [Value.tyByte_ty t f hf, ValueTy.ofU8_toU8]
  exact Reads.lift t

/-- Type byte and length of a map or an array. -/
theorem len_reads {t : ValueTy} {n : Nat} (hn : n < 2 ^ 64) : ∃ f rest, f < 16 ∧
    Value.serLen t n = Value.tyByte t f :: rest ∧ Reads (Value.lenP (Value.tyByte t f) t) rest n := by
  have key : ∀ (f : UInt8) (bs : List UInt8), f < 16 →
      Reads (if Value.tyByte t f &&& 1 > 0 then Value.uintP 8
        else (pure ((Value.tyByte t f &&& 0b00001110) >>> 1).toNat : Parser ValueSerError Nat)) bs n →
      Reads (Value.lenP (Value.tyByte t f) t) bs n := by
    intro f bs hf hr
    unfold Value.lenP
    refine Reads.bind' (b1 := []) rfl (x := t) ?_ ?_
    · rw [Value.tyByte_ty t f hf, ValueTy.ofU8_toU8]; exact Reads.lift t
    · rw [if_pos rfl]; exact hr
  unfold Value.serLen
  by_cases h7 : n < 7
  · rw [if_pos h7]
    have hall : ∀ m : Fin 7, (UInt8.ofNat m.val <<< 1) < 16 ∧ (UInt8.ofNat m.val <<< 1) &&& 1 = 0 ∧
        (((UInt8.ofNat m.val <<< 1) &&& 0b00001110) >>> 1).toNat = m.val := by decide +kernel
    obtain ⟨h1, h2, h3⟩ := hall ⟨n, h7⟩
    simp only at h1 h2 h3
    refine ⟨_, _, h1, rfl, key _ [] h1 ?_⟩
    rw [Value.tyByte_and1 _ _ h1, h2, if_neg (by decide), Value.tyByte_and14 _ _ h1, h3]
    exact Reads.pure n
  · rw [if_neg h7]
    refine ⟨_, _, by decide, rfl, key 1 _ (by decide) ?_⟩
    rw [Value.tyByte_and1 _ _ (by decide), if_pos (by decide)]
    exact Value.uintP_reads (by unfold Width; decide) hn

/-! ## Values -/

theorem utf8_length (s : List Char) : (utf8 s).length ≤ 4 * s.length := by
  unfold utf8
  induction s with
  | nil => simp
  | cons c cs ih =>
    have := c.utf8Size_le_four
    simp only [List.flatMap_cons, List.length_append, String.length_utf8EncodeChar, List.length_cons]
    omega

theorem Sound.array {env : Env} {a : List Value} (h : Value.Sound env (.array a)) {v : Value} (hv : v ∈ a) :
    Value.Sound env v :=
  ⟨⟨fun i hi => h.1.1 i (.array hv hi), fun z hz => h.1.2.1 z (.array hv hz), fun m hm => h.1.2.2 m (.array hv hm)⟩,
    fun t ht => h.2.1 t (.array hv ht), fun j hj => h.2.2 j (.array hv hj)⟩

theorem Sound.map {env : Env} {m : List (List Char × Value)} (h : Value.Sound env (.map m)) {k : List Char}
    {v : Value} (hv : (k, v) ∈ m) : Value.Sound env v :=
  ⟨⟨fun i hi => h.1.1 i (.map hv hi), fun z hz => h.1.2.1 z (.map hv hz), fun m hm => h.1.2.2 m (.map hv hm)⟩,
    fun t ht => h.2.1 t (.map hv ht), fun j hj => h.2.2 j (.map hv hj)⟩

theorem size_pos (env : Env) (v : Value) : 1 ≤ v.size env := by
  cases v <;> simp [Value.size]

theorem sizeList_length (env : Env) (a : List Value) : a.length ≤ Value.sizeList env a := by
  induction a with
  | nil => simp [Value.sizeList]
  | cons v a ih => have := size_pos env v; simp only [Value.sizeList, List.length_cons]; omega

theorem sizeEntries_length (env : Env) (m : List (List Char × Value)) : m.length ≤ Value.sizeEntries env m := by
  induction m with
  | nil => simp [Value.sizeEntries]
  | cons x m ih => simp only [Value.sizeEntries, List.length_cons]; omega

theorem sizeList_mem (env : Env) {a : List Value} {v : Value} (hv : v ∈ a) : v.size env ≤ Value.sizeList env a := by
  induction a with
  | nil => cases hv
  | cons w a ih =>
    rcases List.mem_cons.mp hv with rfl | hv
    · simp only [Value.sizeList]; omega
    · have := ih hv; simp only [Value.sizeList]; omega

theorem sizeEntries_mem (env : Env) {m : List (List Char × Value)} {k : List Char} {v : Value} (hv : (k, v) ∈ m) :
    k.length + v.size env ≤ Value.sizeEntries env m := by
  induction m with
  | nil => cases hv
  | cons w m ih =>
    rcases List.mem_cons.mp hv with rfl | hv
    · simp only [Value.sizeEntries]; omega
    · have := ih hv; simp only [Value.sizeEntries]; omega

/-- What the reader does with the bytes of a value. -/
def Good (env : Env) (h : Option (Huffman Char)) (v : Value) : Prop :=
  ∀ b, Value.ser env h v = .ok b → b.length < 2 ^ 61 → ∀ fuel, b.length ≤ fuel →
    ∃ v', Value.SameAs v v' ∧ Reads (value env h fuel) b v'

theorem times_reads {env : Env} {h : Option (Huffman Char)} (a : List Value) (ih : ∀ v ∈ a, Good env h v)
    {b : List UInt8} (e : Value.serList env h a = .ok b) (hb : b.length < 2 ^ 61) {fuel : Nat} (hf : b.length ≤ fuel) :
    ∃ a', List.Forall₂ Value.SameAs a a' ∧ Reads (times (value env h fuel) a.length) b a' := by
  induction a generalizing b with
  | nil =>
    simp only [Value.serList, Out.ok.injEq] at e
    subst e
    exact ⟨[], .nil, Reads.pure _⟩
  | cons v a iha =>
    simp only [Value.serList] at e
    rw [Out.bind_eq_ok] at e
    obtain ⟨b1, e1, e⟩ := e
    rw [Out.bind_eq_ok] at e
    obtain ⟨b2, e2, e⟩ := e
    simp only [Out.pure_eq, Out.ok.injEq] at e
    subst e
    rw [List.length_append] at hb hf
    obtain ⟨v', s1, r1⟩ := ih v (by simp) b1 e1 (by omega) fuel (by omega)
    obtain ⟨a', s2, r2⟩ := iha (fun w hw => ih w (by simp [hw])) e2 (by omega) (by omega)
    exact ⟨v' :: a', .cons s1 s2, Reads.bind r1 (Reads.bind' (b2 := []) (by simp) r2 (Reads.pure _))⟩

/-- Two lists of entries with the same keys, in the same order, and the same values. -/
def SameEntries (m m' : List (List Char × Value)) : Prop :=
  List.Forall₂ (fun x y => x.1 = y.1 ∧ Value.SameAs x.2 y.2) m m'

theorem entries_reads {env : Env} {h : Option (Huffman Char)} (hh : Branching h) (m : List (List Char × Value))
    (ih : ∀ k v, (k, v) ∈ m → Good env h v) (hk : ∀ k v, (k, v) ∈ m → (utf8 k).length < 2 ^ 64)
    {b : List UInt8} (e : Value.serEntries env h m = .ok b) (hb : b.length < 2 ^ 61) {fuel : Nat}
    (hf : b.length ≤ fuel) :
    ∃ m', SameEntries m m' ∧
      Reads (times (do let k ← string h; let v ← value env h fuel; return (k, v)) m.length) b m' := by
  induction m generalizing b with
  | nil =>
    simp only [Value.serEntries, Out.ok.injEq] at e
    subst e
    exact ⟨[], .nil, Reads.pure _⟩
  | cons x m ihm =>
    obtain ⟨k, v⟩ := x
    simp only [Value.serEntries] at e
    rw [Out.bind_eq_ok] at e
    obtain ⟨b0, e0, e⟩ := e
    rw [Out.bind_eq_ok] at e
    obtain ⟨b1, e1, e⟩ := e
    rw [Out.bind_eq_ok] at e
    obtain ⟨b2, e2, e⟩ := e
    simp only [Out.pure_eq, Out.ok.injEq] at e
    subst e
    rw [List.length_append, List.length_append] at hb hf
    have r0 := string_reads hh (hk k v (by simp)) e0 (by omega)
    obtain ⟨v', s1, r1⟩ := ih k v (by simp) b1 e1 (by omega) fuel (by omega)
    obtain ⟨m', s2, r2⟩ := ihm (fun k w hw => ih k w (by simp [hw])) (fun k w hw => hk k w (by simp [hw])) e2
      (by omega) (by omega)
    refine ⟨(k, v') :: m', .cons ⟨rfl, s1⟩ s2, ?_⟩
    rw [← List.append_assoc]
    refine Reads.bind (Reads.bind' (b1 := b0) (b2 := b1) rfl r0 ?_) (Reads.bind' (b2 := []) (by simp) r2 (Reads.pure _))
    exact Reads.bind' (b2 := []) (by simp) r1 (Reads.pure _)

theorem sameAs_map {m m' : List (List Char × Value)} (h : SameEntries m m') (hn : (m.map Prod.fst).Nodup) :
    Value.SameAs (.map m) (.map m') := by
  have hkeys : m.map Prod.fst = m'.map Prod.fst := by
    clear hn
    induction h with
    | nil => rfl
    | cons h1 _ ih => simp only [List.map_cons, h1.1, ih]
  refine .map h.length_eq (fun k => ?_) ?_
  · have : ∀ m : List (List Char × Value), (∃ v, (k, v) ∈ m) ↔ k ∈ m.map Prod.fst := by intro m; simp
    rw [this, this, hkeys]
  · clear hkeys
    induction h with
    | nil => intro k v v' hv; cases hv
    | @cons x y m m' h1 hm ih =>
      rw [List.map_cons, List.nodup_cons] at hn
      have hkeys : m.map Prod.fst = m'.map Prod.fst := by
        clear ih hn
        induction hm with
        | nil => rfl
        | cons h1 _ ih => simp only [List.map_cons, h1.1, ih]
      intro k v v' hv hv'
      rcases List.mem_cons.mp hv with rfl | hv <;> rcases List.mem_cons.mp hv' with rfl | hv'
      · exact h1.2
      · have := List.mem_map_of_mem (f := Prod.fst) hv'
        rw [← hkeys] at this
        exact absurd this hn.1
      · have := List.mem_map_of_mem (f := Prod.fst) hv
        rw [h1.1] at hn
        exact absurd this hn.1
      · exact ih hn.2 k v v' hv hv'

theorem value_reads {env : Env} (hlz : env.lz.Lossless) (hord : HashOrder env.byteOrd) {h : Option (Huffman Char)}
    (hh : Branching h) (v : Value) : Value.Sound env v → v.size env < 2 ^ 50 → Good env h v := by
  have leaf : ∀ {t : ValueTy} {f : UInt8} (_ : f < 16) {bs : List UInt8} {v v' : Value}, Value.SameAs v v' →
      (∀ nested, Reads (body env h nested (Value.tyByte t f) t) bs v') → ∀ fuel,
      (Value.tyByte t f :: bs).length ≤ fuel →
      ∃ v', Value.SameAs v v' ∧ Reads (value env h fuel) (Value.tyByte t f :: bs) v' := by
    intro t f hf bs v v' hs hr fuel hfuel
    cases fuel with
    | zero => simp at hfuel
    | succ fuel => exact ⟨v', hs, value_of_body hf (hr _)⟩
  have prim : ∀ {t : ValueTy} {f : UInt8} {bs : List UInt8} {v : Value},
      (∀ nested, body env h nested (Value.tyByte t f) t = (Value.primBody env h (Value.tyByte t f) t >>= fun r =>
        match r with
        | .value v => (pure v : Parser ValueSerError Value)
        | _ => Parser.fail .notEnoughBytes)) →
      Reads (Value.primBody env h (Value.tyByte t f) t) bs (.value v) →
      ∀ nested, Reads (body env h nested (Value.tyByte t f) t) bs v := by
    intro t f bs v hb hr nested
    rw [hb]
    exact Reads.bind' (b2 := []) (by simp) hr (Reads.pure _)
  induction v using Value.induct with
  | h v iha ihm =>
    intro hs hsz b e hb
    cases v with
    | character c =>
      simp only [Value.ser, Out.ok.injEq] at e; subst e
      refine leaf (by decide) (.character c) (prim (fun _ => rfl) ?_)
      refine Reads.bind' (b2 := []) (by simp) (Value.uintP_reads (by unfold Width; decide) (Value.char_lt c)) ?_
      refine Reads.bind' (b1 := []) rfl (x := c) ?_ (Reads.pure _)
      rw [Value.charOf_toNat]; exact Reads.lift c
    | string s =>
      simp only [Value.size] at hsz
      have hu := utf8_length s
      obtain ⟨f, rest, hf, rfl, hr⟩ := string_body (s := s) hh (by omega) (by simpa only [Value.ser] using e) hb
      exact leaf hf (.string s) fun _ => Reads.bind' (b2 := []) (by simp) hr (Reads.pure _)
    | binary d =>
      simp only [Value.size] at hsz
      simp only [Value.ser] at e
      rw [Out.bind_eq_ok] at e
      obtain ⟨⟨ct, bs⟩, e1, e⟩ := e
      simp only [Out.pure_eq, Out.ok.injEq] at e
      subst e
      have hct : ct.toByte < 16 ∧ BinaryCompression.ofByte ct.toByte = .ok ct := by
        cases ct <;> exact ⟨by decide, rfl⟩
      refine leaf hct.1 (.binary d) fun _ => ?_
      refine Reads.bind' (b1 := []) rfl (x := ct) ?_ ?_
      · rw [Value.tyByte_and15 _ _ hct.1, hct.2]; exact (Reads.lift ct).mapErr _
      · exact Reads.bind' (b2 := []) (by simp) (binary_reads hlz hord (by omega) e1) (Reads.pure _)
    | boolean x =>
      simp only [Value.ser, Out.ok.injEq] at e; subst e
      refine leaf (by cases x <;> decide) (.boolean x) (prim (fun _ => rfl) ?_)
      cases x <;> exact Reads.pure _
    | integer i =>
      simp only [Value.ser, Out.ok.injEq] at e; subst e
      have hi := hs.1.1 i (.refl _)
      have hst := Integer.WF.ser_state i
      rw [hst]
      refine leaf (Value.stateByte_lt _) (.integer i.normUsed_sameAs) (prim (fun _ => rfl) ?_)
      refine Reads.bind' (b1 := []) rfl (x := i.signedState) ?_ ?_
      · rw [Value.stateByte, Value.signedOfU8_toU8]; exact (Reads.lift _).mapErr _
      · exact Value.ret_reads (fun i => Value.ParseResult.value (.integer i)) (Value.intP_reads hi.serialisable)
    | imaginary z =>
      simp only [Value.ser, Out.ok.injEq] at e; subst e
      have hz := hs.1.2.1 z (.refl _)
      refine leaf z.ser_lt (.imaginary z.norm_sameAs) (prim (fun _ => rfl) ?_)
      refine Value.ret_reads (fun z => Value.ParseResult.value (.imaginary z)) ?_
      rw [Value.tyByte_and15 _ _ z.ser_lt]
      exact (Imaginary.deser_reads hz).mapErr _
    | timestamp t =>
      simp only [Value.ser, Out.ok.injEq] at e; subst e
      obtain ⟨f, rest, hf, e, hr⟩ := timestamp_reads (hs.2.1 t (.refl _))
      rw [e]
      exact leaf hf (.timestamp t) fun _ => Reads.bind' (b2 := []) (by simp) hr (Reads.pure _)
    | json j =>
      simp only [Value.size] at hsz
      simp only [Value.ser] at e
      rw [Out.bind_eq_ok] at e
      obtain ⟨bs, e1, e⟩ := e
      simp only [Out.pure_eq, Out.ok.injEq] at e
      subst e
      rw [List.length_cons] at hb
      have hu := utf8_length (env.jsonPrint j)
      refine leaf (by decide) (.json j) fun _ => ?_
      refine Reads.bind' (b2 := []) (by simp) (string_reads hh (by omega) e1 (by omega)) ?_
      rw [hs.2.2 j (.refl _)]
      exact Reads.lift _
    | null =>
      simp only [Value.ser, Out.ok.injEq] at e; subst e
      exact leaf (by decide) .null (prim (fun _ => rfl) (Reads.pure _))
    | single x =>
      simp only [Value.ser, Out.ok.injEq] at e; subst e
      refine leaf (by decide) (.single x) (prim (fun _ => rfl) ?_)
      have := Value.ret_reads (fun bs => Value.ParseResult.value (.single (UInt32.ofNat (ofLe bs))))
        (Reads.read ValueSerError.notEnoughBytes (n := 4) (bs := leBytes 4 x.toNat) (by simp))
      rw [Value.readU32_ofNat] at this
      exact this
    | double x =>
      simp only [Value.ser, Out.ok.injEq] at e; subst e
      refine leaf (by decide) (.double x) (prim (fun _ => rfl) ?_)
      have := Value.ret_reads (fun bs => Value.ParseResult.value (.double (UInt64.ofNat (ofLe bs))))
        (Reads.read ValueSerError.notEnoughBytes (n := 8) (bs := leBytes 8 x.toNat) (by simp))
      rw [readU64_ofNat] at this
      exact this
    | array a =>
      simp only [Value.ser] at e
      rw [Out.bind_eq_ok] at e
      obtain ⟨bs, e1, e⟩ := e
      simp only [Out.pure_eq, Out.ok.injEq] at e
      subst e
      simp only [Value.size] at hsz
      have hlen := sizeList_length env a
      have hmem : ∀ v ∈ a, v.size env ≤ Value.sizeList env a := fun v hv => sizeList_mem env hv
      obtain ⟨f, rest, hf, el, hr⟩ := len_reads (t := .array) (n := a.length) (by omega)
      rw [el, List.cons_append] at hb ⊢
      rw [List.length_cons, List.length_append] at hb
      intro fuel hfuel
      cases fuel with
      | zero => simp at hfuel
      | succ fuel =>
        rw [List.length_cons, List.length_append] at hfuel
        obtain ⟨a', hsame, hrd⟩ := times_reads a (fun v hv => iha a rfl v hv (Sound.array hs hv)
          (by have := hmem v hv; omega)) e1 (by omega) (fuel := fuel) (by omega)
        refine ⟨.array a', Value.sameAs_array hsame, value_of_body hf ?_⟩
        exact Reads.bind hr (Reads.bind' (b2 := []) (by simp) hrd (Reads.pure _))
    | map m =>
      simp only [Value.ser] at e
      rw [Out.bind_eq_ok] at e
      obtain ⟨bs, e1, e⟩ := e
      simp only [Out.pure_eq, Out.ok.injEq] at e
      subst e
      simp only [Value.size] at hsz
      have hlen := sizeEntries_length env m
      have hmem : ∀ k v, (k, v) ∈ m → k.length + v.size env ≤ Value.sizeEntries env m :=
        fun k v hv => sizeEntries_mem env hv
      obtain ⟨f, rest, hf, el, hr⟩ := len_reads (t := .map) (n := m.length) (by omega)
      rw [el, List.cons_append] at hb ⊢
      rw [List.length_cons, List.length_append] at hb
      intro fuel hfuel
      cases fuel with
      | zero => simp at hfuel
      | succ fuel =>
        rw [List.length_cons, List.length_append] at hfuel
        obtain ⟨m', hsame, hrd⟩ := entries_reads hh m (fun k v hv => ihm m rfl k v hv (Sound.map hs hv)
          (by have := hmem k v hv; omega)) (fun k v hv => by have := hmem k v hv; have := utf8_length k; omega) e1
          (by omega) (fuel := fuel) (by omega)
        refine ⟨.map m', sameAs_map hsame (hs.1.2.2 m (.refl _)), value_of_body hf ?_⟩
        exact Reads.bind hr (Reads.bind' (b2 := []) (by simp) hrd (Reads.pure _))
    | timezone n =>
      simp only [Value.size] at hsz
      simp only [Value.ser] at e
      rw [Out.bind_eq_ok] at e
      obtain ⟨bs, e1, e⟩ := e
      simp only [Out.pure_eq, Out.ok.injEq] at e
      subst e
      rw [List.length_cons] at hb
      have hu := utf8_length n
      refine leaf (by decide) (.timezone n) fun _ => ?_
      exact Reads.bind' (b2 := []) (by simp) (string_reads hh (by omega) e1 (by omega)) (Reads.pure _)
    | ipv4 a b c d =>
      simp only [Value.ser, Out.ok.injEq] at e; subst e
      refine leaf (by decide) (.ipv4 a b c d) (prim (fun _ => rfl) ?_)
      exact Value.ret_reads (fun bs : List UInt8 => Value.ParseResult.value (.ipv4 (bs.getD 0 0) (bs.getD 1 0)
        (bs.getD 2 0) (bs.getD 3 0))) (Reads.read ValueSerError.notEnoughBytes (n := 4) (bs := [a, b, c, d]) rfl)
    | ipv6 a b c d x f g i =>
      simp only [Value.ser, Out.ok.injEq] at e; subst e
      refine leaf (by decide) (.ipv6 a b c d x f g i) (prim (fun _ => rfl) ?_)
      obtain ⟨a1, a2, ea, ha⟩ := Value.le16_two a
      obtain ⟨b1, b2, eb, hb⟩ := Value.le16_two b
      obtain ⟨c1, c2, ec, hc⟩ := Value.le16_two c
      obtain ⟨d1, d2, ed, hd⟩ := Value.le16_two d
      obtain ⟨e1, e2, ee, he⟩ := Value.le16_two x
      obtain ⟨f1, f2, ef, hf⟩ := Value.le16_two f
      obtain ⟨g1, g2, eg, hg⟩ := Value.le16_two g
      obtain ⟨i1, i2, ei, hi⟩ := Value.le16_two i
      rw [ea, eb, ec, ed, ee, ef, eg, ei]
      have := Value.ret_reads (fun bs : List UInt8 => Value.ParseResult.value (.ipv6 (Value.at16 bs 0)
        (Value.at16 bs 1) (Value.at16 bs 2) (Value.at16 bs 3) (Value.at16 bs 4) (Value.at16 bs 5)
        (Value.at16 bs 6) (Value.at16 bs 7)))
        (Reads.read ValueSerError.notEnoughBytes (n := 16)
          (bs := [a1, a2, b1, b2, c1, c2, d1, d2, e1, e2, f1, f2, g1, g2, i1, i2]) rfl)
      simp only [Value.at16, List.getD_cons_zero, List.getD_cons_succ, Nat.reduceMul, Nat.reduceAdd, ha, hb, hc, hd,
        he, hf, hg, hi] at this
      exact this

/-! ## Lengths -/

theorem leaves_pos {T : Type} (n : Node T) : 0 < n.leaves.length := by
  induction n with
  | leaf t => simp [Node.leaves]
  | branch l r ihl _ => simp only [Node.leaves, List.length_append]; omega

theorem codeOf_length {T : Type} [DecidableEq T] {n : Node T} {x : T} {c : List Bool}
    (h : Huffman.codeOf n x = some c) : c.length < n.leaves.length := by
  induction n generalizing c with
  | leaf t =>
    simp only [Huffman.codeOf] at h
    split_ifs at h
    simp only [Option.some.injEq] at h
    subst h
    simp [Node.leaves]
  | branch l r ihl ihr =>
    simp only [Huffman.codeOf] at h
    simp only [Node.leaves, List.length_append]
    cases hr : Huffman.codeOf r x with
    | some c' =>
      rw [hr] at h
      simp only [Option.some.injEq] at h
      subst h
      have := ihr hr
      have hpos : 0 < l.leaves.length := leaves_pos l
      simp only [List.length_cons]
      omega
    | none =>
      rw [hr] at h
      cases hl : Huffman.codeOf l x with
      | none => rw [hl] at h; cases h
      | some c' =>
        rw [hl] at h
        simp only [Option.map_some, Option.some.injEq] at h
        subst h
        have := ihl hl
        have hpos : 0 < r.leaves.length := leaves_pos r
        simp only [List.length_cons]
        omega

theorem nodup_chars {l : List Char} (h : l.Nodup) : l.length ≤ 2 ^ 21 := by
  have h1 : (l.map Char.toNat).Nodup := h.map (fun a b e => by
    have := congrArg Char.ofNat e
    simpa using this)
  have h2 : l.map Char.toNat ⊆ List.range (2 ^ 21) := by
    intro n hn
    obtain ⟨c, _, rfl⟩ := List.mem_map.mp hn
    rw [List.mem_range]
    have := c.valid
    have hc : c.toNat.isValidChar := this
    unfold Nat.isValidChar at hc
    omega
  have := (h1.subperm h2).length_le
  simpa using this

theorem codes_length {root : Node Char} {n : Nat} (hn : root.leaves.length ≤ n) {s : List Char} {cs : List (List Bool)}
    (h : s.map (Huffman.codeOf root) = cs.map some) : cs.flatten.length ≤ n * s.length := by
  induction s generalizing cs with
  | nil =>
    have : cs = [] := by simpa using h.symm
    subst this
    simp
  | cons x s ih =>
    cases cs with
    | nil => simp at h
    | cons c cs =>
      simp only [List.map_cons, List.cons.injEq] at h
      have h1 := codeOf_length h.1
      have h2 := ih h.2
      simp only [List.flatten_cons, List.length_append, List.length_cons, Nat.mul_succ]
      omega

theorem serChar_length (n : Node Char) : n.serChar.length + 1 ≤ 6 * n.leaves.length := by
  induction n with
  | leaf c =>
    have hc : c.toNat + 1 < 2 ^ 32 := by
      have : c.toNat.isValidChar := c.valid
      unfold Nat.isValidChar at this
      omega
    have := (C07_size_le (k := 4) (by unfold Width; decide)).1 (c.toNat + 1) hc
    simp only [Node.serChar, Node.leaves, List.length_cons, List.length_nil]
    omega
  | branch l r ihl ihr =>
    simp only [Node.serChar, Node.leaves, List.length_cons, List.length_append]
    omega

/-- A coder of the library whose table has at most `2^21` symbols. -/
def Bounded (h : Option (Huffman Char)) : Prop :=
  h = none ∨ ∃ root, h = some (Huffman.ofRoot root) ∧ root.leaves.length ≤ 2 ^ 21

theorem usize_length {n : Nat} (hn : n < 2 ^ 64) : (Integer.ofUnsigned 8 n).ser.2.length ≤ 9 :=
  (C07_size_le (k := 8) (by unfold Width; decide)).1 n hn

theorem u32_length {n : Nat} (hn : n < 2 ^ 32) : (Integer.ofUnsigned 4 n).ser.2.length ≤ 5 :=
  (C07_size_le (k := 4) (by unfold Width; decide)).1 n hn

theorem ser_length_any {i : Integer} (h : i.content.length = 16) : i.ser.2.length ≤ 17 := by
  unfold Integer.ser
  simp only
  split_ifs <;> (simp; try omega)

theorem string_length {h : Option (Huffman Char)} (hh : Bounded h) {s : List Char} (hs : s.length < 2 ^ 40)
    {b : List UInt8} (e : Value.serString h s = .ok b) : b.length ≤ 11 + 2 ^ 18 * s.length := by
  have hu := utf8_length s
  have plain : (Value.tyByte .string 0 :: ((Integer.ofUnsigned 8 (utf8 s).length).ser.2 ++ utf8 s)).length
      ≤ 11 + 2 ^ 18 * s.length := by
    have := usize_length (n := (utf8 s).length) (by omega)
    simp only [List.length_cons, List.length_append]
    omega
  rcases hh with rfl | ⟨root, rfl, hl⟩
  · simp only [Value.serString, Out.ok.injEq] at e
    rw [← e]; exact plain
  · by_cases hall : ∀ x ∈ s, x ∈ root.leaves
    · obtain ⟨cs, hcs⟩ := Huffman.exists_codes _ s hall
      simp only [Value.serString, Huffman.encode_ok _ hcs, Bits.ser, Bits.properBytes_ofList, Out.ok_bind,
        Out.pure_eq, Out.ok.injEq] at e
      have h1 := codes_length hl hcs
      have h2 := Bits.pack_length cs.flatten
      have h3 := usize_length (n := cs.flatten.length) (by omega)
      rw [← e]
      simp only [List.length_cons, List.length_append]
      show (Integer.ofUnsigned 8 cs.flatten.length).ser.2.length + _ + 1 ≤ _
      omega
    · push Not at hall
      simp only [Value.serString, Huffman.encode_err _ hall, Out.ok.injEq] at e
      rw [← e]; exact plain

theorem serLen_length {t : ValueTy} {n : Nat} (hn : n < 2 ^ 64) : (Value.serLen t n).length ≤ 10 := by
  unfold Value.serLen
  split
  · simp
  · have := usize_length hn
    simp only [List.length_cons]
    omega

/-- A value of size `n` is written in at most `2^19 * n` bytes. -/
theorem ser_length {env : Env} (hord : HashOrder env.byteOrd) {h : Option (Huffman Char)} (hh : Bounded h)
    (v : Value) : Value.Sound env v → v.size env < 2 ^ 40 → ∀ b, Value.ser env h v = .ok b →
      b.length ≤ 2 ^ 19 * v.size env := by
  induction v using Value.induct with
  | h v iha ihm =>
    intro hs hsz b e
    cases v with
    | character c =>
      simp only [Value.ser, Out.ok.injEq] at e
      have := u32_length (n := c.toNat) (Value.char_lt c)
      rw [← e]; simp only [List.length_cons, Value.size]; omega
    | string s =>
      simp only [Value.size] at hsz ⊢
      have := string_length hh (s := s) (by omega) (by simpa only [Value.ser] using e)
      omega
    | binary d =>
      simp only [Value.size] at hsz ⊢
      simp only [Value.ser] at e
      rw [Out.bind_eq_ok] at e
      obtain ⟨⟨ct, bs⟩, e1, e⟩ := e
      simp only [Out.pure_eq, Out.ok.injEq] at e
      obtain ⟨ct', bs', e2, _, hl, _⟩ := C25_never_expands env.lz hord d (by omega)
      rw [e1, Out.ok.injEq, Prod.mk.injEq] at e2
      rw [← e2.2] at hl
      rw [← e]; simp only [List.length_cons]; omega
    | boolean x => simp only [Value.ser, Out.ok.injEq] at e; rw [← e]; simp [Value.size]
    | integer i =>
      simp only [Value.ser, Out.ok.injEq] at e
      have := ser_length_any (hs.1.1 i (.refl _)).serialisable.toWF.len
      rw [← e]; simp only [List.length_cons, Value.size]; omega
    | imaginary z =>
      simp only [Value.ser, Out.ok.injEq] at e
      have hz := hs.1.2.1 z (.refl _)
      rw [← e]
      simp only [List.length_cons, Value.size]
      cases hz with
      | cartesian h1 h2 =>
        have := ser_length_any h1.serialisable.toWF.len
        have := ser_length_any h2.serialisable.toWF.len
        simp only [Imaginary.ser, List.length_append]
        omega
      | polar m a => simp [Imaginary.ser]
    | timestamp t =>
      simp only [Value.ser, Out.ok.injEq] at e
      obtain ⟨⟨⟨hy1, hy2⟩, ⟨hm1, hm2⟩, ⟨hd1, hd2⟩⟩, h1, h2, h3, h4⟩ := hs.2.1 t (.refl _)
      have hdays := monthDays_le t.year t.month
      have a1 := u32_length (n := t.month) (by omega)
      have a2 := u32_length (n := t.day) (by omega)
      have a3 := u32_length (n := t.hour) (by omega)
      have a4 := u32_length (n := t.minute) (by omega)
      have a5 := u32_length (n := t.sec) (by omega)
      have a6 := u32_length (n := t.nano) (by omega)
      have hys : IsSigned 4 t.year := by
        constructor
        · calc (-(2 ^ (8 * 4 - 1)) : Int) ≤ -262143 := by norm_num
            _ ≤ _ := hy1
        · calc t.year ≤ 262142 := hy2
            _ < (2 ^ (8 * 4 - 1) : Int) := by norm_num
      have a0 := (C07_size_le (k := 4) (by unfold Width; decide)).2.1 t.year hys
      rw [← e]
      simp only [Value.serTimestamp, List.length_cons, List.length_append, Value.size]
      omega
    | json j =>
      simp only [Value.size] at hsz ⊢
      simp only [Value.ser] at e
      rw [Out.bind_eq_ok] at e
      obtain ⟨bs, e1, e⟩ := e
      simp only [Out.pure_eq, Out.ok.injEq] at e
      have := string_length hh (by omega) e1
      rw [← e]; simp only [List.length_cons]; omega
    | null => simp only [Value.ser, Out.ok.injEq] at e; rw [← e]; simp [Value.size]
    | single x => simp only [Value.ser, Out.ok.injEq] at e; rw [← e]; simp [Value.size]
    | double x => simp only [Value.ser, Out.ok.injEq] at e; rw [← e]; simp [Value.size]
    | array a =>
      simp only [Value.size] at hsz ⊢
      simp only [Value.ser] at e
      rw [Out.bind_eq_ok] at e
      obtain ⟨bs, e1, e⟩ := e
      simp only [Out.pure_eq, Out.ok.injEq] at e
      have hl := serLen_length (t := .array) (n := a.length) (by have := sizeList_length env a; omega)
      have key : ∀ (a' : List Value) (bs : List UInt8), (∀ v ∈ a', v ∈ a) → Value.serList env h a' = .ok bs →
          bs.length ≤ 2 ^ 19 * Value.sizeList env a' := by
        intro a'
        induction a' with
        | nil => intro bs _ e; simp only [Value.serList, Out.ok.injEq] at e; subst e; simp
        | cons v a' ih =>
          intro bs hsub e
          simp only [Value.serList] at e
          rw [Out.bind_eq_ok] at e
          obtain ⟨b1, e1, e⟩ := e
          rw [Out.bind_eq_ok] at e
          obtain ⟨b2, e2, e⟩ := e
          simp only [Out.pure_eq, Out.ok.injEq] at e
          have hv := hsub v (by simp)
          have h1 := iha a rfl v hv (Sound.array hs hv) (by have := sizeList_mem env hv; omega) b1 e1
          have h2 := ih b2 (fun w hw => hsub w (by simp [hw])) e2
          rw [← e]
          simp only [List.length_append, Value.sizeList]
          omega
      have := key a bs (fun _ h => h) e1
      rw [← e, List.length_append]
      omega
    | map m =>
      simp only [Value.size] at hsz ⊢
      simp only [Value.ser] at e
      rw [Out.bind_eq_ok] at e
      obtain ⟨bs, e1, e⟩ := e
      simp only [Out.pure_eq, Out.ok.injEq] at e
      have hl := serLen_length (t := .map) (n := m.length) (by have := sizeEntries_length env m; omega)
      have key : ∀ (m' : List (List Char × Value)) (bs : List UInt8), (∀ x ∈ m', x ∈ m) →
          Value.serEntries env h m' = .ok bs → bs.length ≤ 2 ^ 19 * Value.sizeEntries env m' := by
        intro m'
        induction m' with
        | nil => intro bs _ e; simp only [Value.serEntries, Out.ok.injEq] at e; subst e; simp
        | cons x m' ih =>
          obtain ⟨k, v⟩ := x
          intro bs hsub e
          simp only [Value.serEntries] at e
          rw [Out.bind_eq_ok] at e
          obtain ⟨b0, e0, e⟩ := e
          rw [Out.bind_eq_ok] at e
          obtain ⟨b1, e1, e⟩ := e
          rw [Out.bind_eq_ok] at e
          obtain ⟨b2, e2, e⟩ := e
          simp only [Out.pure_eq, Out.ok.injEq] at e
          have hv := hsub (k, v) (by simp)
          have hmem := sizeEntries_mem env hv
          have h0 := string_length hh (by omega) e0
          have h1 := ihm m rfl k v hv (Sound.map hs hv) (by omega) b1 e1
          have h2 := ih b2 (fun w hw => hsub w (by simp [hw])) e2
          rw [← e]
          simp only [List.length_append, Value.sizeEntries]
          omega
      have := key m bs (fun _ h => h) e1
      rw [← e, List.length_append]
      omega
    | timezone n =>
      simp only [Value.size] at hsz ⊢
      simp only [Value.ser] at e
      rw [Out.bind_eq_ok] at e
      obtain ⟨bs, e1, e⟩ := e
      simp only [Out.pure_eq, Out.ok.injEq] at e
      have := string_length hh (by omega) e1
      rw [← e]; simp only [List.length_cons]; omega
    | ipv4 a b c d => simp only [Value.ser, Out.ok.injEq] at e; rw [← e]; simp [Value.size]
    | ipv6 a b c d x f g i =>
      simp only [Value.ser, Out.ok.injEq] at e
      rw [← e]
      simp [Value.size, Value.le16]

/-! ## Files -/

theorem store_reads {env : Env} (hlz : env.lz.Lossless) (hb : HashOrder env.byteOrd) (hc : HashOrder env.charOrd)
    {s : Store} (hs : Value.Sound env (.map s)) (hsz : (Value.map s).size env < 2 ^ 40)
    (hone : ¬ Store.OneCharacter env s) {bytes : List UInt8} (e : Store.ser env s = .ok bytes) :
    ∃ s', store env bytes = some s' ∧ Value.SameAs (.map s) (.map s') := by
  obtain ⟨h, mb, ct, comp, e1, e2, e3, hg, _, hsome⟩ := ser_shape env hb hc s
  have hbr : Branching h := by
    intro coder hcoder
    obtain ⟨⟨t, ht, hne⟩, root, rfl, _, hmem⟩ := hsome coder hcoder
    cases root with
    | branch l r => exact ⟨l, r, rfl⟩
    | leaf x =>
      exfalso
      apply hone
      have hx : ∀ t, Value.Text env t (.map s) → ∀ y ∈ t, y = x := by
        intro t ht y hy
        simpa [Node.leaves] using hmem t ht y hy
      obtain ⟨y, hy⟩ := List.exists_mem_of_ne_nil t hne
      exact ⟨x, hx, t, ht, hx t ht y hy ▸ hy⟩
  have hbd : Bounded h ∧ (h.elim [] Huffman.serChar).length ≤ 6 * 2 ^ 21 := by
    cases h with
    | none => exact ⟨.inl rfl, by simp⟩
    | some coder =>
      obtain ⟨_, root, rfl, hnd, _⟩ := hsome coder rfl
      have hl := nodup_chars hnd
      refine ⟨.inr ⟨root, rfl, hl⟩, ?_⟩
      have := serChar_length root
      show root.serChar.length ≤ _
      omega
  have hmb := ser_length hb hbd.1 _ hs hsz mb e2
  obtain ⟨v', hsame, hrd⟩ := value_reads hlz hb hbr _ hs (by omega) mb e2 (by omega)
    (h.elim [] Huffman.serChar ++ mb).length (by rw [List.length_append]; omega)
  generalize hdata : h.elim [] Huffman.serChar ++ mb = data at *
  have hdl : data.length < 2 ^ 60 := by
    rw [← hdata, List.length_append]
    have := hbd.2
    omega
  have hbin := binary_reads hlz hb hdl e3
  obtain ⟨ct', comp', e4, _, hcl, _⟩ := C25_never_expands env.lz hb data (by omega)
  rw [e3, Out.ok.injEq, Prod.mk.injEq] at e4
  rw [← e4.2] at hcl
  rw [e1, Out.ok.injEq] at e
  subst e
  cases hsame with
  | @map _ m' hl hk hv =>
    refine ⟨m', ?_, .map hl hk hv⟩
    unfold store
    generalize hflag : (((if h.isSome then (1 : UInt8) else 0) <<< 7) ||| ct.toByte) = flag at *
    have hlow : BinaryCompression.ofByte (flag &&& 0b01111111) = .ok ct := by
      rw [← hflag]
      cases h.isSome <;> cases ct <;> rfl
    have hhigh : decide (flag &&& 0b10000000 ≠ 0) = h.isSome := by
      rw [← hflag]
      cases h.isSome <;> cases ct <;> rfl
    have hdrop : (Store.magic ++ flag :: comp).drop 8 = flag :: comp := by simp [Store.magic]
    have hdec : binary env.lz ct (Cursor.new comp) = .ok (data, Cursor.At comp []) := by
      have := hbin [] [] (by simp [usizeMod]; omega)
      simpa [Cursor.At, Cursor.new] using this
    have hcoder : Store.deserCoder h.isSome (Cursor.new data)
        = .ok (h, Cursor.At (h.elim [] Huffman.serChar) mb) := by
      unfold Store.deserCoder
      rcases hg with rfl | ⟨root, rfl⟩
      · rw [← hdata]; rfl
      · have h1 : Reads Huffman.deserChar root.serChar (Huffman.ofRoot root) :=
          Reads.bind' (b2 := []) (by simp) (Node.deserChar_reads root) (Reads.pure _)
        have hd : data = root.serChar ++ mb := by rw [← hdata]; rfl
        have h2 := h1 [] mb (by rw [List.nil_append, ← hd]; exact lt_trans hdl (by norm_num [usizeMod]))
        have h3 : Huffman.deserChar (Cursor.new data)
            = .ok (Huffman.ofRoot root, Cursor.At root.serChar mb) := by
          rw [hd]
          simpa [Cursor.At, Cursor.new] using h2
        simp only [Option.isSome_some, if_true, Parser.bind_apply, Parser.mapErr_apply, h3, Out.mapErr_ok,
          Parser.pure_apply, Out.ok_bind]
        rfl
    have hval := hrd (h.elim [] Huffman.serChar) [] (by
      rw [List.append_nil, hdata]; exact lt_trans hdl (by norm_num [usizeMod]))
    rw [List.append_nil] at hval
    simp only [hdrop, hlow, hdec, hhigh, hcoder, hval]

end Fixed

end Souris
