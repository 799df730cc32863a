import Verif.Model.Benches
import Verif.Props.RepoTests

/-!
# C106: the project's benchmarks, for every example file

A benchmark is right if it runs to the end, however many rounds there are, and if every round measures what its name
says: the data itself for what is decoded, an equal coder for what is deserialised, a store for `deserialise_store`.
-/

namespace Souris

namespace Benches

theorem iter_same {σ α : Type} {f : σ → Out Empty (α × σ)} {s : σ} {a : α} (h : f s = .ok (a, s)) (n : Nat) :
    iter f n s = .ok (List.replicate n a) := by
  induction n with
  | zero => rfl
  | succ n ih => simp [iter, h, ih, List.replicate_succ]

theorem still_ok {α : Type} {o : Out Empty α} {a : α} (h : o = .ok a) (n : Nat) : still o n = .ok (List.replicate n a) :=
  iter_same (by rw [h]; rfl) n

theorem still_panic {α : Type} {o : Out Empty α} {p : Panic} (h : o = .panic p) (n : Nat) :
    still o (n + 1) = .panic p := by
  simp only [still, iter, h]; rfl

theorem rounds_ok {ε α : Type} {p : Parser ε α} {bytes : List UInt8} {x : α} (h : Inverts p bytes x)
    (hl : bytes.length < 2 ^ 64) (n : Nat) : reread p bytes n = .ok (List.replicate n x) := by
  refine iter_same ?_ n
  rw [inverts_new h hl]
  simp [unwrap, Cursor.setPos, Cursor.new]

theorem rounds_panic {ε α : Type} {p : Parser ε α} {bytes : List UInt8} {r : Panic} (h : p (Cursor.new bytes) = .panic r)
    (n : Nat) : reread p bytes (n + 1) = .panic r := by
  simp only [reread, iter, h, unwrap]; rfl

end Benches

open Benches

/-! ## Compression -/

/-- C106: `un-rle` decodes the file in every round. -/
theorem C106_un_rle (text : List Char) (hl : (utf8 text).length ≤ 2 ^ 62) (n : Nat) :
    unRle text n = .ok (List.replicate n (utf8 text)) :=
  rounds_ok (C22_rle_lossless _) (rle_short _ hl) n

/-- C106: `un-lz` decodes the file in every round. -/
theorem C106_un_lz {z : Lz4} (hz : z.Earlier) (text : List Char) (hl : (utf8 text).length ≤ 2 ^ 62) (n : Nat) :
    unLz z.codec text n = .ok (List.replicate n (utf8 text)) :=
  rounds_ok (C23_lz4 hz _ (by unfold isizeMax; omega)) (lz_short hz _ hl) n

/-- C106, partial: `un-huff` decodes the file in every round. Missing: files of more than 2 MiB
(`C106_refuted_long`). -/
theorem C106_un_huff_partial {ord : List (Node UInt8 × Nat) → List (Node UInt8 × Nat)} (hord : HashOrder ord)
    (text : List Char) (hl : (utf8 text).length ≤ 2 ^ 21) (n : Nat) :
    unHuff ord text n = .ok (List.replicate n (utf8 text)) := by
  obtain ⟨bytes, e, hi⟩ := C24_huffman_lossless_partial hord (utf8 text) (by unfold isizeMax; omega) (.inl hl)
  unfold unHuff
  rw [e]
  exact rounds_ok hi (huffman_short hord (by omega) e) n

/-- C106: `rle`, `lz` and `huff` run to the end with every file and measure the same bytes in each round. -/
theorem C106_compress (z : Lz) {ord : List (Node UInt8 × Nat) → List (Node UInt8 × Nat)} (hord : HashOrder ord)
    (text : List Char) (n : Nat) : rle text n = .ok (List.replicate n (Binary.rle (utf8 text))) ∧
      lz z text n = .ok (List.replicate n (Binary.lz z (utf8 text))) ∧
      ∃ bytes, Binary.huffman ord (utf8 text) = .ok bytes ∧ huff ord text n = .ok (List.replicate n bytes) := by
  obtain ⟨bytes, e⟩ := C24_huffman_total hord (utf8 text)
  exact ⟨still_ok rfl n, still_ok rfl n, bytes, e, still_ok e n⟩

/-- A file of `n + 2` characters, all but the last of which are the same. -/
def longFile (n : Nat) : List Char := List.replicate (n + 1) '1' ++ ['2']

theorem utf8_longFile (n : Nat) : utf8 (longFile n) = List.replicate (n + 1) 49 ++ [50] := by
  have h1 : String.utf8EncodeChar '1' = [49] := by decide
  have h2 : String.utf8EncodeChar '2' = [50] := by decide
  unfold utf8 longFile
  rw [List.flatMap_append, List.flatMap_replicate, h1]
  simp [h2]

/-- C106 is violated: there is a file of 2^24 + 1 characters with which `un-huff` panics in its first round. It is a
number, so it is JSON. -/
theorem C106_refuted_long {ord : List (Node UInt8 × Nat) → List (Node UInt8 × Nat)} (hord : HashOrder ord) (n : Nat) :
    unHuff ord (longFile (2 ^ 24 - 1)) (n + 1) = .panic .index := by
  obtain ⟨bytes, e, hp, _⟩ := C24_refuted hord (utf8 (longFile (2 ^ 24 - 1)))
    (by rw [utf8_longFile, List.length_append, List.length_replicate]; decide)
    (by
      rw [utf8_longFile]
      exact ⟨49, List.mem_append_left _ (List.mem_replicate.mpr ⟨by omega, rfl⟩), 50,
        List.mem_append_right _ (List.mem_singleton.mpr rfl), by decide⟩)
    49 50 (by decide) (by
      rw [utf8_longFile]
      intro z hz
      rcases List.mem_append.mp hz with h | h
      · exact .inl (List.mem_replicate.mp h).2
      · exact .inr (List.mem_singleton.mp h))
  unfold unHuff
  rw [e]
  exact rounds_panic hp n

/-! ## Coders -/

section

variable {ord : List (Node Char × Nat) → List (Node Char × Nat)}

/-- C106: a coder can be made of every file but the empty one, and what is measured is the same in each round. -/
theorem C106_create (hord : HashOrder ord) (text : List Char) (hne : text ≠ []) :
    ∃ h, Huffman.new ord text = .ok h ∧ (∀ n, createHuffman ord text n = .ok (List.replicate n h)) ∧
      (∃ bits, h.encode text = .ok bits ∧ ∀ n, encodeHuffman ord text n = .ok (List.replicate n bits)) ∧
      ∀ n, serialiseHuffman ord text n = .ok (List.replicate n h.serChar) := by
  obtain ⟨h, e, henc, _⟩ := C18_alphabet hord text hne
  obtain ⟨bits, eb⟩ := (henc text).mpr fun _ hx => hx
  refine ⟨h, e, fun n => still_ok (by rw [e]; rfl) n, ⟨bits, eb, fun n => ?_⟩, fun n => ?_⟩
  · simp only [encodeHuffman, e, unwrap]
    exact still_ok (by rw [eb]) n
  · simp only [serialiseHuffman, e, unwrap]
    exact still_ok rfl n

/-- C106 is violated by the empty file: all the benchmarks of coders panic, even without a round, except that
`create huffman` needs one. -/
theorem C106_refuted_empty (hord : HashOrder ord) (n : Nat) : createHuffman ord [] (n + 1) = .panic .explicit ∧
    encodeHuffman ord [] n = .panic .explicit ∧ decodeHuffman ord [] n = .panic .explicit ∧
    serialiseHuffman ord [] n = .panic .explicit ∧ deserialiseHuffman ord [] n = .panic .explicit ∧
    serialiseBits ord [] n = .panic .explicit ∧ deserialiseBits ord [] n = .panic .explicit := by
  have e := (C17_new_total hord []).2 rfl
  refine ⟨still_panic (by rw [e]; rfl) n, ?_⟩
  simp only [encodeHuffman, decodeHuffman, serialiseHuffman, deserialiseHuffman, serialiseBits, deserialiseBits, e, unwrap]
  exact ⟨rfl, rfl, rfl, rfl, rfl, rfl⟩

/-- C106, partial: `decode huffman` decodes the file in every round. Missing: files of one character, however often it is
repeated (`C106_refuted_one`). -/
theorem C106_decode_partial (hord : HashOrder ord) (text : List Char) (h2 : TwoSymbols text) (n : Nat) :
    decodeHuffman ord text n = .ok (List.replicate n text) := by
  obtain ⟨h, e, hd⟩ := C17_lossless_partial hord text h2
  obtain ⟨bits, e1, e2⟩ := hd text fun _ hx => hx
  simp only [decodeHuffman, e, unwrap, Out.ok_bind, e1]
  exact still_ok (by rw [e2]) n

/-- C106 is violated by a file of one character: what `decode huffman` measures is how nothing at all is decoded. The file
`1` is JSON. -/
theorem C106_refuted_one (hord : HashOrder ord) (x : Char) (k n : Nat) :
    decodeHuffman ord (List.replicate (k + 1) x) n = .ok (List.replicate n []) := by
  obtain ⟨h, e, bits, e1, _, e2⟩ := C17_refuted_one_symbol hord x k (k + 1)
  simp only [decodeHuffman, e, unwrap, Out.ok_bind, e1]
  exact still_ok (by rw [e2]) n

/-- C106: `deserialise huffman` yields, in every round, a coder that does the same as the one that was serialised. -/
theorem C106_deserialise (hord : HashOrder ord) (text : List Char) (hne : text ≠ []) (hl : text.length ≤ 2 ^ 58) :
    ∃ h h', Huffman.new ord text = .ok h ∧ SameCoder h' h ∧
      ∀ n, deserialiseHuffman ord text n = .ok (List.replicate n h') := by
  obtain ⟨root, e, _, hnd, hmem, _⟩ := Huffman.new_ok hord text hne
  have hhl : (Huffman.ofRoot root).serChar.length < 2 ^ 64 := by
    have h1 := Fixed.serChar_length root
    have h2 : root.leaves.length ≤ text.length := (hnd.subperm fun x hx => (hmem x).mp hx).length_le
    show root.serChar.length < 2 ^ 64
    omega
  obtain ⟨h', e4, hsame⟩ := C20_tree_roundtrip_char root [] [] (by simpa using hhl)
  simp only [List.nil_append, List.append_nil, List.length_nil] at e4
  have e5 : Huffman.deserChar (Cursor.new (Huffman.ofRoot root).serChar) = .ok (h', _) := e4
  refine ⟨_, h', e, hsame, fun n => ?_⟩
  simp only [deserialiseHuffman, e, unwrap, Out.ok_bind, e5]
  exact still_ok rfl n

/-- C106, partial: `deserialise bits` yields, in every round, the bits that were serialised. Missing: files of more than
2^19 characters (`C15_lengths` says of each number of bits whether it comes back). -/
theorem C106_bits_partial (hord : HashOrder ord) (text : List Char) (hne : text ≠ []) (hl : text.length ≤ 2 ^ 19) :
    ∃ h bits, Huffman.new ord text = .ok h ∧ h.encode text = .ok bits ∧
      (∃ bytes, bits.ser = .ok bytes ∧ ∀ n, serialiseBits ord text n = .ok (List.replicate n bytes)) ∧
      ∀ n, deserialiseBits ord text n = .ok (List.replicate n bits) := by
  obtain ⟨root, e, _, hnd, hmem, _⟩ := Huffman.new_ok hord text hne
  obtain ⟨cs, hcs⟩ := Huffman.exists_codes _ text (fun x hx => (hmem x).mpr hx)
  have e1 := Huffman.encode_ok _ hcs
  obtain ⟨h', bits', e3, hle⟩ := C19_optimal hord text hne charBools (charBools_prefixFree text)
  have hb : bits' = Bits.ofList cs.flatten := by
    simp [Huffman.newAndEncode, e, e1] at e3
    exact e3.2.symm
  subst hb
  have hlen : cs.flatten.length ≤ 2 ^ 24 := by
    have : text.map (fun x => (charBools x).length) = List.replicate text.length 32 := by
      rw [List.eq_replicate_iff]
      simp [charBools]
    rw [this, List.sum_replicate_nat] at hle
    have : cs.flatten.length ≤ text.length * 32 := hle
    omega
  obtain ⟨bytes, es, hr⟩ := C15_bits_roundtrip_partial cs.flatten hlen
  rw [Bits.ofBools_eq] at es hr
  have hbl : bytes.length < 2 ^ 64 := by
    have : (Bits.ofList cs.flatten).ser = .ok ((Integer.ofUnsigned 8 cs.flatten.length).ser.2 ++ Bits.pack cs.flatten) := by
      simp only [Bits.ser, Bits.properBytes_ofList]; rfl
    rw [this] at es
    cases es
    have h1 := (C07_size_le (k := 8) (by unfold Width; decide)).1 cs.flatten.length (by unfold IsUnsigned; omega)
    have h2 := Bits.pack_length cs.flatten
    rw [List.length_append]
    omega
  have hd := inverts_new (p := Bits.deser) hr hbl
  refine ⟨_, _, e, e1, ⟨bytes, es, fun n => ?_⟩, fun n => ?_⟩
  · simp only [serialiseBits, e, unwrap, Out.ok_bind, e1]
    exact still_ok es n
  · simp only [deserialiseBits, e, unwrap, Out.ok_bind, e1, es, hd]
    exact still_ok rfl n

end

/-! ## Databases -/

/-- C106: `serialise_store` measures the bytes of the same database in each round, for every file that is JSON and can be
imported. -/
theorem C106_serialise (env : Env) (hb : HashOrder env.byteOrd) (hc : HashOrder env.charOrd) {text : List Char}
    {j : SJValue} (hj : env.jsonParse text = some j) {s : Store} (hs : Store.fromJson env j = .ok s) :
    ∃ bytes, Store.ser env s = .ok bytes ∧ ∀ n, serialiseStore env text n = .ok (List.replicate n bytes) := by
  obtain ⟨_, _, e, _⟩ := C34_written env hb hc s
  refine ⟨_, e, fun n => ?_⟩
  simp only [serialiseStore, example_, hj, hs, unwrap, Out.ok_bind]
  exact still_ok e n

/-- C106 is violated by `deserialise_store`: whatever the file, no round of it measures how a database is read. Either it
panics, or every round ends in an error, which is not looked at. -/
theorem C106_refuted_database (env : Env) (text : List Char) (n : Nat) {rounds : List (Out StoreSerError Store)}
    (e : deserialiseStore env text n = .ok rounds) : rounds.length = n ∧ ∀ r ∈ rounds, ∃ why, r = .err why := by
  simp only [deserialiseStore, Out.bind_eq_ok] at e
  obtain ⟨s, _, bytes, _, e⟩ := e
  cases h : Store.deser env bytes with
  | ok s' => exact absurd h (C33_refuted env bytes s')
  | err why =>
    rw [still_ok (a := Out.err why) (by rw [h]; rfl) n] at e
    cases e
    exact ⟨List.length_replicate, fun r hr => ⟨why, (List.mem_replicate.mp hr).2⟩⟩
  | panic p =>
    cases n with
    | zero => cases e; simp
    | succ n =>
      rw [still_panic (p := p) (by rw [h]; rfl) n] at e
      cases e

/-! ## Examples -/

example : unRle "{\"a\": 10000}".toList 3 = .ok (List.replicate 3 (utf8 "{\"a\": 10000}".toList)) :=
  C106_un_rle _ (by decide +kernel) 3
example : decodeHuffman id "[1]".toList 2 = .ok ["[1]".toList, "[1]".toList] :=
  C106_decode_partial (fun _ => .refl _) _ ⟨'[', by decide, '1', by decide, by decide⟩ 2
example : decodeHuffman id ['1'] 2 = .ok [[], []] := C106_refuted_one (fun _ => .refl _) '1' 0 2
example : (match deserialiseStore serdeEnv "[1]".toList 2 with | .ok [.err _, .err _] => true | _ => false) = true := by
  decide +kernel

end Souris
