import Verif.Lemmas.WireWritten
import Verif.Props.Lz4Use
import Verif.Props.Size

/-! # The byte format (C94)

`Spec/Wire.lean` describes the bytes of values and of database files without the functions that write and read them.
Here: whatever is written is in that format, and whatever is read was in it, so that another program that keeps to the
description understands the files. -/

namespace Souris

open Value Wire

/-! ## Writing -/

/-- Compressed data as it is written: an LZ4 block behind the length of the data. -/
def Wire.Lz4Written (n : Nat) (block data : List UInt8) : Prop := n = data.length ∧ Lz4Block true true [] block data

/-- C94: what is written for a value is in the format, whatever tree there is for the strings and whatever order the
hash maps have. -/
theorem C94_written {env : Env} (hlz : env.Lz4) (hord : HashOrder env.byteOrd) {co : Option (Node Char)} {v : Value}
    (hv : Dated v) (hd : ∀ d, Sub (.binary d) v → d.length ≤ isizeMax) {b : List UInt8}
    (e : ser env (co.map Huffman.ofRoot) v = .ok b) (hb : b.length < 2 ^ 60) : Word true Lz4Written env co v b := by
  refine ser_written hord v (fun d hs => ⟨hd d hs, fun _ => ⟨rfl, ?_⟩⟩) hv b e hb
  obtain ⟨z, hz, e⟩ := hlz
  rw [e]
  exact C89_written hz d

/-- A number, a text, and a map within an array. -/
def wireSample : Value :=
  .array [.integer (Integer.ofSigned 4 (-3)), .string ['h', 'i'], .map [(['k'], .null)]]

theorem wireSample_subs {w : Value} (h : Sub w wireSample) : w = wireSample ∨ w = .integer (Integer.ofSigned 4 (-3)) ∨
    w = .string ['h', 'i'] ∨ w = .map [(['k'], .null)] ∨ w = .null := by
  unfold wireSample at h ⊢
  cases h with
  | refl => simp
  | array hv h =>
    simp only [List.mem_cons, List.not_mem_nil, or_false] at hv
    rcases hv with rfl | rfl | rfl
    · cases h; simp
    · cases h; simp
    · cases h with
      | refl => simp
      | map hv h =>
        simp only [List.mem_cons, Prod.mk.injEq, List.not_mem_nil, or_false] at hv
        rw [hv.2] at h
        cases h; simp

theorem wireSample_dated : Dated wireSample := by
  refine ⟨⟨?_, ?_, ?_⟩, ?_⟩
  · intro i hi
    rcases wireSample_subs hi with h | h | h | h | h <;> (try (unfold wireSample at h; cases h; done)) <;>
      (try (cases h; done))
    rw [Value.integer.injEq] at h
    rw [h]
    exact .native (.signed (by unfold Width; decide) (by unfold IsSigned; decide))
  · intro i hi
    rcases wireSample_subs hi with h | h | h | h | h <;> (try unfold wireSample at h) <;> cases h
  · intro i hi
    rcases wireSample_subs hi with h | h | h | h | h <;> (try unfold wireSample at h) <;> cases h
    simp
  · intro i hi
    rcases wireSample_subs hi with h | h | h | h | h <;> (try unfold wireSample at h) <;> cases h

example : Word true Lz4Written realEnv none wireSample
    [0xB6, 0x42, 0xF0, 0xFD, 0x10, 2, 0x68, 0x69, 0x82, 0x10, 1, 0x6B, 0x90] := by
  refine C94_written realEnv_lz4 (fun l => List.Perm.refl _) (co := none) wireSample_dated ?_ rfl (by decide)
  intro d hd
  rcases wireSample_subs hd with h | h | h | h | h <;> (try unfold wireSample at h) <;> cases h

/-- Binary data that occurs in a value is no larger than the value. -/
theorem Wire.sub_binary_size (env : Env) {d : List UInt8} {v : Value} (h : Sub (.binary d) v) :
    d.length < v.size env := by
  generalize hw : Value.binary d = w at h
  induction h with
  | refl v => rw [← hw]; simp only [Value.size]; omega
  | array hv _ ih => have := ih hw; have := Fixed.sizeList_mem env hv; simp only [Value.size]; omega
  | map hv _ ih => have := ih hw; have := Fixed.sizeEntries_mem env hv; simp only [Value.size]; omega

/-- C94: what is written for a database is in the format of files. -/
theorem C94_file {env : Env} (hlz : env.Lz4) (hb : HashOrder env.byteOrd) (hc : HashOrder env.charOrd) {s : Store}
    (hs : Dated (.map s)) (hsz : (Value.map s).size env < 2 ^ 53) {file : List UInt8} (e : Store.ser env s = .ok file) :
    FileWord Lz4Written env s file := by
  obtain ⟨h, mb, ct, comp, es, em, ec, hcase⟩ := Fixed.ser_shape_new env hb hc s
  have hl := Fixed.data_length hb hc hs hsz em hcase
  obtain ⟨ct', comp', e4, _, hcl, _⟩ := C25_never_expands env.lz hb _ (lt_trans hl (by norm_num))
  rw [ec, Out.ok.injEq, Prod.mk.injEq] at e4
  rw [← e4.2] at hcl
  rw [es, Out.ok.injEq] at e
  have hbin := binary_written (B := Lz4Written) hb (fun _ => ⟨rfl, by
    obtain ⟨z, hz, e⟩ := hlz
    rw [e]
    exact C89_written hz _⟩) (by unfold isizeMax; omega) (by omega) ec
  have hmb : mb.length < 2 ^ 60 := by rw [List.length_append] at hl; omega
  have hd : ∀ d, Sub (.binary d) (.map s) → d.length ≤ isizeMax := fun d hd => by
    have := sub_binary_size env hd
    unfold isizeMax; omega
  rcases hcase with ⟨rfl, -⟩ | ⟨root, rfl, -⟩
  · have := C94_written hlz hb (co := none) hs hd em hmb
    rw [← e]
    exact .bare (by cases ct <;> rfl) hbin this
  · have := C94_written hlz hb (co := some root) hs hd em hmb
    rw [← e]
    exact .coded (by rw [Option.isSome_some, if_pos rfl]; cases ct <;> rfl) (treeChar_written root) hbin this

/-- Texts, an empty array, a map within a map and a leap second. -/
example : ∃ file, Store.ser realEnv awkwardStore = .ok file ∧ FileWord Lz4Written realEnv awkwardStore file := by
  have hs : Dated (.map awkwardStore) := ⟨awkwardStore_sound.1.1, awkwardStore_sound.1.2.1⟩
  have hsz : (Value.map awkwardStore).size realEnv < 2 ^ 53 := by
    simp [awkwardStore, Value.size, Value.sizeEntries, Value.sizeList]
  obtain ⟨file, e, _⟩ := C79_linear (env := realEnv) (fun l => List.Perm.refl _) (fun l => List.Perm.refl _) hs
    (by omega)
  exact ⟨file, e, C94_file realEnv_lz4 (fun l => List.Perm.refl _) (fun l => List.Perm.refl _) hs hsz e⟩

/-! ## Reading -/

/-- Compressed data as it is understood: an LZ4 block behind a number that is at least the length of the data. Offsets of
0 are not noticed (`C89_refuted_offset`). -/
def Wire.Lz4Understood (n : Nat) (block data : List UInt8) : Prop := data.length ≤ n ∧ Lz4Block false false [] block data

/-- C94, partial: what is read as a value was in the format, and was all that is read. Missing: this is for less than
2 MiB ahead; and bits without meaning are understood (see `Spec/Wire.lean`). -/
theorem C94_understood_partial {env : Env} (hlz : env.Lz4) {co : Option (Node Char)} {pre rest : List UInt8}
    (hl : rest.length < 2 ^ 21) {v : Value} {c' : Cursor UInt8}
    (e : deser env (co.map Huffman.ofRoot) (Cursor.At pre rest) = .ok (v, c')) :
    ∃ w tail, rest = w ++ tail ∧ c' = Cursor.At (pre ++ w) tail ∧ Word false Lz4Understood env co v w := by
  obtain ⟨w, tail, h1, h2, h3⟩ := deser_eats pre rest v c' hl e
  refine ⟨w, tail, h1, h2, h3.block fun n b d h => ?_⟩
  obtain ⟨z, hz, e⟩ := hlz
  unfold Reading at h
  rw [e] at h
  exact ⟨(C89_only_partial h).2, (C89_only_partial h).1⟩

set_option maxRecDepth 4000 in
/-- Two numbers in an array, of which one takes more bytes than it needs, with bits set that have no meaning. -/
example : ∃ w tail v c', deser realEnv none (Cursor.At [7] [0xB5, 0xF0, 2, 0x4C, 0xF1, 3, 0, 0x41, 9, 0xFF]) = .ok (v, c') ∧
    [0xB5, 0xF0, 2, 0x4C, 0xF1, 3, 0, 0x41, 9, 0xFF] = w ++ tail ∧ tail = [0xFF] ∧ c' = Cursor.At ([7] ++ w) tail ∧
    Word false Lz4Understood realEnv none v w := by
  have e : ∃ v c', deser realEnv none (Cursor.At [7] [0xB5, 0xF0, 2, 0x4C, 0xF1, 3, 0, 0x41, 9, 0xFF]) = .ok (v, c') ∧
      c'.pos = 10 := ⟨_, _, rfl, rfl⟩
  obtain ⟨v, c', e, hp⟩ := e
  obtain ⟨w, tail, h1, h2, h3⟩ := C94_understood_partial realEnv_lz4 (co := none) (by decide) e
  have hl : w.length = 9 := by
    rw [h2] at hp
    simp [Cursor.At] at hp
    omega
  refine ⟨w, tail, v, c', e, h1, ?_, h2, h3⟩
  have := congrArg (List.drop 9) h1
  rw [List.drop_append_of_le_length (le_of_eq hl.symm), List.drop_eq_nil_of_le (le_of_eq hl)] at this
  exact this.symm

/-- Compressed data that any other program may have written. -/
def Wire.Lz4Any (n : Nat) (block data : List UInt8) : Prop :=
  data.length ≤ n ∧ n ≤ isizeMax ∧ ∃ ends, Lz4Block true ends [] block data

/-- C94, partial: every word of the format is read as the value it is for, and whatever follows is left alone. Missing:
maps and empty arrays are not read (C26), texts coded with a tree of one character neither (C18), and this is for words
of at most 2 MiB. -/
theorem C94_accepted_partial {env : Env} (hlz : env.Lz4) (hcap : 2 ^ 21 ≤ env.arrayCapMax) {co : Option (Node Char)}
    (hco : ∀ root, co = some root → ∃ l r, root = .branch l r) {v : Value} {w : List UInt8}
    (h : Word false Lz4Any env co v w) (hw : w.length ≤ 2 ^ 21) (hm : ¬ HasMap v) (he : ¬ HasEmptyArray v) :
    ∃ v', SameAs v v' ∧ ∀ pre tail : List UInt8, (pre ++ w ++ tail).length < 2 ^ 64 →
      deser env (co.map Huffman.ofRoot) (Cursor.At pre (w ++ tail)) = .ok (v', Cursor.At (pre ++ w) tail) := by
  obtain ⟨z, hz, ez⟩ := hlz
  obtain ⟨v', hs, hp⟩ := word_parsed hco hcap (h.block (C := Reading env.lz) fun n b d h => by
    obtain ⟨h1, h2, ends, h3⟩ := h
    unfold Reading
    rw [ez]
    exact C89_reads z h3 h1 h2) hw hm he
  refine ⟨v', hs, fun pre tail hlt => ?_⟩
  have hdone : Loops env (co.map Huffman.ofRoot) 1 [.foundValue v'] (Cursor.At (pre ++ w) tail)
      (.ok (v', Cursor.At (pre ++ w) tail)) := .done rfl
  obtain ⟨m, hm⟩ := (hp pre tail [] hlt).loops hdone
  exact deser_of_loops hm

/-- The word of a text coded with a tree of two characters, and a bit set that has no meaning in the type byte. -/
example {env : Env} (he : env = { realEnv with arrayCapMax := 2 ^ 40 }) :
    ∃ v', SameAs (.array [.string ['a', 'b']]) v' ∧ ∀ pre tail : List UInt8,
    (pre ++ [0xB2, 0x1B, 2, 1] ++ tail).length < 2 ^ 64 →
      deser env (some (Huffman.ofRoot (.branch (.leaf 'a') (.leaf 'b')))) (Cursor.At pre ([0xB2, 0x1B, 2, 1] ++ tail))
        = .ok (v', Cursor.At (pre ++ [0xB2, 0x1B, 2, 1]) tail) := by
  refine C94_accepted_partial (he ▸ realEnv_lz4) (by rw [he]; norm_num) (co := some (.branch (.leaf 'a') (.leaf 'b')))
    (fun root h => ⟨_, _, (Option.some.inj h).symm⟩) (v := .array [.string ['a', 'b']]) (w := [0xB2, 0x1B, 2, 1])
    ?_ (by decide) ?_ ?_
  · refine Word.array (n := 1) (head := [0xB2]) (parts := [[0x1B, 2, 1]]) (.short rfl rfl (by simp)) (.inl rfl) rfl ?_
    intro i v p hv hp
    match i with
    | 0 =>
      simp only [List.getElem?_cons_zero, Option.some.injEq] at hv hp
      subst hv hp
      refine .string (.coded (bits := [true, false]) ⟨rfl, rfl, by simp⟩ rfl ?_ ?_)
      · exact .cons (p := [true]) (.left (.leaf _)) (.cons (p := [false]) (.right (.leaf _)) .nil)
      · refine .mk (len := [2]) (bytes := [1]) (show IntWord 8 .unsigned (signed .unsigned [2]) [2] from .short (by decide)) rfl (by simp) ?_
        have hpad : ¬ Padded [1] 2 := by
          rintro ⟨j, hj, hb⟩
          by_cases h8 : j < 8
          · interval_cases j <;> exact absurd hb (by decide)
          · rw [bitAt_beyond (by simp; omega)] at hb; cases hb
        intro i hi
        simp only [List.length_cons, List.length_nil] at hi ⊢
        interval_cases i
        · simp [bitAt]
        · simp only [hpad, and_false, or_false]; decide
    | i + 1 => simp at hv
  · intro h
    cases h with
    | array hv h =>
      simp only [List.mem_cons, List.not_mem_nil, or_false] at hv
      subst hv; cases h
  · intro h
    cases h with
    | array hv h =>
      simp only [List.mem_cons, List.not_mem_nil, or_false] at hv
      subst hv; cases h

/-! ## What was hardly intended -/

/-- C94 is violated by the bits that fill up the last byte of a coded text: they should have no meaning, but when one of
them is set, the text is read as another one. -/
theorem C94_refuted_padding (env : Env) : ∃ (root : Node Char) (byte byte' : UInt8), bitAt [byte] 0 = bitAt [byte'] 0 ∧
    Word true Lz4Written env (some root) (.string ['b']) [0x11, 1, byte] ∧
    deser env (some (Huffman.ofRoot root)) (Cursor.new [0x11, 1, byte]) = .ok (.string ['b'], ⟨[0x11, 1, byte], 3⟩) ∧
    deser env (some (Huffman.ofRoot root)) (Cursor.new [0x11, 1, byte']) = .ok (.string ['a'], ⟨[0x11, 1, byte'], 3⟩) := by
  refine ⟨.branch (.leaf 'a') (.leaf 'b'), 0, 2, rfl, ?_, rfl, rfl⟩
  have hpad : ¬ Padded [0] 1 := by
    rintro ⟨j, hj, hb⟩
    by_cases h8 : j < 8
    · interval_cases j <;> exact absurd hb (by decide)
    · rw [bitAt_beyond (by simp; omega)] at hb; cases hb
  refine .string (.coded (bits := [false]) ⟨rfl, rfl, fun _ => rfl⟩ rfl (.cons (p := [false]) (.right (.leaf _)) .nil) ?_)
  refine .mk (len := [1]) (bytes := [0]) (show IntWord 8 .unsigned (signed .unsigned [1]) [1] from .short (by decide)) rfl (fun _ => hpad) ?_
  intro i hi
  simp only [List.length_cons, List.length_nil] at hi ⊢
  interval_cases i
  simp [bitAt, hpad]

set_option maxRecDepth 4000 in
/-- C94 is violated by years: 2^32 - 1 is read as the year -1. -/
theorem C94_refuted_year (env : Env) (h : Option (Huffman Char)) : IntWord 4 .unsigned 4294967295 [243, 255, 255, 255, 255] ∧
    ∃ c', deser env h (Cursor.new [0x60, 243, 255, 255, 255, 255, 1, 1, 0, 0, 0, 0])
      = .ok (.timestamp ⟨-1, 1, 1, 0, 0, 0, 0⟩, c') :=
  ⟨.long (bs := [255, 255, 255, 255]) rfl (by decide) (by decide), _, rfl⟩

/-- C94 is violated by the length of an array: what is written for the empty array is read, with whatever value follows,
as an array of one element. -/
theorem C94_refuted_length (env : Env) (h : Option (Huffman Char)) : ser env h (.array []) = .ok [0xB0] ∧
    ∃ c', deser env h (Cursor.new ([0xB0] ++ [0x90])) = .ok (.array [.null], c') := ⟨rfl, _, rfl⟩

end Souris
