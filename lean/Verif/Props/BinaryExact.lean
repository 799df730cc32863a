import Verif.Props.Binary
import Verif.Props.BitsLength

/-! # For which data the Huffman codec is lossless: C24, C25 -/

namespace Souris

open Binary

namespace Parser

/-- `read` moves the cursor by what it reads. -/
theorem read_pos {ε : Type} {e : ε} {n : Nat} {c c' : Cursor UInt8} {bs : List UInt8}
    (h : Parser.read e n c = .ok (bs, c')) : c'.pos = c.pos + n := by
  unfold Parser.read Cursor.read at h
  simp only [checkedAdd] at h
  split at h
  · rename_i heq
    split at heq
    · cases heq
    · rename_i heq1
      split at heq
      · cases heq
      · simp only [Prod.mk.injEq, Option.some.injEq] at heq
        split at heq1
        · simp only [Option.some.injEq] at heq1
          simp only [Out.ok.injEq, Prod.mk.injEq] at h
          rw [← h.2, ← heq.2, ← heq1]
        · cases heq1
  · cases h

end Parser

/-- Like `huffman_two_reads`, for all lengths that are read in full. -/
theorem huffman_two_reads' {b : List UInt8} {root : Node UInt8} {cs : List (List Bool)}
    (hbr : ∃ l r, root = Node.branch l r) (hcs : b.map (Huffman.codeOf root) = cs.map some)
    (hlen : cs.flatten.length < 2 ^ 64)
    (hread : Bits.bytesToRead cs.flatten.length = (cs.flatten.length + 7) / 8) :
    Reads unHuffman (2 :: (root.ser8 ++ (usizeSer cs.flatten.length ++ Bits.pack cs.flatten))) b := by
  unfold unHuffman
  refine Reads.bind' (b1 := [2]) rfl (Reads.next _ 2) ?_
  rw [if_neg (by decide), if_neg (by decide)]
  have ht : Reads Huffman.deser8 root.ser8 (Huffman.ofRoot root) :=
    Reads.bind' (b2 := []) (by simp) (Node.deser8_reads root) (Reads.pure _)
  refine Reads.bind ht ?_
  have h2 : Reads Bits.deser (usizeSer cs.flatten.length ++ Bits.pack cs.flatten)
      (Bits.ofList cs.flatten) := by
    unfold Bits.deser
    refine Bits.usize_reads' (n := cs.flatten.length) hlen ?_
    rw [show Bits.pack cs.flatten = Bits.pack cs.flatten ++ [] by simp]
    refine Reads.bind (Reads.read _ ?_) ?_
    · rw [hread, Bits.pack_length]
    · exact Reads.pure _
  refine Reads.bind' (b2 := []) (by simp) (h2.mapErr _) ?_
  have : (Huffman.ofRoot root).decode (Bits.ofList cs.flatten) = .ok b := by
    rw [Huffman.decode_ofList]
    show Huffman.decodeAux root root [] cs.flatten = _
    rw [Huffman.decodeAux_codes root hbr b cs hcs]
    simp
  rw [this]
  exact Reads.lift b

/-- Where `unHuffman` stops behind the bytes of `huffman`. -/
theorem huffman_two_stops {root : Node UInt8} {l : List Bool} {x pre : List UInt8} {c' : Cursor UInt8}
    (hl : l.length < 2 ^ 64)
    (hlen : (pre ++ 2 :: (root.ser8 ++ (usizeSer l.length ++ Bits.pack l))).length < 2 ^ 64)
    (h : unHuffman (Cursor.At pre (2 :: (root.ser8 ++ (usizeSer l.length ++ Bits.pack l)))) = .ok (x, c')) :
    c'.pos = pre.length + 1 + root.ser8.length + (usizeSer l.length).length + Bits.bytesToRead l.length := by
  have hpre : Reads (do
      let first ← Parser.next HuffmanSerError.notEnoughBytes
      let h ← Huffman.deser8
      let i ← (Integer.deser .unsigned).mapErr HuffmanSerError.integer
      let n ← (Parser.lift (i.toUnsigned 8)).mapErr HuffmanSerError.integer
      return (first, h, n))
      (2 :: (root.ser8 ++ usizeSer l.length)) (2, Huffman.ofRoot root, l.length) := by
    refine Reads.bind' (b1 := [2]) rfl (Reads.next _ 2) ?_
    have ht : Reads Huffman.deser8 root.ser8 (Huffman.ofRoot root) :=
      Reads.bind' (b2 := []) (by simp) (Node.deser8_reads root) (Reads.pure _)
    refine Reads.bind ht ?_
    have := Bits.usize_reads hl HuffmanSerError.integer (k := fun n => (do
        return ((2 : UInt8), Huffman.ofRoot root, n) : Parser HuffmanSerError _)) (bs := [])
      (y := (2, Huffman.ofRoot root, l.length)) (Reads.pure _)
    rwa [List.append_nil] at this
  have hrun := hpre pre (Bits.pack l) (by simpa [usizeMod] using hlen)
  have hc : Cursor.At pre (2 :: (root.ser8 ++ (usizeSer l.length ++ Bits.pack l)))
      = Cursor.At pre (2 :: (root.ser8 ++ usizeSer l.length) ++ Bits.pack l) := by
    simp
  rw [hc] at h
  clear hc
  generalize Cursor.At pre (2 :: (root.ser8 ++ usizeSer l.length) ++ Bits.pack l) = c at hrun h
  rw [Parser.bind_apply, Out.bind_eq_ok] at hrun
  obtain ⟨⟨a1, c1⟩, r1, hrun⟩ := hrun
  simp only at hrun
  rw [Parser.bind_apply, Out.bind_eq_ok] at hrun
  obtain ⟨⟨a2, c2⟩, r2, hrun⟩ := hrun
  simp only at hrun
  rw [Parser.bind_apply, Out.bind_eq_ok] at hrun
  obtain ⟨⟨a3, c3⟩, r3, hrun⟩ := hrun
  simp only at hrun
  rw [Parser.bind_apply, Out.bind_eq_ok] at hrun
  obtain ⟨⟨a4, c4⟩, r4, hrun⟩ := hrun
  simp only [Parser.pure_apply, Out.ok.injEq, Prod.mk.injEq] at hrun
  obtain ⟨⟨rfl, rfl, rfl⟩, hc4⟩ := hrun
  unfold unHuffman at h
  rw [Parser.bind_apply, r1] at h
  simp only [Out.ok_bind] at h
  rw [if_neg (by decide), if_neg (by decide), Parser.bind_apply, r2] at h
  simp only [Out.ok_bind] at h
  rw [Parser.bind_apply, Out.bind_eq_ok] at h
  obtain ⟨⟨bits, c5⟩, r5, h⟩ := h
  simp only at h
  have hc5 : c' = c5 := by
    unfold Parser.lift at h
    cases hd : (Huffman.ofRoot root).decode bits with
    | ok v => simp [hd] at h; exact h.2.symm
    | err e => simp [hd] at h
    | panic p => simp [hd] at h
  subst hc5
  have r5' : Bits.deser c2 = .ok (bits, c') := by
    simp only [Parser.mapErr_apply] at r5
    cases hd : Bits.deser c2 with
    | ok v => rw [hd] at r5; simpa using r5
    | err e => rw [hd] at r5; simp at r5
    | panic p => rw [hd] at r5; simp at r5
  have r3' : Integer.deser .unsigned c2 = .ok (a3, c3) := by
    simp only [Parser.mapErr_apply] at r3
    cases hd : Integer.deser .unsigned c2 with
    | ok v => rw [hd] at r3; simpa using r3
    | err e => rw [hd] at r3; simp at r3
    | panic p => rw [hd] at r3; simp at r3
  have r4' : (Parser.lift (a3.toUnsigned 8) : Parser IntegerSerError Nat) c3 = .ok (l.length, c4) := by
    simp only [Parser.mapErr_apply] at r4
    cases hd : (Parser.lift (a3.toUnsigned 8) : Parser IntegerSerError Nat) c3 with
    | ok v => rw [hd] at r4; simpa using r4
    | err e => rw [hd] at r4; simp at r4
    | panic p => rw [hd] at r4; simp at r4
  unfold Bits.deser at r5'
  rw [Parser.bind_apply, r3'] at r5'
  simp only [Out.ok_bind] at r5'
  rw [Parser.bind_apply, r4'] at r5'
  simp only [Out.ok_bind] at r5'
  rw [Parser.bind_apply, Out.bind_eq_ok] at r5'
  obtain ⟨⟨bk, c6⟩, r6, r5'⟩ := r5'
  simp only [Parser.pure_apply, Out.ok.injEq, Prod.mk.injEq] at r5'
  rw [← r5'.2, Parser.read_pos r6, hc4]
  simp [Cursor.At]
  omega

/-- C24 for each string: data with two different bytes (up to an exbibyte) comes back from the Huffman
codec if and only if `m` bits fill as many bytes as the code does, where `m` is the `f32` nearest to
the number of bits of the code. Other data always comes back (`C24_huffman_lossless_partial`). -/
theorem C24_exact {ord : List (Node UInt8 × Nat) → List (Node UInt8 × Nat)} (hord : HashOrder ord)
    (b : List UInt8) (hb : b.length ≤ 2 ^ 60) (h2 : TwoSymbols b) :
    ∃ h bits bytes, Huffman.newAndEncode ord b = .ok (h, bits) ∧ huffman ord b = .ok bytes ∧
      ∀ m, NearestSingle bits.len m →
        (Inverts unHuffman bytes b ↔ (m + 7) / 8 = (bits.len + 7) / 8) := by
  obtain ⟨root, cs, hbr, hnd, hmem, hcs, hnae, e⟩ := huffman_two hord b h2
  have hne : b ≠ [] := by
    obtain ⟨x, hx, _⟩ := h2
    exact List.ne_nil_of_mem hx
  obtain ⟨h', bits, e', hle⟩ := C24_no_longer hord b hne
  rw [hnae] at e'
  simp only [Out.ok.injEq, Prod.mk.injEq] at e'
  rw [← e'.2] at hle
  have hle : cs.flatten.length ≤ 8 * b.length := hle
  have htree : root.ser8.length ≤ 3 * b.length := by
    have h1 := ser8_length root
    have h2 : root.leaves.length ≤ b.length := (hnd.subperm hmem).length_le
    omega
  have hw : Width 8 := by unfold Width; decide
  have hu : IsUnsigned 8 cs.flatten.length := by unfold IsUnsigned; omega
  have h9 : (usizeSer cs.flatten.length).length ≤ 9 := (C07_size_le hw).1 _ hu
  have hlen : (2 :: (root.ser8 ++ (usizeSer cs.flatten.length ++ Bits.pack cs.flatten))).length < 2 ^ 64 := by
    simp only [List.length_cons, List.length_append, Bits.pack_length]
    omega
  refine ⟨_, _, _, hnae, e, ?_⟩
  intro m hm
  have hm : NearestSingle cs.flatten.length m := hm
  show _ ↔ (m + 7) / 8 = (cs.flatten.length + 7) / 8
  have hbr' : Bits.bytesToRead cs.flatten.length = (m + 7) / 8 := by
    unfold Bits.bytesToRead
    rw [Bits.nearest_unique (Bits.roundF32_nearest _) hm]
  constructor
  · intro hinv
    have h0 := hinv [] [] (by rwa [List.append_nil, List.nil_append])
    rw [List.append_nil, List.nil_append] at h0
    have h1 := huffman_two_stops (pre := []) (by omega) hlen h0
    simp only [List.length_nil, List.length_cons, List.length_append, Bits.pack_length] at h1
    omega
  · intro hm'
    exact (huffman_two_reads' hbr hcs (by omega) (by omega)).inverts

/-- C25 for each string: what `ser` wrote comes back, unless it chose Huffman for data with two
different bytes whose code is of one of the lengths that `C24_exact` tells. -/
theorem C25_exact (z : Lz) (hz : z.Lossless)
    {ord : List (Node UInt8 × Nat) → List (Node UInt8 × Nat)} (hord : HashOrder ord)
    (b : List UInt8) (hb : b.length ≤ 2 ^ 60) :
    ∃ comp bytes, Binary.ser z ord b = .ok (comp, bytes) ∧
      (Inverts (Binary.deser z comp) bytes b ↔
        (comp = .huffman → TwoSymbols b → ∀ h bits m, Huffman.newAndEncode ord b = .ok (h, bits) →
          NearestSingle bits.len m → (m + 7) / 8 = (bits.len + 7) / 8)) := by
  obtain ⟨comp, bytes, es, hr⟩ := C25_roundtrip_partial z hz hord b (by unfold isizeMax; omega)
  refine ⟨comp, bytes, es, ?_⟩
  by_cases hc : comp = .huffman
  · by_cases h2 : TwoSymbols b
    · subst hc
      obtain ⟨h, bits, hbytes, e1, e2, hex⟩ := C24_exact hord b hb h2
      obtain ⟨comp', bytes', es', hs, _⟩ := Binary.ser_spec z e2
      rw [es] at es'
      simp only [Out.ok.injEq, Prod.mk.injEq] at es' hs
      obtain ⟨rfl, rfl⟩ := es'
      simp only [reduceCtorEq, false_and, true_and, false_or] at hs
      subst hs
      have hinv : Inverts (Binary.deser z .huffman) bytes b ↔ Inverts unHuffman bytes b := by
        refine forall_congr' fun pre => forall_congr' fun tail => forall_congr' fun hl => ?_
        simp only [Binary.deser, Parser.mapErr_apply]
        generalize unHuffman _ = o
        cases o <;> simp
      rw [hinv]
      constructor
      · intro hi _ _ h' bits' m e' hm
        rw [e1] at e'
        simp only [Out.ok.injEq, Prod.mk.injEq] at e'
        obtain ⟨rfl, rfl⟩ := e'
        exact (hex m hm).mp hi
      · intro hall
        have hm := Bits.roundF32_nearest bits.len
        exact (hex _ hm).mpr (hall rfl h2 h bits _ e1 hm)
    · exact ⟨fun _ _ h => absurd h h2, fun _ => hr (.inr (.inl h2))⟩
  · exact ⟨fun _ h => absurd h hc, fun _ => hr (.inr (.inr hc))⟩

/-- Data with two different bytes. -/
example : TwoSymbols (alternating 5) ∧ (alternating 5).length ≤ 2 ^ 60 :=
  ⟨⟨0, by decide, 1, by decide, by decide⟩, by decide⟩

end Souris
