import Verif.Spec.Binary
import Verif.Lemmas.Parser
import Verif.Lemmas.HuffOpt

/-! # Lemmas about the binary codecs -/

namespace Souris

theorem Reads.inverts {ε α : Type} {p : Parser ε α} {bs : List UInt8} {x : α} (h : Reads p bs x) :
    Inverts p bs x := by
  intro pre tail hlen
  have := h pre tail hlen
  simpa [Cursor.At] using this

theorem Reads.of_len {ε α : Type} {p : Parser ε α} {bs : List UInt8} {x : α}
    (h : bs.length < 2 ^ 64 → Reads p bs x) : Reads p bs x := by
  intro pre tail hlen
  refine h ?_ pre tail hlen
  simp only [List.length_append, usizeMod] at hlen
  omega

namespace Binary

theorem usizeDeser_bind {n : Nat} (h : n < 2 ^ 64) {β : Type} {k : Nat → Parser BinarySerError β}
    {bs : List UInt8} {y : β} (hk : Reads (k n) bs y) :
    Reads (usizeDeser >>= k) (usizeSer n ++ bs) y := by
  have h1 : Reads usizeDeser (usizeSer n) n := by
    have := Bits.usize_reads h BinarySerError.integer (k := fun m => Pure.pure m) (bs := []) (y := n)
      (Reads.pure _)
    intro pre tail hlen
    have := this pre tail (by simpa [usizeSer] using hlen)
    rw [Parser.bind_apply] at this
    unfold usizeDeser
    rw [Parser.bind_apply]
    simp only [List.append_nil] at this
    rw [← usizeSer] at this
    rw [← this]
    congr 1
    funext x
    rw [Parser.bind_apply]
    cases (Parser.mapErr BinarySerError.integer (Parser.lift (x.1.toUnsigned 8))) x.2 <;> rfl
  exact Reads.bind h1 hk

/-! ## RLE -/

theorem rleRuns_ne_nil (c : UInt8) (n : Nat) (h0 : n ≠ 0) (l : List UInt8) : rleRuns c n l ≠ [] := by
  induction l generalizing c n with
  | nil => simp [rleRuns, h0]
  | cons b l ih =>
    unfold rleRuns
    split
    · exact ih c (n + 1) (by omega)
    · simp

theorem unRuns_rleRuns (l : List UInt8) : ∀ (c : UInt8) (n : Nat), n ≠ 0 → n ≤ 255 →
    unRuns (rleRuns c n l) = List.replicate n c ++ l := by
  induction l with
  | nil =>
    intro c n h0 h1
    have : n % 256 = n := Nat.mod_eq_of_lt (by omega)
    simp [rleRuns, h0, unRuns, this]
  | cons b l ih =>
    intro c n h0 h1
    unfold rleRuns
    split
    · rename_i h
      rw [ih c (n + 1) (by omega) (by omega), List.replicate_succ', h.1]
      simp
    · have : n % 256 = n := Nat.mod_eq_of_lt (by omega)
      simp [unRuns, ih b 1 (by omega) (by omega), this]

theorem rle_reads (b : List UInt8) : Reads unRle (rle b) b := by
  cases b with
  | nil =>
    have := usizeDeser_bind (n := 0) (by decide) (k := fun len => if len = 0 then Pure.pure [] else do
      let bytes ← Parser.read .notEnoughBytes len
      return unRuns bytes) (bs := []) (y := []) (by rw [if_pos rfl]; exact Reads.pure _)
    simpa [rle, unRle] using this
  | cons x xs =>
    apply Reads.of_len
    intro hlen
    simp only [rle, List.length_append] at hlen
    have hne := rleRuns_ne_nil x 1 (by omega) xs
    have hpos := List.length_pos_iff.mpr hne
    unfold rle unRle
    refine usizeDeser_bind (by omega) ?_
    rw [if_neg (by omega)]
    refine Reads.bind' (b2 := []) (by simp) (Reads.read _ rfl) ?_
    rw [unRuns_rleRuns xs x 1 (by omega) (by omega)]
    exact Reads.pure _

/-! ## LZ -/

theorem lz_reads (z : Lz) (hz : z.Lossless) (b : List UInt8) (hb : b.length ≤ isizeMax) :
    Reads (unLz z) (lz z b) b := by
  unfold lz unLz
  split
  · rename_i h
    subst h
    have := usizeDeser_bind (n := 0) (by decide) (k := fun inputLen => if inputLen = 0 then Pure.pure [] else do
      let compressedLen ← usizeDeser
      let compressed ← Parser.read .notEnoughBytes compressedLen
      (Parser.lift (z.decompress compressed inputLen)).mapErr (fun _ => .lzFlex))
      (bs := []) (y := []) (by rw [if_pos rfl]; exact Reads.pure _)
    simpa using this
  · rename_i h
    have hpos := List.length_pos_iff.mpr h
    apply Reads.of_len
    intro hlen
    simp only [List.length_append] at hlen
    refine usizeDeser_bind (by unfold isizeMax at hb; omega) ?_
    rw [if_neg (by omega)]
    refine usizeDeser_bind (by omega) ?_
    refine Reads.bind' (b2 := []) (by simp) (Reads.read _ rfl) ?_
    rw [hz b hb]
    exact Reads.mapErr _ (Reads.lift b)

/-! ## Huffman -/

theorem allEqual_iff (b : List UInt8) : allEqual b = true ↔ ¬ ∃ x ∈ b, ∃ y ∈ b, x ≠ y := by
  cases b with
  | nil => simp [allEqual]
  | cons a l =>
    simp only [allEqual, List.all_eq_true, decide_eq_true_eq]
    constructor
    · rintro h ⟨x, hx, y, hy, hxy⟩
      have : ∀ z ∈ a :: l, z = a := by
        intro z hz
        rcases List.mem_cons.mp hz with h1 | h1
        · exact h1
        · exact h z h1
      exact hxy ((this x hx).trans (this y hy).symm)
    · intro h x hx
      by_contra hne
      exact h ⟨x, by simp [hx], a, by simp, hne⟩

theorem eq_replicate_of_allEqual {a : UInt8} {l : List UInt8} (h : allEqual (a :: l) = true) :
    a :: l = List.replicate (l.length + 1) a := by
  simp only [allEqual, List.all_eq_true, decide_eq_true_eq] at h
  rw [List.replicate_succ, ← List.eq_replicate_of_mem h]

/-- The structure of Huffman output for data with two different bytes. -/
theorem huffman_two {ord : List (Node UInt8 × Nat) → List (Node UInt8 × Nat)}
    (hord : ∀ l, (ord l).Perm l) (b : List UInt8) (h2 : ∃ x ∈ b, ∃ y ∈ b, x ≠ y) :
    ∃ root cs, (∃ l r, root = Node.branch l r) ∧ root.leaves.Nodup ∧ (∀ x ∈ root.leaves, x ∈ b) ∧
      b.map (Huffman.codeOf root) = (cs : List (List Bool)).map some ∧
      Huffman.newAndEncode ord b = .ok (Huffman.ofRoot root, Bits.ofList cs.flatten) ∧
      huffman ord b = .ok (2 :: (root.ser8 ++ (usizeSer cs.flatten.length ++ Bits.pack cs.flatten))) := by
  have hne : b ≠ [] := by
    obtain ⟨x, hx, _⟩ := h2
    exact List.ne_nil_of_mem hx
  obtain ⟨root, e, _, hnd, hmem, hbr⟩ := Huffman.new_ok hord b hne
  obtain ⟨cs, hcs⟩ := Huffman.exists_codes root b (fun x hx => (hmem x).mpr hx)
  have hnae : Huffman.newAndEncode ord b = .ok (Huffman.ofRoot root, Bits.ofList cs.flatten) := by
    simp [Huffman.newAndEncode, e, Huffman.encode_ok root hcs]
  refine ⟨root, cs, hbr h2, hnd, fun x => (hmem x).mp, hcs, hnae, ?_⟩
  have hall : ¬ allEqual b = true := by rw [allEqual_iff]; exact fun h => h h2
  cases b with
  | nil => exact absurd rfl hne
  | cons x xs =>
    unfold huffman
    simp only [if_neg hall, hnae]
    simp only [Bits.ser, Bits.properBytes_ofList]
    rfl

theorem ser8_length (n : Node UInt8) : n.ser8.length + 1 = 3 * n.leaves.length := by
  induction n with
  | leaf t => simp [Node.ser8, Node.leaves]
  | branch l r ihl ihr =>
    simp only [Node.ser8, Node.leaves, List.length_cons, List.length_append]
    omega

/-- With a branching tree every symbol costs at least one bit. -/
theorem codes_length_ge {b : List UInt8} {l r : Node UInt8} {cs : List (List Bool)}
    (hcs : b.map (Huffman.codeOf (.branch l r)) = cs.map some) : b.length ≤ cs.flatten.length := by
  induction b generalizing cs with
  | nil => simp
  | cons x xs ih =>
    cases cs with
    | nil => simp at hcs
    | cons c cs =>
      simp only [List.map_cons, List.cons.injEq] at hcs
      have hc : c ≠ [] := by
        rintro rfl
        have := Huffman.sub_codeOf hcs.1
        simp [Huffman.sub] at this
      have := List.length_pos_iff.mpr hc
      have := ih hcs.2
      simp only [List.length_cons, List.flatten_cons, List.length_append]
      omega

theorem huffman_two_reads {b : List UInt8} {root : Node UInt8} {cs : List (List Bool)}
    (hbr : ∃ l r, root = Node.branch l r) (hcs : b.map (Huffman.codeOf root) = cs.map some)
    (hlen : cs.flatten.length ≤ 2 ^ 24) :
    Reads unHuffman (2 :: (root.ser8 ++ (usizeSer cs.flatten.length ++ Bits.pack cs.flatten))) b := by
  unfold unHuffman
  refine Reads.bind' (b1 := [2]) rfl (Reads.next _ 2) ?_
  rw [if_neg (by decide), if_neg (by decide)]
  have ht : Reads Huffman.deser8 root.ser8 (Huffman.ofRoot root) :=
    Reads.bind' (b2 := []) (by simp) (Node.deser8_reads root) (Reads.pure _)
  refine Reads.bind ht ?_
  obtain ⟨bytes, h1, h2⟩ := Bits.reads_ofList hlen
  have hb : bytes = usizeSer cs.flatten.length ++ Bits.pack cs.flatten := by
    simp only [Bits.ser, Bits.properBytes_ofList, Out.ok.injEq] at h1
    rw [← h1]; rfl
  subst hb
  refine Reads.bind' (b2 := []) (by simp) (h2.mapErr _) ?_
  have : (Huffman.ofRoot root).decode (Bits.ofList cs.flatten) = .ok b := by
    rw [Huffman.decode_ofList]
    show Huffman.decodeAux root root [] cs.flatten = _
    rw [Huffman.decodeAux_codes root hbr b cs hcs]
    simp
  rw [this]
  exact Reads.lift b

theorem huffman_one_reads (ord : List (Node UInt8 × Nat) → List (Node UInt8 × Nat)) (b : List UInt8)
    (h : allEqual b = true) (hb : b.length ≤ isizeMax) :
    ∃ bytes, huffman ord b = .ok bytes ∧ Reads unHuffman bytes b := by
  cases b with
  | nil =>
    refine ⟨[0], rfl, ?_⟩
    unfold unHuffman
    refine Reads.bind' (b1 := [0]) (b2 := []) rfl (Reads.next _ 0) ?_
    rw [if_pos rfl]
    exact Reads.pure _
  | cons x xs =>
    refine ⟨1 :: (usizeSer (x :: xs).length ++ [x]), by unfold huffman; simp only [if_pos h], ?_⟩
    unfold unHuffman
    refine Reads.bind' (b1 := [1]) rfl (Reads.next _ 1) ?_
    rw [if_neg (by decide), if_pos rfl]
    have hlt : (x :: xs).length < 2 ^ 64 := by unfold isizeMax at hb; omega
    refine Bits.usize_reads hlt HuffmanSerError.integer ?_
    refine Reads.bind' (b1 := [x]) (b2 := []) rfl (Reads.next _ x) ?_
    unfold vecRepeat
    rw [if_pos hb, List.length_cons, ← eq_replicate_of_allEqual h]
    exact Reads.lift _

/-! ## The choice -/

theorem minByLen_spec {α : Type} (best : α × List UInt8) (l : List (α × List UInt8)) :
    minByLen best l ∈ best :: l ∧ ∀ x ∈ best :: l, (minByLen best l).2.length ≤ x.2.length := by
  induction l generalizing best with
  | nil => simp [minByLen]
  | cons x xs ih =>
    unfold minByLen
    by_cases h : x.2.length < best.2.length
    · rw [if_pos h]
      obtain ⟨h1, h2⟩ := ih x
      refine ⟨List.mem_cons_of_mem _ h1, fun y hy => ?_⟩
      rcases List.mem_cons.mp hy with rfl | hy
      · exact (h2 x (by simp)).trans (by omega)
      · exact h2 y hy
    · rw [if_neg h]
      obtain ⟨h1, h2⟩ := ih best
      refine ⟨?_, fun y hy => ?_⟩
      · rcases List.mem_cons.mp h1 with h1 | h1
        · rw [h1]; simp
        · simp [h1]
      · rcases List.mem_cons.mp hy with rfl | hy
        · exact h2 y (by simp)
        · rcases List.mem_cons.mp hy with rfl | hy
          · exact (h2 best (by simp)).trans (by omega)
          · exact h2 y (by simp [hy])

end Binary

end Souris
