import Verif.Lemmas.Wire

/-! # Lemmas about the byte format of trees and of binary data -/

namespace Souris

namespace Wire

/-! ## Codes -/

variable {T : Type} [DecidableEq T]

omit [DecidableEq T] in
theorem path_iff {n : Node T} {x : T} {p : List Bool} : Path n x p ↔ Huffman.sub n p = some (.leaf x) := by
  constructor
  · intro h
    induction h with
    | leaf x => rfl
    | left _ ih => simpa [Huffman.sub] using ih
    | right _ ih => simpa [Huffman.sub] using ih
  · intro h
    induction n generalizing p with
    | leaf t =>
      cases p with
      | nil => simp only [Huffman.sub, Option.some.injEq, Node.leaf.injEq] at h; rw [h]; exact .leaf x
      | cons b p => simp [Huffman.sub] at h
    | branch l r ihl ihr =>
      cases p with
      | nil => simp [Huffman.sub] at h
      | cons b p =>
        cases b with
        | true => exact .left (ihl (by simpa [Huffman.sub] using h))
        | false => exact .right (ihr (by simpa [Huffman.sub] using h))

omit [DecidableEq T] in
theorem coded_of_forall2 {root : Node T} {ys : List T} {cs : List (List Bool)}
    (h : List.Forall₂ (fun y c => Huffman.sub root c = some (.leaf y)) ys cs) : Coded root ys cs.flatten := by
  induction h with
  | nil => exact .nil
  | cons h1 _ ih => exact .cons (path_iff.mpr h1) ih

theorem decode_coded {root : Node T} {bits : List Bool} {s : List T} :
    Huffman.decodeAux root root [] bits = .ok s ↔
      Coded root s bits ∧ ((∃ l r, root = .branch l r) ∨ s = []) := by
  constructor
  · intro h
    cases root with
    | leaf t =>
      cases bits with
      | nil =>
        simp only [Huffman.decodeAux, ne_eq, not_true_eq_false, if_false, Out.ok.injEq] at h
        rw [← h]; exact ⟨.nil, .inr rfl⟩
      | cons b bits => simp [Huffman.decodeAux] at h
    | branch l r =>
      obtain ⟨ys, cs, h1, h2, h3⟩ := (Huffman.decodeAux_inv (.branch l r) ⟨l, r, rfl⟩ bits (.branch l r) [] []
        ⟨l, r, rfl⟩ rfl).2 s h
      rw [List.nil_append] at h1 h2
      rw [h1, ← h2]
      exact ⟨coded_of_forall2 h3, .inl ⟨l, r, rfl⟩⟩
  · rintro ⟨hc, hr⟩
    rcases hr with hr | rfl
    · suffices h : ∀ acc, Huffman.decodeAux root root acc bits = .ok (acc ++ s) by simpa using h []
      induction hc with
      | nil => intro acc; simp [Huffman.decodeAux]
      | cons hp _ ih =>
        intro acc
        rw [Huffman.decodeAux_walk root root hr _ _ _ acc (path_iff.mp hp), ih]
        simp
    · cases hc
      simp [Huffman.decodeAux]

theorem coded_codes {root : Node T} {xs : List T} {cs : List (List Bool)}
    (h : xs.map (Huffman.codeOf root) = cs.map some) : Coded root xs cs.flatten := by
  induction xs generalizing cs with
  | nil =>
    cases cs with
    | nil => exact .nil
    | cons _ _ => simp at h
  | cons x xs ih =>
    cases cs with
    | nil => simp at h
    | cons c cs =>
      simp only [List.map_cons, List.cons.injEq] at h
      exact .cons (path_iff.mpr (Huffman.sub_codeOf h.1)) (ih h.2)

/-- What is encoded, as ways. -/
theorem encode_coded {root : Node T} {xs : List T} {b : Bits} (h : (Huffman.ofRoot root).encode xs = .ok b) :
    ∃ l, b = Bits.ofList l ∧ Coded root xs l := by
  by_cases hx : ∀ x ∈ xs, x ∈ root.leaves
  · obtain ⟨cs, hcs⟩ := Huffman.exists_codes root xs hx
    rw [Huffman.encode_ok root hcs, Out.ok.injEq] at h
    exact ⟨cs.flatten, h.symm, coded_codes hcs⟩
  · push Not at hx
    rw [Huffman.encode_err root hx] at h
    cases h

/-! ## Trees -/

theorem byteTree_iff {n : Node UInt8} {w : List UInt8} : ByteTree n w ↔ w = n.ser8 := by
  constructor
  · intro h
    induction h with
    | leaf => rfl
    | branch _ _ h1 h2 => rw [h1, h2]; rfl
  · rintro rfl
    induction n with
    | leaf b => exact .leaf b
    | branch l r h1 h2 => exact .branch h1 h2

theorem tree8_eats_aux (fuel : Nat) : Eats (Node.deser8Aux fuel) ByteTree := by
  induction fuel with
  | zero => intro pre rest x c' _ e; simp [Node.deser8Aux, Parser.crash] at e
  | succ fuel ih =>
    unfold Node.deser8Aux
    refine Eats.bind (Eats.next _) fun b w hw => ?_
    subst hw
    refine Eats.ite (fun h => ?_) fun _ => Eats.ite (fun h => ?_) fun _ => Eats.fail _
    · subst h
      refine Eats.bind ih fun l wl hl => Eats.bind ih fun r wr hr => Eats.ret ?_
      show ByteTree _ (0 :: (wl ++ (wr ++ [])))
      rw [List.append_nil]
      exact .branch hl hr
    · subst h
      refine Eats.bind (Eats.next _) fun b w hw => Eats.ret ?_
      subst hw
      exact .leaf b

theorem tree8_eats : Eats Node.deser8 ByteTree := fun pre rest x c' hl e => tree8_eats_aux _ pre rest x c' hl e

theorem charTail_eats : Eats Node.charTail CharTree := by
  unfold Node.charTail
  refine Eats.bind ((int_eats _).mapErr _) fun i b h => ?_
  obtain ⟨h1, h2, h3⟩ := h
  refine Eats.bind ((Eats.lift (G := fun n w => w = [] ∧ NatWord 4 n b) fun n hn =>
    ⟨rfl, nat_of (by omega) (by omega) h1 h2 h3 hn⟩).mapErr _) fun n w hw => ?_
  obtain ⟨rfl, hn⟩ := hw
  refine Eats.lift fun x hx => ?_
  unfold Node.charLeaf at hx
  by_cases h0 : n = 0
  · rw [if_pos h0] at hx; cases hx
  · rw [if_neg h0] at hx
    split at hx
    · rename_i hv
      simp only [Out.ok.injEq] at hx
      rw [← hx]
      simp only [List.append_nil]
      refine .leaf ?_
      have : (Char.ofNatAux (n - 1) hv).toNat + 1 = n := by
        show (n - 1) + 1 = n
        omega
      rw [this]
      exact hn
    · cases hx

theorem treeChar_eats_aux (fuel : Nat) : Eats (Node.deserCharAux fuel) CharTree := by
  induction fuel with
  | zero => intro pre rest x c' _ e; simp [Node.deserCharAux, Parser.crash] at e
  | succ fuel ih =>
    intro pre rest x c' hl e
    rw [Node.deserCharAux_succ] at e
    cases rest with
    | nil => simp [Cursor.At] at e
    | cons b rest =>
      have : (Cursor.At pre (b :: rest)).backing[(Cursor.At pre (b :: rest)).pos]? = some b := by simp [Cursor.At]
      rw [this] at e
      simp only at e
      by_cases h0 : b = 0
      · rw [if_pos h0] at e
        subst h0
        have h1 : Eats (do
            let left ← Node.deserCharAux fuel
            let right ← Node.deserCharAux fuel
            return .branch left right) fun n w => CharTree n (0 :: w) :=
          Eats.bind ih fun l wl hl => Eats.bind ih fun r wr hr => Eats.ret (by
            rw [List.append_nil]; exact .branch hl hr)
        have h2 : (⟨(Cursor.At pre (0 :: rest)).backing, (Cursor.At pre (0 :: rest)).pos + 1⟩ : Cursor UInt8)
            = Cursor.At (pre ++ [0]) rest := by simp [Cursor.At]
        rw [h2] at e
        obtain ⟨w, tail, rfl, rfl, hg⟩ := h1 (pre ++ [0]) rest x c' (by simp at hl; omega) e
        exact ⟨0 :: w, tail, rfl, by simp, hg⟩
      · rw [if_neg h0] at e
        exact charTail_eats pre (b :: rest) x c' hl e

theorem treeChar_eats : Eats Node.deserChar CharTree := fun pre rest x c' hl e =>
  treeChar_eats_aux _ pre rest x c' hl e

theorem charTail_reads {c : Char} {w : List UInt8} (h : NatWord 4 (c.toNat + 1) w) :
    Reads Node.charTail w (.leaf c) := by
  obtain ⟨i, hr, h1, h2, h3, h4⟩ := int_reads (w := 4) (by omega) (by omega) h
  have := h3.toUnsigned_eq (k := 4) (by omega)
  rw [if_neg (by omega), if_neg (by rw [h1]; simp), h2] at this
  unfold Node.charTail
  refine Reads.bind' (b2 := []) (by simp) (hr.mapErr _) ?_
  rw [this]
  refine Reads.bind' (b1 := []) (b2 := []) (by simp) ((Reads.lift _).mapErr _) ?_
  have hc : Node.charLeaf ((c.toNat + 1 : Nat) : Int).toNat = .ok (.leaf c) := by
    unfold Node.charLeaf
    rw [Int.toNat_natCast, if_neg (by omega)]
    simp only [Nat.add_sub_cancel]
    rw [dif_pos (show c.toNat.isValidChar from c.valid)]
    rfl
  rw [hc]
  exact Reads.lift _

theorem treeChar_reads_aux {n : Node Char} {w : List UInt8} (h : CharTree n w) (fuel : Nat) (hf : w.length ≤ fuel) :
    Reads (Node.deserCharAux fuel) w n := by
  induction h generalizing fuel with
  | @leaf c w h =>
    obtain ⟨b, bs, rfl, hne⟩ : ∃ b bs, w = b :: bs ∧ b ≠ 0 := by
      generalize hn : ((c.toNat + 1 : Nat) : Int) = n at h
      unfold NatWord at h
      rw [hn] at h
      cases h with
      | @short b hb =>
        refine ⟨b, [], rfl, ?_⟩
        rintro rfl
        simp [signed, number] at hn
        omega
      | @long b bs hb h1 h2 =>
        refine ⟨b, bs, rfl, ?_⟩
        rintro rfl
        have : (0 : UInt8).toNat = 0 := rfl
        omega
    cases fuel with
    | zero => simp at hf
    | succ fuel =>
      intro pre tail hlen
      rw [Node.deserCharAux_succ]
      have : (Cursor.At pre (b :: bs ++ tail)).backing[(Cursor.At pre (b :: bs ++ tail)).pos]? = some b := by
        simp [Cursor.At]
      rw [this]
      simp only
      rw [if_neg hne]
      exact charTail_reads h pre tail hlen
  | @branch l r wl wr hl hr ihl ihr =>
    simp only [List.length_cons, List.length_append] at hf
    cases fuel with
    | zero => omega
    | succ fuel =>
      unfold Node.deserCharAux
      refine Reads.bind' (b1 := [0]) (b2 := wl ++ wr) rfl (Reads.next _ 0) ?_
      rw [if_pos rfl]
      refine Reads.bind (ihl fuel (by omega)) ?_
      exact Reads.bind' (b2 := []) (by simp) (ihr fuel (by omega)) (Reads.pure _)

theorem treeChar_reads {n : Node Char} {w : List UInt8} (h : CharTree n w) : Reads Node.deserChar w n := by
  intro pre tail hlen
  exact treeChar_reads_aux h _ (by simp [Cursor.At]; omega) pre tail hlen

theorem char_lt (c : Char) : c.toNat < 1114112 := by
  have := c.valid
  unfold UInt32.isValidChar Nat.isValidChar at this
  show c.val.toNat < _
  omega

theorem treeChar_written (n : Node Char) : CharTree n n.serChar := by
  induction n with
  | leaf c =>
    have := char_lt c
    exact .leaf (nat_written (by unfold Width; omega) (by unfold IsUnsigned; omega))
  | branch l r ihl ihr => exact .branch ihl ihr

/-! ## Binary data -/

theorem runs_unRuns (bytes : List UInt8) : Runs false (Binary.unRuns bytes) bytes := by
  induction bytes using Binary.unRuns.induct with
  | case1 count byte rest ih => unfold Binary.unRuns; exact .run (by simp) ih
  | case2 bytes h =>
    cases bytes with
    | nil => exact .nil
    | cons b bytes =>
      cases bytes with
      | nil => exact .rest rfl b
      | cons b' bytes => exact absurd rfl (h b b' bytes)

theorem unRuns_of {s : Bool} {data bytes : List UInt8} (h : Runs s data bytes) : Binary.unRuns bytes = data := by
  induction h with
  | nil => rfl
  | rest => rfl
  | run _ _ ih => rw [Binary.unRuns, ih]

theorem runs_written (l : List UInt8) : ∀ (c : UInt8) (n : Nat), n ≠ 0 → n ≤ 255 →
    Runs true (List.replicate n c ++ l) (Binary.rleRuns c n l) := by
  induction l with
  | nil =>
    intro c n h0 h1
    have hn : (UInt8.ofNat n).toNat = n := by rw [UInt8.toNat_ofNat', Nat.mod_eq_of_lt (by omega)]
    simp only [Binary.rleRuns, ne_eq, h0, not_false_eq_true, if_true]
    have := Runs.run (strict := true) (count := UInt8.ofNat n) (b := c)
      (fun _ h => h0 (by rw [← hn, h]; rfl)) Runs.nil
    rwa [hn] at this
  | cons b l ih =>
    intro c n h0 h1
    have hn : (UInt8.ofNat n).toNat = n := by rw [UInt8.toNat_ofNat', Nat.mod_eq_of_lt (by omega)]
    unfold Binary.rleRuns
    split
    · rename_i h
      obtain ⟨rfl, hlt⟩ := h
      have := ih c (n + 1) (by omega) (by omega)
      rwa [List.replicate_succ', List.append_assoc] at this
    · have := Runs.run (strict := true) (count := UInt8.ofNat n) (b := c)
        (fun _ h => h0 (by rw [← hn, h]; rfl)) (ih b 1 (by omega) (by omega))
      rwa [hn] at this

/-- What lz4_flex reads, as the relation between blocks and data. -/
def Reading (z : Lz) (n : Nat) (block data : List UInt8) : Prop := z.decompress block n = .ok data

theorem usize_eats : Eats Binary.usizeDeser fun n bs => NatWord 8 n bs := nat_eats (by omega) (by omega) BinarySerError.integer

theorem usize_reads {n : Nat} {bs : List UInt8} (h : NatWord 8 n bs) : Reads Binary.usizeDeser bs n :=
  nat_reads (by omega) (by omega) h BinarySerError.integer

theorem unHuffman_eats (B : Nat → List UInt8 → List UInt8 → Prop) : Eats Binary.unHuffman fun data w =>
    BinWord false B 3 data w := by
  unfold Binary.unHuffman
  refine Eats.bind (Eats.next _) fun first w hw => ?_
  subst hw
  refine Eats.ite (fun h => ?_) fun h0 => Eats.ite (fun h => ?_) fun h1 => ?_
  · subst h
    exact Eats.ret .treeNil
  · subst h
    refine Eats.bind ((int_eats _).mapErr _) fun i b h => ?_
    obtain ⟨h1, h2, h3⟩ := h
    refine Eats.bind ((Eats.lift (G := fun n w => w = [] ∧ NatWord 8 n b) fun n hn =>
      ⟨rfl, nat_of (by omega) (by omega) h1 h2 h3 hn⟩).mapErr _) fun n w hw => ?_
    obtain ⟨rfl, hn⟩ := hw
    refine Eats.bind (Eats.next _) fun x w hw => Eats.lift fun y hy => ?_
    subst hw
    unfold Binary.vecRepeat at hy
    split at hy
    · rename_i hle
      simp only [Out.ok.injEq] at hy
      rw [← hy]
      simp only [List.nil_append, List.append_nil]
      exact .treeOne hle hn x
    · cases hy
  · unfold Huffman.deser8
    have ht : Eats (do let root ← Node.deser8; return Huffman.ofRoot root) fun (h : Huffman UInt8) w =>
        ∃ root, h = Huffman.ofRoot root ∧ ByteTree root w :=
      Eats.bind tree8_eats fun root w hr => Eats.ret ⟨root, rfl, by rwa [List.append_nil]⟩
    refine Eats.bind ht fun h t hh => ?_
    obtain ⟨root, rfl, hr⟩ := hh
    refine Eats.bind (bits_eats.mapErr _) fun b w hb => Eats.lift fun s hs => ?_
    obtain ⟨l, e, hw⟩ := hb
    unfold Huffman.decode at hs
    rw [e] at hs
    have hs' : Huffman.decodeAux root root [] l = .ok s := hs
    obtain ⟨hc, hbr⟩ := decode_coded.mp hs'
    show BinWord _ _ _ _ (first :: (t ++ (w ++ [])))
    rw [List.append_nil]
    refine .tree ?_ (by simp) hr hw hc hbr
    have h0' : first.toNat ≠ 0 := fun h => h0 (UInt8.toNat_inj.mp h)
    have h1' : first.toNat ≠ 1 := fun h => h1 (UInt8.toNat_inj.mp h)
    omega

theorem binary_eats (z : Lz) (ct : BinaryCompression) : Eats (Binary.deser z ct) fun data w =>
    BinWord false (Reading z) ct.toByte.toNat data w := by
  cases ct with
  | nothing =>
    unfold Binary.deser
    refine Eats.bind usize_eats fun n len hn => (Eats.read _ _).mono fun data w hw => ?_
    obtain ⟨rfl, rfl, -⟩ := hw
    exact .plain hn
  | runLengthEncoding =>
    show Eats Binary.unRle _
    unfold Binary.unRle
    refine Eats.bind usize_eats fun n len hn => Eats.ite (fun h => Eats.ret ?_) fun h => ?_
    · subst h
      exact .runs (runs := []) hn .nil
    · refine Eats.bind (Eats.read _ _) fun bytes w hw => Eats.ret ?_
      obtain ⟨rfl, rfl, -⟩ := hw
      rw [List.append_nil]
      exact .runs hn (runs_unRuns _)
  | lempelZiv =>
    show Eats (Binary.unLz z) _
    unfold Binary.unLz
    refine Eats.bind usize_eats fun n len hn => Eats.ite (fun h => Eats.ret ?_) fun h => ?_
    · subst h
      rw [List.append_nil]
      exact .lzNil hn
    · refine Eats.bind usize_eats fun n' len' hn' => Eats.bind (Eats.read _ _) fun bytes w hw => ?_
      obtain ⟨rfl, rfl, -⟩ := hw
      refine (Eats.lift fun x hx => ?_).mapErr _
      rw [List.append_nil]
      exact .lz h hn hn' hx
  | huffman => exact (unHuffman_eats _).mapErr _

theorem binary_reads {z : Lz} {ct : Nat} {data w : List UInt8} (h : BinWord false (Reading z) ct data w)
    (hw : w.length ≤ 2 ^ 21) : ∃ c : BinaryCompression, c.toByte.toNat = ct ∧ Reads (Binary.deser z c) w data := by
  cases h with
  | plain hl => exact ⟨.nothing, rfl, Reads.bind (usize_reads hl) (Reads.read _ rfl)⟩
  | @runs data len runs hl hr =>
    refine ⟨.runLengthEncoding, rfl, ?_⟩
    show Reads Binary.unRle _ _
    unfold Binary.unRle
    refine Reads.bind (usize_reads hl) ?_
    cases runs with
    | nil => cases hr; exact Reads.pure _
    | cons r runs =>
      rw [if_neg (by simp), ← unRuns_of hr]
      exact Reads.bind' (b1 := r :: runs) (b2 := []) (by simp) (Reads.read _ rfl) (Reads.pure _)
  | lzNil hl =>
    refine ⟨.lempelZiv, rfl, ?_⟩
    show Reads (Binary.unLz z) _ _
    unfold Binary.unLz
    exact Reads.bind' (b2 := []) (by simp) (usize_reads hl) (Reads.pure _)
  | @lz n data len len' block hn hl hl' hb =>
    refine ⟨.lempelZiv, rfl, ?_⟩
    show Reads (Binary.unLz z) _ _
    unfold Binary.unLz
    refine Reads.bind (usize_reads hl) ?_
    rw [if_neg hn]
    refine Reads.bind (usize_reads hl') ?_
    refine Reads.bind' (b1 := block) (b2 := []) (by simp) (Reads.read _ rfl) ?_
    have : z.decompress block n = .ok data := hb
    rw [this]
    exact (Reads.lift data).mapErr _
  | treeNil =>
    refine ⟨.huffman, rfl, Reads.mapErr _ ?_⟩
    exact Reads.bind' (b1 := [0]) (b2 := []) rfl (Reads.next _ 0) (by rw [if_pos rfl]; exact Reads.pure _)
  | @treeOne n len hn hl x =>
    refine ⟨.huffman, rfl, Reads.mapErr _ ?_⟩
    unfold Binary.unHuffman
    refine Reads.bind' (b1 := [1]) rfl (Reads.next _ 1) ?_
    rw [if_neg (by decide), if_pos rfl]
    obtain ⟨i, hr, h1, h2, h3, h4⟩ := int_reads (w := 8) (by omega) (by omega) hl
    have := h3.toUnsigned_eq (k := 8) (by omega)
    rw [if_neg (by omega), if_neg (by rw [h1]; simp), h2] at this
    refine Reads.bind (hr.mapErr _) ?_
    rw [this]
    refine Reads.bind' (b1 := []) (b2 := [x]) (by simp) ((Reads.lift _).mapErr _) ?_
    refine Reads.bind' (b1 := [x]) (b2 := []) rfl (Reads.next _ x) ?_
    rw [Int.toNat_natCast, Binary.vecRepeat, if_pos hn]
    exact Reads.lift _
  | @tree first root data t wb bits hf hs ht hb hc hr =>
    refine ⟨.huffman, rfl, Reads.mapErr _ ?_⟩
    unfold Binary.unHuffman
    refine Reads.bind' (b1 := [first]) rfl (Reads.next _ first) ?_
    rw [if_neg (by rintro rfl; simp at hf), if_neg (by rintro rfl; simp at hf)]
    rw [byteTree_iff] at ht
    have hd : Reads Huffman.deser8 t (Huffman.ofRoot root) := by
      rw [ht]; exact Reads.bind' (b2 := []) (by simp) (Node.deser8_reads root) (Reads.pure _)
    refine Reads.bind hd ?_
    simp only [List.length_cons, List.length_append] at hw
    obtain ⟨b, hrb, hbo⟩ := bits_reads hb (by omega)
    refine Reads.bind' (b2 := []) (by simp) (hrb.mapErr _) ?_
    have : (Huffman.ofRoot root).decode b = .ok data := by
      unfold Huffman.decode
      rw [hbo]
      exact decode_coded.mpr ⟨hc, hr⟩
    rw [this]
    exact Reads.lift data

theorem usize_written {n : Nat} (h : n < 2 ^ 64) : NatWord 8 n (Binary.usizeSer n) :=
  nat_written (by unfold Width; omega) (by unfold IsUnsigned; exact h)

theorem binary_written {z : Lz} {ord : List (Node UInt8 × Nat) → List (Node UInt8 × Nat)} (hord : ∀ l, (ord l).Perm l)
    {B : Nat → List UInt8 → List UInt8 → Prop} {data : List UInt8} (hB : data ≠ [] → B data.length (z.compress data) data)
    (hd : data.length ≤ isizeMax) {ct : BinaryCompression} {w : List UInt8} (hw : w.length < 2 ^ 60)
    (e : Binary.ser z ord data = .ok (ct, w)) : BinWord true B ct.toByte.toNat data w := by
  have hd64 : data.length < 2 ^ 64 := by unfold isizeMax at hd; omega
  unfold Binary.ser at e
  rw [Out.bind_eq_ok] at e
  obtain ⟨huff, eh, e⟩ := e
  simp only [Out.pure_eq, Out.ok.injEq] at e
  have hm := (Binary.minByLen_spec (BinaryCompression.nothing, Binary.usizeSer data.length ++ data)
    [(.runLengthEncoding, Binary.rle data), (.lempelZiv, Binary.lz z data), (.huffman, huff)]).1
  rw [e] at hm
  simp only [List.mem_cons, Prod.mk.injEq, List.not_mem_nil, or_false] at hm
  rcases hm with ⟨rfl, rfl⟩ | ⟨rfl, rfl⟩ | ⟨rfl, rfl⟩ | ⟨rfl, rfl⟩
  · exact .plain (usize_written hd64)
  · cases data with
    | nil =>
      have := BinWord.runs (strict := true) (Block := B) (runs := []) (usize_written (n := 0) (by omega)) .nil
      show BinWord _ _ 1 _ _
      simpa [Binary.rle] using this
    | cons x xs =>
      unfold Binary.rle at hw ⊢
      simp only [List.length_append] at hw
      exact .runs (usize_written (by omega)) (runs_written xs x 1 (by omega) (by omega))
  · unfold Binary.lz at hw ⊢
    by_cases h0 : data = []
    · subst h0
      rw [if_pos rfl]
      exact .lzNil (usize_written (by simp))
    · rw [if_neg h0] at hw ⊢
      simp only [List.length_append] at hw
      exact .lz (by intro h; exact h0 (List.length_eq_zero_iff.mp h)) (usize_written hd64)
        (usize_written (by omega)) (hB h0)
  · by_cases ha : Binary.allEqual data = true
    · cases data with
      | nil =>
        simp only [Binary.huffman, Out.ok.injEq] at eh
        rw [← eh]; exact .treeNil
      | cons x xs =>
        simp only [Binary.huffman, if_pos ha, Out.ok.injEq] at eh
        rw [← eh, Binary.eq_replicate_of_allEqual ha]
        simp only [List.length_replicate]
        exact .treeOne (by simpa using hd) (usize_written (by simpa using hd64)) x
    · have h2 := ha
      rw [Binary.allEqual_iff, not_not] at h2
      obtain ⟨root, cs, hbr, -, -, hcs, -, e2⟩ := Binary.huffman_two hord data h2
      rw [e2, Out.ok.injEq] at eh
      rw [← eh] at hw ⊢
      have hp := Bits.pack_length cs.flatten
      simp only [List.length_cons, List.length_append] at hw
      refine .tree (by decide) (fun _ => rfl) (byteTree_iff.mpr rfl) (bits_written (by omega) ?_) (coded_codes hcs)
        (.inl hbr)
      unfold Bits.ser
      rw [Bits.properBytes_ofList]
      rfl

end Wire

end Souris
