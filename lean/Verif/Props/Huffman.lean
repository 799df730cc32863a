import Verif.Lemmas.HuffOpt
import Verif.Lemmas.Parser
import Verif.Spec.Huffman

/-! # Properties of Huffman coding: C17-C21 -/

namespace Souris

open Huffman

variable {T : Type} [DecidableEq T]

/-! ## C17: losslessness -/

/-- `new` succeeds on all non-empty data, and fails (without panicking) on empty data. -/
theorem C17_new_total {ord : List (Node T × Nat) → List (Node T × Nat)} (hord : HashOrder ord)
    (data : List T) :
    (data ≠ [] → ∃ h, Huffman.new ord data = .ok h) ∧
    (data = [] → Huffman.new ord data = .err .unableToCreateNodeTree) := by
  constructor
  · intro h
    obtain ⟨root, e, _⟩ := new_ok hord data h
    exact ⟨_, e⟩
  · rintro rfl; rfl

/-- C17, partial: lossless when the data contains two different symbols. Missing: data with a single
distinct symbol, for which it is false (`C17_refuted_one_symbol`). -/
theorem C17_lossless_partial {ord : List (Node T × Nat) → List (Node T × Nat)} (hord : HashOrder ord)
    (data : List T) (h2 : TwoSymbols data) :
    ∃ h, Huffman.new ord data = .ok h ∧ ∀ xs, (∀ x ∈ xs, x ∈ data) →
      ∃ bits, h.encode xs = .ok bits ∧ h.decode bits = .ok xs := by
  have hne : data ≠ [] := by
    obtain ⟨x, hx, _⟩ := h2
    exact List.ne_nil_of_mem hx
  obtain ⟨root, e, _, _, hmem, hbr⟩ := new_ok hord data hne
  refine ⟨_, e, fun xs hxs => ?_⟩
  obtain ⟨cs, hcs⟩ := exists_codes root xs (fun x hx => (hmem x).mpr (hxs x hx))
  refine ⟨_, encode_ok root hcs, ?_⟩
  rw [decode_ofList, decodeAux_codes root (hbr h2) xs cs hcs]
  simp

/-- C17, partial, `new_and_encode`: the returned pair decodes to the data. -/
theorem C17_new_and_encode_partial {ord : List (Node T × Nat) → List (Node T × Nat)}
    (hord : HashOrder ord) (data : List T) (h2 : TwoSymbols data) :
    ∃ h bits, Huffman.newAndEncode ord data = .ok (h, bits) ∧ h.decode bits = .ok data := by
  obtain ⟨h, e, hl⟩ := C17_lossless_partial hord data h2
  obtain ⟨bits, e1, e2⟩ := hl data (fun _ hx => hx)
  exact ⟨h, bits, by simp [Huffman.newAndEncode, e, e1], e2⟩

/-- The coder of a repeated symbol is a single leaf. -/
theorem new_replicate {ord : List (Node T × Nat) → List (Node T × Nat)} (hord : HashOrder ord)
    (x : T) (n : Nat) : Huffman.new ord (List.replicate (n + 1) x) = .ok (ofRoot (.leaf x)) := by
  obtain ⟨root, e, _, hnd, hmem, _⟩ := new_ok hord (List.replicate (n + 1) x) (by simp)
  have hleaf : root = .leaf x := by
    have hx : ∀ y ∈ root.leaves, y = x := by
      intro y hy
      exact List.eq_of_mem_replicate ((hmem y).mp hy)
    cases root with
    | leaf t => rw [hx t (by simp [Node.leaves])]
    | branch l r =>
      exfalso
      have hne : ∀ m : Node T, ∃ y, y ∈ m.leaves := by
        intro m
        induction m with
        | leaf t => exact ⟨t, by simp [Node.leaves]⟩
        | branch l r ihl _ =>
          obtain ⟨y, hy⟩ := ihl
          exact ⟨y, by simp [Node.leaves, hy]⟩
      obtain ⟨a, ha⟩ := hne l
      obtain ⟨b, hb⟩ := hne r
      simp only [Node.leaves, List.nodup_append] at hnd
      have h1 := hx a (by simp [Node.leaves, ha])
      have h2 := hx b (by simp [Node.leaves, hb])
      exact hnd.2.2 a ha b hb (h1.trans h2.symm)
  rw [e, hleaf]

/-- C17 is violated by all data made of one distinct symbol: every message encodes to no bits at all,
which decode to nothing. -/
theorem C17_refuted_one_symbol {ord : List (Node T × Nat) → List (Node T × Nat)} (hord : HashOrder ord)
    (x : T) (n k : Nat) :
    ∃ h, Huffman.new ord (List.replicate (n + 1) x) = .ok h ∧
      ∃ bits, h.encode (List.replicate k x) = .ok bits ∧ bits.toBools = .ok [] ∧
        h.decode bits = .ok [] := by
  have e := new_replicate hord x n
  refine ⟨_, e, Bits.ofList [], ?_, Bits.toBools_ofList [], ?_⟩
  · have hcs : (List.replicate k x).map (codeOf (.leaf x))
        = (List.replicate k ([] : List Bool)).map some := by
      simp [codeOf]
    rw [encode_ok _ hcs]
    simp
  · rw [decode_ofList]; simp [decodeAux]

example : HashOrder (fun l : List (Node Nat × Nat) => l.reverse) := fun l => l.reverse_perm
example : TwoSymbols [1, 1, 2, 3, 3, 3] := ⟨1, by decide, 2, by decide, by decide⟩
example : (do
    let h ← Huffman.new id [1, 1, 2, 3, 3, 3]
    let b ← h.encode [3, 2, 1, 1]
    h.decode b) = .ok [3, 2, 1, 1] := by decide

/-! ## C18: prefix-freeness and alphabet -/

/-- C18: the message encodes iff all its symbols occurred in the data, and otherwise the error is
`UnableToCode`; different symbols of the data get codes of which neither is a prefix of the other. -/
theorem C18_alphabet {ord : List (Node T × Nat) → List (Node T × Nat)} (hord : HashOrder ord)
    (data : List T) (hne : data ≠ []) :
    ∃ h, Huffman.new ord data = .ok h ∧
      (∀ xs, (∃ bits, h.encode xs = .ok bits) ↔ ∀ x ∈ xs, x ∈ data) ∧
      (∀ xs, (¬ ∀ x ∈ xs, x ∈ data) → h.encode xs = .err .unableToCode) ∧
      ∃ code : T → List Bool,
        (∀ x ∈ data, ∃ bits, h.encode [x] = .ok bits ∧ bits.toBools = .ok (code x)) ∧
        (∀ xs, (∀ x ∈ xs, x ∈ data) →
          ∃ bits, h.encode xs = .ok bits ∧ bits.toBools = .ok (xs.flatMap code)) ∧
        PrefixFreeOn data code := by
  obtain ⟨root, e, _, _, hmem, _⟩ := new_ok hord data hne
  have herr : ∀ xs, (¬ ∀ x ∈ xs, x ∈ data) → (ofRoot root).encode xs = .err .unableToCode := by
    intro xs hxs
    push Not at hxs
    obtain ⟨x, hx, hn⟩ := hxs
    exact encode_err root ⟨x, hx, fun h => hn ((hmem x).mp h)⟩
  have hsome : ∀ x ∈ data, codeOf root x = some ((codeOf root x).getD []) := by
    intro x hx
    obtain ⟨c, hc⟩ := Option.isSome_iff_exists.mp ((codeOf_isSome root x).mpr ((hmem x).mpr hx))
    simp [hc]
  have henc : ∀ xs, (∀ x ∈ xs, x ∈ data) → ∃ bits, (ofRoot root).encode xs = .ok bits ∧
      bits.toBools = .ok (xs.flatMap (fun x => (codeOf root x).getD [])) := by
    intro xs hxs
    have : xs.map (codeOf root) = (xs.map (fun x => (codeOf root x).getD [])).map some := by
      rw [List.map_map]
      exact List.map_congr_left (fun x hx => hsome x (hxs x hx))
    refine ⟨_, encode_ok root this, ?_⟩
    rw [Bits.toBools_ofList, List.flatMap_def]
  refine ⟨_, e, ?_, herr, fun x => (codeOf root x).getD [], ?_, henc, ?_⟩
  · intro xs
    constructor
    · rintro ⟨bits, hb⟩
      by_contra hc
      rw [herr xs hc] at hb
      cases hb
    · intro hxs
      obtain ⟨bits, hb, _⟩ := henc xs hxs
      exact ⟨bits, hb⟩
  · intro x hx
    obtain ⟨bits, h1, h2⟩ := henc [x] (by simpa using hx)
    exact ⟨bits, h1, by simpa using h2⟩
  · intro x hx y hy hxy
    rintro ⟨q, hq⟩
    dsimp only at hq
    have h1 := sub_codeOf (hsome x hx)
    have h2 := sub_codeOf (hsome y hy)
    rw [← hq, sub_append, h1] at h2
    cases q with
    | nil =>
      simp only [Option.bind_some, sub, Option.some.injEq, Node.leaf.injEq] at h2
      exact hxy h2
    | cons b q => simp [sub] at h2

/-! ## C19: optimality -/

/-- C19: whatever the hash order, the data encodes to at most as many bits as under any other
prefix-free code for its symbols. -/
theorem C19_optimal {ord : List (Node T × Nat) → List (Node T × Nat)} (hord : HashOrder ord)
    (data : List T) (hne : data ≠ []) (code : T → List Bool) (hcode : PrefixFreeOn data code) :
    ∃ h bits, Huffman.newAndEncode ord data = .ok (h, bits) ∧
      bits.len ≤ (data.map (fun x => (code x).length)).sum := by
  obtain ⟨root, e, ht, hnd, hmem, _⟩ := new_ok hord data hne
  obtain ⟨cs, hcs⟩ := exists_codes root data (fun x hx => (hmem x).mpr hx)
  refine ⟨ofRoot root, Bits.ofList cs.flatten, by simp [Huffman.newAndEncode, e, encode_ok root hcs], ?_⟩
  have hlen : (Bits.ofList cs.flatten).len = (data.map (codeLen root)).sum := by
    show cs.flatten.length = _
    rw [List.length_flatten]
    congr 1
    have : data.map (codeLen root) = (data.map (codeOf root)).map (fun c => (c.getD []).length) := by
      rw [List.map_map]; rfl
    rw [this, hcs, List.map_map]
    exact List.map_congr_left (fun _ _ => rfl)
  rw [hlen, ← freqTable_sum, ← freqTable_sum data (fun x => (code x).length)]
  have hroot : ((freqTable data).map (fun p => p.2 * codeLen root p.1)).sum
      = ncost (fun x => data.count x) root := by
    have hperm : root.leaves.Perm ((freqTable data).map Prod.fst) :=
      (List.perm_ext_iff_of_nodup hnd (freqTable_nodup data)).mpr
        (fun x => by rw [hmem, freqTable_keys])
    rw [ncost_eq _ _ hnd, (hperm.map _).sum_eq, List.map_map]
    congr 1
    apply List.map_congr_left
    intro p hp
    simp [freqTable_count data p hp]
  rw [hroot]
  unfold nodeTree at ht
  rw [if_neg (freqTable_ne_nil hne)] at ht
  have hp := hord ((freqTable data).map (fun p => (Node.leaf p.1, p.2)))
  have hkr : kraft ((freqTable data).map (fun p => (code p.1).length)) ≤ 1 := by
    have hpw : (((freqTable data).map Prod.fst).map code).Pairwise Incomp := by
      rw [List.pairwise_map]
      refine (freqTable_nodup data).imp_of_mem ?_
      intro a b ha hb hab
      rw [freqTable_keys] at ha hb
      exact ⟨hcode a ha b hb hab, hcode b hb a ha hab.symm⟩
    obtain ⟨N, hN⟩ := exists_bound (((freqTable data).map Prod.fst).map code)
    have := kraft_prefixFree N _ hN hpw
    rw [List.map_map, List.map_map] at this
    exact this
  have := build_opt (fun x => data.count x) _ _ root ht (by
      intro h0
      have := hp.length_eq
      rw [h0, List.length_map] at this
      exact freqTable_ne_nil hne (List.length_eq_zero_iff.mp this.symm)) (by
      intro q hq
      obtain ⟨p, hpm, rfl⟩ := List.mem_map.mp (hp.subset hq)
      simpa [wt] using freqTable_count data p hpm)
    ((freqTable data).map (fun p => ((Node.leaf p.1, p.2), (code p.1).length))) (by
      rw [List.map_map]; exact hp.symm) (by
      rw [List.map_map]; exact hkr)
  refine this.trans (Nat.le_of_eq ?_)
  rw [List.map_map]
  congr 1
  apply List.map_congr_left
  intro p _
  simp [ncost]

example : PrefixFreeOn [1, 1, 2, 3] (fun n : Nat => if n = 1 then [true] else [false, n = 2]) := by
  unfold PrefixFreeOn; decide

/-! ## C20: trees as bytes -/

/-- C20 for byte trees: exact consumption, same coder. -/
theorem C20_tree_roundtrip_u8 (root : Node UInt8) (pre tail : List UInt8)
    (hlen : (pre ++ (ofRoot root).ser8 ++ tail).length < 2 ^ 64) :
    ∃ h, Huffman.deser8 ⟨pre ++ (ofRoot root).ser8 ++ tail, pre.length⟩
        = .ok (h, ⟨pre ++ (ofRoot root).ser8 ++ tail, (pre ++ (ofRoot root).ser8).length⟩) ∧
      SameCoder h (ofRoot root) := by
  refine ⟨ofRoot root, ?_, fun _ => rfl, fun _ => rfl⟩
  have : Reads Huffman.deser8 root.ser8 (ofRoot root) :=
    Reads.bind' (b2 := []) (by simp) (Node.deser8_reads root) (Reads.pure _)
  have := this pre tail hlen
  simpa [Cursor.At, Huffman.ser8, ofRoot] using this

/-- C20 for character trees: exact consumption, same coder. -/
theorem C20_tree_roundtrip_char (root : Node Char) (pre tail : List UInt8)
    (hlen : (pre ++ (ofRoot root).serChar ++ tail).length < 2 ^ 64) :
    ∃ h, Huffman.deserChar ⟨pre ++ (ofRoot root).serChar ++ tail, pre.length⟩
        = .ok (h, ⟨pre ++ (ofRoot root).serChar ++ tail, (pre ++ (ofRoot root).serChar).length⟩) ∧
      SameCoder h (ofRoot root) := by
  refine ⟨ofRoot root, ?_, fun _ => rfl, fun _ => rfl⟩
  have : Reads Huffman.deserChar root.serChar (ofRoot root) :=
    Reads.bind' (b2 := []) (by simp) (Node.deserChar_reads root) (Reads.pure _)
  have := this pre tail hlen
  simpa [Cursor.At, Huffman.serChar, ofRoot] using this

/-- C20: every coder made by `new` or read from bytes is the coder of its tree, so the two theorems
above cover all of them. -/
theorem C20_coder_of_root {ord : List (Node T × Nat) → List (Node T × Nat)} {data : List T}
    {h : Huffman T} (e : Huffman.new ord data = .ok h) : h = ofRoot h.root := by
  unfold Huffman.new at e
  rw [Out.bind_eq_ok] at e
  obtain ⟨root, _, e⟩ := e
  simp only [Out.pure_eq, Out.ok.injEq] at e
  rw [← e]; rfl

example : (Node.branch (.leaf 'é') (.branch (.leaf 'a') (.leaf '😀'))).serChar
    = [0, 234, 0, 98, 242, 1, 246, 1] := by decide

/-! ## C21: decoding accepts exactly the encodings -/

/-- C21, partial: a coder whose tree has two or more leaves never panics when decoding; when its
symbols are moreover distinct, decoding gives `xs` exactly for the encoding of `xs`, and an error on
all other bits. This covers every coder made by `new` from data with two different symbols.
Missing: one-leaf trees, and deserialised trees with a repeated symbol (see the refutations). -/
theorem C21_decode_exact_partial (l r : Node T) (bs : List Bool) :
    let h := ofRoot (Node.branch l r)
    (∀ p, h.decode (Bits.ofBools bs) ≠ .panic p) ∧
    ((Node.branch l r).leaves.Nodup →
      (∀ xs, h.decode (Bits.ofBools bs) = .ok xs ↔ h.encode xs = .ok (Bits.ofBools bs)) ∧
      ((¬ ∃ xs, h.encode xs = .ok (Bits.ofBools bs)) →
        h.decode (Bits.ofBools bs) = .err .unableToCode)) := by
  simp only
  rw [Bits.ofBools_eq, decode_ofList]
  have hinv := decodeAux_inv (Node.branch l r) ⟨l, r, rfl⟩ bs (Node.branch l r) [] [] ⟨l, r, rfl⟩ rfl
  refine ⟨hinv.1, fun hnd => ?_⟩
  have hiff : ∀ xs, decodeAux (.branch l r) (.branch l r) [] bs = .ok xs ↔
      (ofRoot (Node.branch l r)).encode xs = .ok (Bits.ofList bs) := by
    intro xs
    constructor
    · intro h
      obtain ⟨ys, cs, h1, h2, h3⟩ := hinv.2 xs h
      simp only [List.nil_append] at h1 h2
      subst h1
      rw [encode_ok _ (forall2_codes hnd h3), h2]
    · intro h
      have hall : ∀ x ∈ xs, x ∈ (Node.branch l r).leaves := by
        by_contra hc
        push Not at hc
        rw [encode_err _ hc] at h
        cases h
      obtain ⟨cs, hcs⟩ := exists_codes _ xs hall
      rw [encode_ok _ hcs] at h
      simp only [Out.ok.injEq] at h
      have hb : cs.flatten = bs := by
        have := congrArg Bits.toBools h
        rw [Bits.toBools_ofList, Bits.toBools_ofList] at this
        simpa using this
      rw [← hb, decodeAux_codes _ ⟨l, r, rfl⟩ xs cs hcs]
      simp
  refine ⟨hiff, fun hno => ?_⟩
  have herr : ∀ e, decodeAux (.branch l r) (.branch l r) [] bs = .err e → e = .unableToCode := by
    have : ∀ (bs : List Bool) (cur : Node T) (acc : List T) e,
        decodeAux (.branch l r) cur acc bs = .err e → e = HuffmanSerError.unableToCode := by
      intro bs
      induction bs with
      | nil =>
        intro cur acc e h
        simp only [decodeAux] at h
        split_ifs at h
        simpa using h.symm
      | cons b bs ih =>
        intro cur acc e h
        cases cur with
        | leaf t => simp [decodeAux] at h
        | branch l' r' =>
          simp only [decodeAux] at h
          split at h
          · exact ih _ _ _ h
          · exact ih _ _ _ h
    exact this bs _ _
  cases hd : decodeAux (.branch l r) (.branch l r) [] bs with
  | ok xs => exact absurd ⟨xs, (hiff xs).mp hd⟩ hno
  | err e => rw [herr e hd]
  | panic p => exact absurd hd (hinv.1 p)

/-- C21, partial: the previous theorem applied to `new`. -/
theorem C21_new_partial {ord : List (Node T × Nat) → List (Node T × Nat)} (hord : HashOrder ord)
    (data : List T) (h2 : TwoSymbols data) :
    ∃ h, Huffman.new ord data = .ok h ∧ ∀ bs,
      (∀ p, h.decode (Bits.ofBools bs) ≠ .panic p) ∧
      (∀ xs, h.decode (Bits.ofBools bs) = .ok xs ↔ h.encode xs = .ok (Bits.ofBools bs)) := by
  have hne : data ≠ [] := by
    obtain ⟨x, hx, _⟩ := h2
    exact List.ne_nil_of_mem hx
  obtain ⟨root, e, _, hnd, _, hbr⟩ := new_ok hord data hne
  obtain ⟨l, r, rfl⟩ := hbr h2
  refine ⟨_, e, fun bs => ?_⟩
  have := C21_decode_exact_partial l r bs
  exact ⟨this.1, (this.2 hnd).1⟩

/-- C21 is violated by every one-leaf coder: decoding any non-empty bit sequence panics. -/
theorem C21_refuted_one_leaf (x : T) (b : Bool) (bs : List Bool) :
    (ofRoot (Node.leaf x)).decode (Bits.ofBools (b :: bs)) = .panic .unreachable := by
  rw [Bits.ofBools_eq, decode_ofList]; rfl

/-- C21 is violated by a tree with a repeated symbol, which `deser` accepts: bits that decode to `[5]`
but are not the encoding of `[5]`. -/
theorem C21_refuted_repeated :
    ∃ h c, Huffman.deser8 (Cursor.new [0, 1, 5, 1, 5]) = .ok (h, c) ∧
      h.decode (Bits.ofBools [true]) = .ok [5] ∧ h.encode [5] = .ok (Bits.ofBools [false]) := by
  refine ⟨ofRoot (.branch (.leaf 5) (.leaf 5)), ⟨[0, 1, 5, 1, 5], 5⟩, by rfl, by decide, by decide⟩

end Souris
