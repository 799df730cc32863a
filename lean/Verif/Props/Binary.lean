import Verif.Lemmas.Binary
import Verif.Props.Bits
import Verif.Props.Huffman

/-! # Properties of the binary codecs: C22-C25 -/

namespace Souris

open Binary

/-! ## C22: run-length encoding -/

/-- C22: `un_rle` inverts `rle` on all byte strings, before and after any other bytes. -/
theorem C22_rle_lossless (b : List UInt8) : Inverts unRle (rle b) b := (rle_reads b).inverts

/-- C22: `un_rle` never panics. -/
theorem C22_unrle_no_panic (r : Panic) : NoPanic r unRle := by
  unfold unRle usizeDeser
  refine NoPanic.bind (NoPanic.bind ((Integer.deser_noPanic _ _).mapErr _) (fun i =>
    (NoPanic.lift (Integer.toUnsigned_noPanic _ _ _)).mapErr _)) (fun len => ?_)
  exact NoPanic.ite (fun _ => NoPanic.pure _) (fun _ => NoPanic.bind (NoPanic.read _ _)
    (fun _ => NoPanic.pure _))

example : rle (List.replicate 258 7 ++ [1, 2, 2]) = [8, 255, 7, 3, 7, 1, 1, 2, 2] := by decide +kernel

/-! ## C23: LZ framing -/

/-- C23: `un_lz` inverts `lz` for every lossless block codec. -/
theorem C23_lz_lossless (z : Lz) (hz : z.Lossless) (b : List UInt8) (hb : b.length ≤ isizeMax) :
    Inverts (unLz z) (lz z b) b := (lz_reads z hz b hb).inverts

/-- A lossless block codec (one that stores its input). -/
def storingLz : Lz := ⟨id, fun b _ => .ok b⟩

example : storingLz.Lossless := fun _ _ => rfl
example : lz storingLz [9, 9, 9] = [3, 3, 9, 9, 9] := by decide

/-! ## C24: Huffman -/

theorem byteBools_prefixFree (data : List UInt8) : PrefixFreeOn data Bits.byteBools := by
  intro x _ y _ hxy h
  have := h.eq_of_length (by rw [Bits.byteBools_length, Bits.byteBools_length])
  apply hxy
  rw [← Bits.packByte_byteBools x, this, Bits.packByte_byteBools]

/-- The encoding of byte data is never longer than the data. -/
theorem C24_no_longer {ord : List (Node UInt8 × Nat) → List (Node UInt8 × Nat)} (hord : HashOrder ord)
    (data : List UInt8) (hne : data ≠ []) :
    ∃ h bits, Huffman.newAndEncode ord data = .ok (h, bits) ∧ bits.len ≤ 8 * data.length := by
  obtain ⟨h, bits, e, hle⟩ := C19_optimal hord data hne Bits.byteBools (byteBools_prefixFree data)
  refine ⟨h, bits, e, hle.trans (Nat.le_of_eq ?_)⟩
  have : data.map (fun x => (Bits.byteBools x).length) = List.replicate data.length 8 := by
    rw [List.eq_replicate_iff]
    simp only [List.length_map, true_and, List.mem_map]
    rintro n ⟨x, _, rfl⟩
    exact Bits.byteBools_length x
  rw [this, List.sum_replicate_nat, Nat.mul_comm]

/-- C24: compression itself succeeds on all byte strings. -/
theorem C24_huffman_total {ord : List (Node UInt8 × Nat) → List (Node UInt8 × Nat)}
    (hord : HashOrder ord) (b : List UInt8) : ∃ bytes, huffman ord b = .ok bytes := by
  by_cases h : allEqual b = true
  · cases b with
    | nil => exact ⟨_, rfl⟩
    | cons x xs => exact ⟨1 :: (usizeSer (x :: xs).length ++ [x]), by unfold huffman; simp only [if_pos h]⟩
  · rw [allEqual_iff, not_not] at h
    obtain ⟨root, cs, _, _, _, _, _, e⟩ := huffman_two hord b h
    exact ⟨_, e⟩

/-- C24, partial: lossless for all byte strings of at most 2 MiB and for all longer ones that repeat a
single byte. (`isize::MAX` bounds every Rust slice.) Missing: longer strings, for which it is false,
see `C24_refuted`. -/
theorem C24_huffman_lossless_partial {ord : List (Node UInt8 × Nat) → List (Node UInt8 × Nat)}
    (hord : HashOrder ord) (b : List UInt8) (hb : b.length ≤ isizeMax)
    (h : b.length ≤ 2 ^ 21 ∨ ¬ TwoSymbols b) :
    ∃ bytes, huffman ord b = .ok bytes ∧ Inverts unHuffman bytes b := by
  by_cases h2 : TwoSymbols b
  · have hlen : b.length ≤ 2 ^ 21 := h.resolve_right (fun hn => hn h2)
    obtain ⟨root, cs, hbr, _, _, hcs, hnae, e⟩ := huffman_two hord b h2
    have hne : b ≠ [] := by
      obtain ⟨x, hx, _⟩ := h2
      exact List.ne_nil_of_mem hx
    obtain ⟨h', bits, e', hle⟩ := C24_no_longer hord b hne
    rw [hnae] at e'
    simp only [Out.ok.injEq, Prod.mk.injEq] at e'
    rw [← e'.2] at hle
    have hle : cs.flatten.length ≤ 8 * b.length := hle
    exact ⟨_, e, (huffman_two_reads hbr hcs (by omega)).inverts⟩
  · have : allEqual b = true := (allEqual_iff b).mpr h2
    obtain ⟨bytes, e, hr⟩ := huffman_one_reads ord b this hb
    exact ⟨bytes, e, hr.inverts⟩

/-- C24 is violated by every byte string of `2^24 + 1` bytes with exactly two different bytes: decoding
the library's own output panics. -/
theorem C24_refuted {ord : List (Node UInt8 × Nat) → List (Node UInt8 × Nat)} (hord : HashOrder ord)
    (b : List UInt8) (hlen : b.length = 2 ^ 24 + 1) (h2 : TwoSymbols b)
    (x y : UInt8) (hxy : x ≠ y) (hb : ∀ z ∈ b, z = x ∨ z = y) :
    ∃ bytes, huffman ord b = .ok bytes ∧ unHuffman (Cursor.new bytes) = .panic .index ∧
      bytes.length ≤ 2 ^ 21 + 1024 := by
  obtain ⟨root, cs, ⟨l, r, rfl⟩, hnd, hmem, hcs, hnae, e⟩ := huffman_two hord b h2
  have hne : b ≠ [] := by
    obtain ⟨x, hx, _⟩ := h2
    exact List.ne_nil_of_mem hx
  have hpf : PrefixFreeOn b (fun z => [decide (z = x)]) := by
    intro u hu v hv huv hp
    have := hp.eq_of_length (by simp)
    simp only [List.cons.injEq, and_true, decide_eq_decide] at this
    rcases hb u hu with h1 | h1 <;> rcases hb v hv with h3 | h3
    · exact huv (h1.trans h3.symm)
    · exact hxy ((this.mp h1).symm.trans h3)
    · exact hxy ((this.mpr h3).symm.trans h1)
    · exact huv (h1.trans h3.symm)
  obtain ⟨h', bits, e', hle⟩ := C19_optimal hord b hne _ hpf
  rw [hnae] at e'
  simp only [Out.ok.injEq, Prod.mk.injEq] at e'
  rw [← e'.2] at hle
  have hle : cs.flatten.length ≤ b.length := by
    have h1 : (b.map (fun z => ([decide (z = x)] : List Bool).length)).sum = b.length := by
      simp
    rw [← h1]
    exact hle
  have hge := codes_length_ge hcs
  have hn : cs.flatten.length = 2 ^ 24 + 1 := by omega
  obtain ⟨front, last, hser, hfl, hreads, hpanic⟩ := Bits.long_bits cs.flatten hn
  have hpk : usizeSer cs.flatten.length ++ Bits.pack cs.flatten
      = (Integer.ofUnsigned 8 cs.flatten.length).ser.2 ++ front ++ [last] := by
    rw [Bits.ofBools_eq] at hser
    simp only [Bits.ser, Bits.properBytes_ofList, Out.ok.injEq] at hser
    rw [← hser]; rfl
  have hisz : (Integer.ofUnsigned 8 cs.flatten.length).ser.2.length ≤ 9 := by
    have hw : Width 8 := by unfold Width; decide
    have hu : IsUnsigned 8 cs.flatten.length := by unfold IsUnsigned; rw [hn]; decide
    exact (C07_size_le hw).1 _ hu
  have htree : (Node.branch l r).ser8.length ≤ 5 := by
    have h1 := ser8_length (Node.branch l r)
    have h2 : (Node.branch l r).leaves.length ≤ [x, y].length :=
      (hnd.subperm (fun z hz => by simpa using hb z (hmem z hz))).length_le
    simp only [List.length_cons, List.length_nil] at h2
    omega
  refine ⟨_, e, ?_, ?_⟩
  · rw [hpk]
    have hpre : Reads (do
        let first ← Parser.next HuffmanSerError.notEnoughBytes
        let h ← Huffman.deser8
        let bits ← Bits.deser.mapErr HuffmanSerError.integer
        return (first, h, bits))
        (2 :: ((Node.branch l r).ser8 ++ ((Integer.ofUnsigned 8 cs.flatten.length).ser.2 ++ front)))
        (2, Huffman.ofRoot (Node.branch l r), ⟨front, cs.flatten.length⟩) := by
      refine Reads.bind' (b1 := [2]) rfl (Reads.next _ 2) ?_
      have ht : Reads Huffman.deser8 (Node.branch l r).ser8 (Huffman.ofRoot (Node.branch l r)) :=
        Reads.bind' (b2 := []) (by simp) (Node.deser8_reads _) (Reads.pure _)
      refine Reads.bind ht ?_
      exact Reads.bind' (b2 := []) (by simp) (hreads.mapErr _) (Reads.pure _)
    have hrun := hpre [] [last] (by
      simp only [List.length_cons, List.length_append, List.length_nil, hfl, usizeMod]; omega)
    have hc : Cursor.new (2 :: ((Node.branch l r).ser8 ++
        ((Integer.ofUnsigned 8 cs.flatten.length).ser.2 ++ front ++ [last])))
        = Cursor.At [] (2 :: ((Node.branch l r).ser8 ++
          ((Integer.ofUnsigned 8 cs.flatten.length).ser.2 ++ front)) ++ [last]) := by
      simp [Cursor.new, Cursor.At]
    rw [hc]
    generalize Cursor.At [] (2 :: ((Node.branch l r).ser8 ++
          ((Integer.ofUnsigned 8 cs.flatten.length).ser.2 ++ front)) ++ [last]) = c at hrun
    unfold unHuffman
    rw [Parser.bind_apply, Out.bind_eq_ok] at hrun
    obtain ⟨⟨a1, c1⟩, r1, hrun⟩ := hrun
    simp only at hrun
    rw [Parser.bind_apply, Out.bind_eq_ok] at hrun
    obtain ⟨⟨a2, c2⟩, r2, hrun⟩ := hrun
    simp only at hrun
    rw [Parser.bind_apply, Out.bind_eq_ok] at hrun
    obtain ⟨⟨a3, c3⟩, r3, hrun⟩ := hrun
    simp only [Parser.pure_apply, Out.ok.injEq, Prod.mk.injEq] at hrun
    obtain ⟨⟨rfl, rfl, rfl⟩, _⟩ := hrun
    rw [Parser.bind_apply, r1]
    simp only [Out.ok_bind]
    rw [if_neg (by decide), if_neg (by decide), Parser.bind_apply, r2]
    simp only [Out.ok_bind]
    rw [Parser.bind_apply, r3]
    simp only [Out.ok_bind, Huffman.decode, hpanic, Out.mapErr_panic, Out.panic_bind, Parser.lift_panic]
  · rw [hpk]
    simp only [List.length_cons, List.length_append, List.length_nil, hfl]
    omega

/-- Two bytes alternating. -/
def alternating : Nat → List UInt8
  | 0 => []
  | n + 1 => UInt8.ofNat (n % 2) :: alternating n

theorem alternating_length (n : Nat) : (alternating n).length = n := by
  induction n with
  | zero => rfl
  | succ n ih => simp [alternating, ih]

theorem alternating_mem (n : Nat) : ∀ z ∈ alternating n, z = 0 ∨ z = 1 := by
  induction n with
  | zero => simp [alternating]
  | succ n ih =>
    intro z hz
    rcases List.mem_cons.mp hz with rfl | hz
    · rcases Nat.mod_two_eq_zero_or_one n with h | h <;> simp [h]
    · exact ih z hz

theorem alternating_two (n : Nat) : TwoSymbols (alternating (n + 2)) := by
  have h : ∀ n, (0 : UInt8) ∈ alternating (n + 2) ∧ (1 : UInt8) ∈ alternating (n + 2) := by
    intro n
    rcases Nat.mod_two_eq_zero_or_one n with h | h
    · have : (n + 1) % 2 = 1 := by omega
      simp [alternating, h, this]
    · have : (n + 1) % 2 = 0 := by omega
      simp [alternating, h, this]
  exact ⟨0, (h n).1, 1, (h n).2, by decide⟩

example : ∃ b : List UInt8, b.length = 2 ^ 24 + 1 ∧ TwoSymbols b ∧ ∀ z ∈ b, z = 0 ∨ z = 1 :=
  ⟨alternating (2 ^ 24 + 1), alternating_length _, alternating_two (2 ^ 24 - 1), alternating_mem _⟩

/-! ## C25: `BinaryData` -/

/-- `ser` returns one of the four candidates, a shortest one. -/
theorem Binary.ser_spec (z : Lz) {ord : List (Node UInt8 × Nat) → List (Node UInt8 × Nat)}
    {b h : List UInt8} (e : huffman ord b = .ok h) :
    ∃ comp bytes, Binary.ser z ord b = .ok (comp, bytes) ∧
      ((comp, bytes) = (.nothing, usizeSer b.length ++ b) ∨ (comp, bytes) = (.runLengthEncoding, rle b) ∨
        (comp, bytes) = (.lempelZiv, lz z b) ∨ (comp, bytes) = (.huffman, h)) ∧
      bytes.length ≤ (usizeSer b.length).length + b.length ∧ bytes.length ≤ (rle b).length ∧
      bytes.length ≤ (lz z b).length ∧ bytes.length ≤ h.length := by
  have he : Binary.ser z ord b = .ok (minByLen (.nothing, usizeSer b.length ++ b)
      [(.runLengthEncoding, rle b), (.lempelZiv, lz z b), (.huffman, h)]) := by
    unfold Binary.ser; rw [e]; rfl
  obtain ⟨h1, h2⟩ := minByLen_spec (BinaryCompression.nothing, usizeSer b.length ++ b)
    [(.runLengthEncoding, rle b), (.lempelZiv, lz z b), (.huffman, h)]
  generalize minByLen (BinaryCompression.nothing, usizeSer b.length ++ b)
    [(.runLengthEncoding, rle b), (.lempelZiv, lz z b), (.huffman, h)] = m at he h1 h2
  obtain ⟨comp, bytes⟩ := m
  simp only [List.mem_cons, List.not_mem_nil, or_false, forall_eq_or_imp, forall_eq,
    List.length_append] at h1 h2
  exact ⟨comp, bytes, he, h1, h2⟩

/-- C25, size: `ser` succeeds on all byte strings, and the result is no longer than plain storage with
a length prefix (hence at most 9 bytes longer than the data), nor than any of the other candidates. -/
theorem C25_never_expands (z : Lz) {ord : List (Node UInt8 × Nat) → List (Node UInt8 × Nat)}
    (hord : HashOrder ord) (b : List UInt8) (hb : b.length < 2 ^ 64) :
    ∃ comp bytes, Binary.ser z ord b = .ok (comp, bytes) ∧
      bytes.length ≤ (Integer.ofUnsigned 8 b.length).ser.2.length + b.length ∧
      bytes.length ≤ b.length + 9 ∧
      bytes.length ≤ (rle b).length ∧ bytes.length ≤ (lz z b).length ∧
      ∀ h, huffman ord b = .ok h → bytes.length ≤ h.length := by
  obtain ⟨h, e⟩ := C24_huffman_total hord b
  obtain ⟨comp, bytes, es, _, h0, h1, h2, h3⟩ := Binary.ser_spec z e
  have hw : Width 8 := by unfold Width; decide
  have hu : IsUnsigned 8 b.length := hb
  have h9 : (usizeSer b.length).length ≤ 9 := (C07_size_le hw).1 _ hu
  refine ⟨comp, bytes, es, h0, by omega, h1, h2, ?_⟩
  intro h' e'
  rw [e] at e'
  simp only [Out.ok.injEq] at e'
  rw [← e']
  exact h3

/-- C25, partial: round trip for every byte string of at most 2 MiB (or repeating one byte), for every
lossless lz4 and hash order, whichever codec is chosen. Also proved for longer strings whenever the
chosen codec is not Huffman. Missing: long strings for which Huffman is chosen, see `C25_refuted`. -/
theorem C25_roundtrip_partial (z : Lz) (hz : z.Lossless)
    {ord : List (Node UInt8 × Nat) → List (Node UInt8 × Nat)} (hord : HashOrder ord)
    (b : List UInt8) (hb : b.length ≤ isizeMax) :
    ∃ comp bytes, Binary.ser z ord b = .ok (comp, bytes) ∧
      (b.length ≤ 2 ^ 21 ∨ ¬ TwoSymbols b ∨ comp ≠ .huffman → Inverts (Binary.deser z comp) bytes b) := by
  have hb' : b.length < 2 ^ 64 := by unfold isizeMax at hb; omega
  obtain ⟨h, e⟩ := C24_huffman_total hord b
  obtain ⟨comp, bytes, es, hs, _⟩ := Binary.ser_spec z e
  refine ⟨comp, bytes, es, ?_⟩
  simp only [Prod.mk.injEq] at hs
  intro hc
  rcases hs with ⟨rfl, rfl⟩ | ⟨rfl, rfl⟩ | ⟨rfl, rfl⟩ | ⟨rfl, rfl⟩
  · refine Reads.inverts ?_
    exact usizeDeser_bind hb' (Reads.read _ rfl)
  · exact C22_rle_lossless b
  · exact C23_lz_lossless z hz b hb
  · simp only [ne_eq, not_true_eq_false, or_false] at hc
    obtain ⟨h', e', hr⟩ := C24_huffman_lossless_partial hord b hb hc
    rw [e] at e'
    simp only [Out.ok.injEq] at e'
    subst e'
    intro pre tail hlen
    have := hr pre tail hlen
    simp only [Binary.deser, Parser.mapErr_apply, this, Out.mapErr_ok]

theorem rleRuns_alternating (n : Nat) (c : UInt8)
    (hne : ∀ m, n = m + 1 → c ≠ UInt8.ofNat (m % 2)) :
    (rleRuns c 1 (alternating n)).length = 2 * (n + 1) := by
  induction n generalizing c with
  | zero => simp [alternating, rleRuns]
  | succ n ih =>
    unfold alternating rleRuns
    rw [if_neg (fun h => hne n rfl h.1)]
    simp only [List.length_cons]
    rw [ih _]
    · omega
    · rintro m rfl
      rcases Nat.mod_two_eq_zero_or_one m with h | h
      · have : (m + 1) % 2 = 1 := by omega
        rw [this, h]; decide
      · have : (m + 1) % 2 = 0 := by omega
        rw [this, h]; decide

theorem alternating_facts (n : Nat) : ∃ A : List UInt8, A.length = n + 2 ∧ TwoSymbols A ∧
    (∀ w ∈ A, w = 0 ∨ w = 1) ∧ n + 2 ≤ (rle A).length := by
  refine ⟨alternating (n + 2), alternating_length _, alternating_two n, alternating_mem _, ?_⟩
  have hr := rleRuns_alternating (n + 1) (UInt8.ofNat ((n + 1) % 2)) (by
    rintro m hm
    obtain rfl : n = m := by omega
    rcases Nat.mod_two_eq_zero_or_one n with h | h
    · have : (n + 1) % 2 = 1 := by omega
      rw [this, h]; decide
    · have : (n + 1) % 2 = 0 := by omega
      rw [this, h]; decide)
  show _ ≤ (usizeSer _ ++ rleRuns _ 1 (alternating (n + 1))).length
  rw [List.length_append, hr]
  omega

/-- C25 is violated: whenever Huffman is chosen for a string of `2^24 + 1` bytes with exactly two
different bytes, deserialising panics; and there is a lossless block codec for which that happens. -/
theorem C25_refuted {ord : List (Node UInt8 × Nat) → List (Node UInt8 × Nat)} (hord : HashOrder ord) :
    (∀ z : Lz, ∀ b : List UInt8, b.length = 2 ^ 24 + 1 → TwoSymbols b →
      (∀ w ∈ b, w = 0 ∨ w = 1) → ∀ bytes, Binary.ser z ord b = .ok (.huffman, bytes) →
      Binary.deser z .huffman (Cursor.new bytes) = .panic .index) ∧
    ∃ (z : Lz) (b bytes : List UInt8), z.Lossless ∧ Binary.ser z ord b = .ok (.huffman, bytes) ∧
      Binary.deser z .huffman (Cursor.new bytes) = .panic .index := by
  have key : ∀ z : Lz, ∀ b : List UInt8, b.length = 2 ^ 24 + 1 → TwoSymbols b →
      (∀ w ∈ b, w = 0 ∨ w = 1) → ∀ bytes, Binary.ser z ord b = .ok (.huffman, bytes) →
      Binary.deser z .huffman (Cursor.new bytes) = .panic .index := by
    intro z b hl h2 hb bytes e
    obtain ⟨h, e1, hp, _⟩ := C24_refuted hord b hl h2 0 1 (by decide) hb
    obtain ⟨comp, bytes', es, hs, _⟩ := Binary.ser_spec z e1
    rw [es] at e
    simp only [Out.ok.injEq, Prod.mk.injEq] at e hs
    obtain ⟨rfl, rfl⟩ := e
    simp only [reduceCtorEq, false_and, true_and, false_or] at hs
    subst hs
    simp [Binary.deser, hp]
  obtain ⟨n, hn⟩ : ∃ n, n + 2 = (2 : Nat) ^ 24 + 1 := ⟨2 ^ 24 - 1, by norm_num⟩
  obtain ⟨A, hl, h2, hb, hrle⟩ := alternating_facts n
  rw [hn] at hl hrle
  clear hn
  obtain ⟨h, e1, hp, hsz⟩ := C24_refuted hord _ hl h2 0 1 (by decide) hb
  have hlz : A.length ≤ (lz storingLz A).length := by
    unfold lz
    split
    · rename_i h0; subst h0; simp
    · simp only [storingLz, id, List.length_append]; omega
  refine ⟨key, storingLz, A, ?_⟩
  obtain ⟨comp, bytes, es, hs, _, _, _, hle⟩ := Binary.ser_spec storingLz e1
  simp only [Prod.mk.injEq] at hs
  have hc : comp = .huffman := by
    rcases hs with ⟨_, rfl⟩ | ⟨_, rfl⟩ | ⟨_, rfl⟩ | ⟨h, _⟩
    · simp only [List.length_append, hl] at hle; omega
    · omega
    · omega
    · exact h
  subst hc
  exact ⟨bytes, fun _ _ => rfl, es, key _ _ hl h2 hb _ es⟩

example : Binary.ser storingLz id [5, 5, 5, 5, 5] = .ok (.runLengthEncoding, [2, 5, 5]) := by decide
example : HashOrder (fun l : List (Node UInt8 × Nat) => l) := fun l => .refl l

end Souris
