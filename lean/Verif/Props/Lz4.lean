import Verif.Lemmas.Lz4
import Verif.Spec.Size

/-! # C89: LZ4 -/

namespace Souris

namespace Lz4

/-! ## Lengths -/

theorem decode_mono {stale : Nat → UInt8} {capacity more fuel : Nat} (h : capacity ≤ more)
    {bytes before out : List UInt8} (e : decode stale capacity fuel bytes before = some out) :
    decode stale more fuel bytes before = some out := by
  induction fuel generalizing bytes before with
  | zero => simp [decode] at e
  | succ fuel ih =>
    cases bytes with
    | nil => simp [decode] at e
    | cons tok rest =>
      rw [decode] at e ⊢
      split at e
      · cases e
      · split at e
        · cases e
        · rename_i hb
          rw [if_neg (by omega)]
          dsimp only at e ⊢
          split at e
          · exact e
          · cases e
          · split at e
            · cases e
            · split at e
              · cases e
              · rename_i hb2
                rw [if_neg (by omega)]
                exact ih e

theorem _root_.Souris.LengthField.ext_length {n nib : Nat} {ext : List UInt8} (h : LengthField n nib ext) :
    n ≤ nib + 255 * ext.length := by
  cases h with
  | short h => simp
  | long k r h =>
    have := r.toNat_lt
    simp only [List.length_append, List.length_replicate, List.length_singleton]
    omega

theorem block_bounded {strict ends : Bool} {before bytes out : List UInt8} (h : Lz4Block strict ends before bytes out) :
    out.length ≤ before.length + 255 * bytes.length := by
  induction h with
  | last h => simp only [List.length_cons, List.length_append]; omega
  | @copy before lits ext ext' rest mid out tok lo hi n h h' hc _ _ ih =>
    have hm : mid.length = (before ++ lits).length + (n + 4) := by
      rcases hc with hc | hc
      · exact hc.2.2.2.1
      · exact hc.2.2.2.2
    have := h'.ext_length
    have := tok.toNat_lt
    simp only [List.length_cons, List.length_append] at hm ⊢
    omega

theorem extended_length (n : Nat) : 255 * (extended n).length ≤ n + 240 := by
  unfold extended lenBytes
  split
  · simp only [List.length_append, List.length_replicate, List.length_singleton]; omega
  · simp

theorem lastLiterals_length (l : List UInt8) : 255 * (lastLiterals l).length ≤ 256 * l.length + 495 := by
  have := extended_length l.length
  simp only [lastLiterals, List.length_cons, List.length_append]
  omega

theorem sequences_length {z : Lz4} (hz : z.Earlier) (input : List UInt8) (fuel literalStart cur : Nat)
    (h0 : 0 < cur) (hl : literalStart ≤ cur) :
    255 * (sequences z input fuel literalStart cur).length ≤ 256 * (input.length - literalStart) + 495 := by
  have hlast : ∀ n, 255 * (lastLiterals (input.drop n)).length ≤ 256 * (input.length - n) + 495 := fun n => by
    have := lastLiterals_length (input.drop n)
    rwa [List.length_drop] at this
  induction fuel generalizing literalStart cur with
  | zero => exact hlast _
  | succ fuel ih =>
    rw [sequences]
    split
    · exact hlast _
    · rename_i found candidate e
      obtain ⟨c', k', hb⟩ : ∃ c' k', backtrack input literalStart found candidate = (c', k') := ⟨_, _, rfl⟩
      rw [hb]
      dsimp only
      obtain ⟨m1, m2, m3, m4⟩ := match_spec hz h0 hl e hb rfl
      set dup := same input (c' + 4) (k' + 4)
      have hrest := ih (c' + 4 + dup) (c' + 4 + dup) (by omega) (Nat.le_refl _)
      have e1 := extended_length ((input.drop literalStart).take (c' - literalStart)).length
      have e2 := extended_length dup
      have e3 : ((input.drop literalStart).take (c' - literalStart)).length = c' - literalStart := by
        rw [List.length_take, List.length_drop]; omega
      rw [e3] at e1
      have e4 : (extended (c' - literalStart)).length ≤ c' - literalStart := by
        unfold extended lenBytes
        split
        · simp only [List.length_append, List.length_replicate, List.length_singleton]; omega
        · simp
      have e5 : (extended dup).length ≤ dup := by
        unfold extended lenBytes
        split
        · simp only [List.length_append, List.length_replicate, List.length_singleton]; omega
        · simp
      simp only [sequence, List.length_append, List.length_cons, e3]
      omega

end Lz4

open Lz4

/-- C89: what is written for any data is an LZ4 block that says the data, offsets and the end of the block included,
whatever the hash table of the compressor finds. -/
theorem C89_written {z : Lz4} (hz : z.Earlier) (b : List UInt8) : Lz4Block true true [] (z.codec.compress b) b :=
  compress_block hz b

/-- C89: every LZ4 block is read as what it says, whoever wrote it, if the size given is large enough. -/
theorem C89_reads (z : Lz4) {ends : Bool} {bytes out : List UInt8} (h : Lz4Block true ends [] bytes out) {size : Nat}
    (hs : out.length ≤ size) (hm : size ≤ isizeMax) : z.codec.decompress bytes size = .ok out := by
  show decompress z bytes size = _
  unfold decompress
  rw [if_neg (by omega), decode_block z.stale h hs (Nat.le_refl _)]

/-- C89: reading data that was written gives the data. -/
theorem C89_lossless {z : Lz4} (hz : z.Earlier) : z.codec.Lossless :=
  fun b hb => C89_reads z (C89_written hz b) (Nat.le_refl _) hb

/-- C89, partial: nothing but an LZ4 block is read, as what it says, and never more than the size given. Missing:
offsets of 0 are not noticed, see `C89_refuted_offset`. -/
theorem C89_only_partial {z : Lz4} {bytes out : List UInt8} {size : Nat} (h : z.codec.decompress bytes size = .ok out) :
    Lz4Block false false [] bytes out ∧ out.length ≤ size := by
  change decompress z bytes size = _ at h
  unfold decompress at h
  split at h
  · cases h
  · split at h
    · cases h
    · rename_i o e
      simp only [Out.ok.injEq] at h
      subst h
      exact decode_some z.stale (by simp) e

/-- C89: a block does not say two things. -/
theorem C89_unambiguous {e1 e2 : Bool} {bytes a b : List UInt8} (h1 : Lz4Block true e1 [] bytes a)
    (h2 : Lz4Block true e2 [] bytes b) : a = b := by
  have x := decode_block (fun _ => 0) (capacity := max a.length b.length) h1 (by omega) (Nat.le_refl _)
  have y := decode_block (fun _ => 0) (capacity := max a.length b.length) h2 (by omega) (Nat.le_refl _)
  rw [x] at y
  exact Option.some.inj y

/-- C89 is violated: five bytes that are not an LZ4 block, because of an offset of 0, are read all the same, as
whatever four bytes are in memory. -/
theorem C89_refuted_offset : ∃ bytes : List UInt8, (∀ ends out, ¬ Lz4Block true ends [] bytes out) ∧
    ∀ z : Lz4, z.codec.decompress bytes 5 = .ok [7, z.stale 1, z.stale 2, z.stale 3, z.stale 4] := by
  have key : ∀ z : Lz4, z.codec.decompress [0x10, 7, 0, 0, 0] 5 = .ok [7, z.stale 1, z.stale 2, z.stale 3, z.stale 4] :=
    fun z => rfl
  refine ⟨[0x10, 7, 0, 0, 0], fun ends out h => ?_, key⟩
  have h1 := C89_reads ⟨fun _ _ => 0, 5, fun _ => 0⟩ h (Nat.le_max_left _ 5) (by
    have := Lz4.block_bounded h
    unfold isizeMax
    simp only [List.length_cons, List.length_nil] at this
    omega)
  have h2 := C89_reads ⟨fun _ _ => 0, 5, fun _ => 1⟩ h (Nat.le_max_left _ 5) (by
    have := Lz4.block_bounded h
    unfold isizeMax
    simp only [List.length_cons, List.length_nil] at this
    omega)
  have mono : ∀ z : Lz4, z.codec.decompress [0x10, 7, 0, 0, 0] (max out.length 5) =
      .ok [7, z.stale 1, z.stale 2, z.stale 3, z.stale 4] := by
    intro z
    show Lz4.decompress z _ _ = _
    unfold Lz4.decompress
    rw [if_neg (by
      have := Lz4.block_bounded h
      unfold isizeMax
      simp only [List.length_cons, List.length_nil] at this
      omega)]
    have e : Lz4.decode z.stale 5 [0x10, 7, 0, 0, 0].length [0x10, 7, 0, 0, 0] [] =
        some [7, z.stale 1, z.stale 2, z.stale 3, z.stale 4] := rfl
    have e2 := Lz4.decode_mono (Nat.le_max_right out.length 5) e
    change (match Lz4.decode z.stale (max out.length 5) [0x10, 7, 0, 0, 0].length [0x10, 7, 0, 0, 0] [] with
      | none => Out.err ()
      | some out => Out.ok out) = _
    rw [e2]
  rw [mono] at h1 h2
  rw [← h1] at h2
  simp at h2

/-- C89: a block that says more than the size given is an error. -/
theorem C89_too_small (z : Lz4) {ends : Bool} {bytes out : List UInt8} (h : Lz4Block true ends [] bytes out) {size : Nat}
    (hs : size < out.length) (hm : size ≤ isizeMax) : z.codec.decompress bytes size = .err () := by
  show decompress z bytes size = _
  unfold decompress
  rw [if_neg (by omega)]
  split
  · rfl
  · rename_i o e
    have e1 := decode_mono (Nat.le_of_lt hs) e
    rw [decode_block z.stale h (Nat.le_refl _) (Nat.le_refl _)] at e1
    have := (decode_some z.stale (by simp) e).2
    simp only [Option.some.injEq] at e1
    subst e1
    omega

/-- C89: the only panic is for a size that no vector can have, and that panic always happens, whatever the bytes. -/
theorem C89_panics (z : Lz4) : z.codec.Allocates ∧
    ∀ bytes size, isizeMax < size → z.codec.decompress bytes size = .panic .capacityOverflow := by
  refine ⟨fun b n r e => ?_, fun bytes size h => ?_⟩
  · change decompress z b n = _ at e
    unfold decompress at e
    split at e
    · rename_i h
      simp only [Out.panic.injEq] at e
      exact ⟨e.symm, h⟩
    · split at e <;> cases e
  · show decompress z bytes size = _
    unfold decompress
    rw [if_pos h]

/-- C89: what is read is at most 255 times as long as the bytes, whatever the bytes are. -/
theorem C89_bounded (z : Lz4) : z.codec.Bounded := fun b n out e => by
  have := block_bounded (C89_only_partial e).1
  simpa using this

/-- C89: data that cannot be compressed takes hardly more bytes than it has. -/
theorem C89_size {z : Lz4} (hz : z.Earlier) (b : List UInt8) :
    255 * (z.codec.compress b).length ≤ 256 * b.length + 495 := by
  show 255 * (compress z b).length ≤ _
  unfold compress
  split
  · exact lastLiterals_length b
  · exact sequences_length hz b b.length 0 1 (by omega) (by omega)

/-! ## Examples -/

/-- A compressor that finds the place three bytes earlier, and whose fresh memory is all 0xAA. -/
def threeBack : Lz4 := ⟨fun _ cur => cur - 3, 5, fun _ => 0xAA⟩

theorem threeBack_earlier : threeBack.Earlier := fun _ cur h => by show cur - 3 < cur; omega

/-- Fifteen times `abc`. -/
def abcs : List UInt8 := (List.replicate 15 [97, 98, 99]).flatten

-- three literals, then a copy of 36 bytes from three bytes earlier (so 32 more than the minimum, 15 + 17), then the rest
example : threeBack.codec.compress abcs = [0x3F, 97, 98, 99, 3, 0, 17, 0x60, 97, 98, 99, 97, 98, 99] := by decide +kernel
example : threeBack.codec.decompress (threeBack.codec.compress abcs) 45 = .ok abcs := by decide +kernel
-- written by something else: a copy that overlaps itself
example : threeBack.codec.decompress [0x10, 7, 1, 0, 0] 5 = .ok [7, 7, 7, 7, 7] := by decide +kernel
-- an offset of 0 copies what was in memory
example : threeBack.codec.decompress [0x10, 7, 0, 0, 0] 5 = .ok [7, 0xAA, 0xAA, 0xAA, 0xAA] := by decide +kernel
-- errors: nothing at all, an offset before the beginning, a length that is not finished, and too small a size
example : threeBack.codec.decompress [] 5 = .err () ∧ threeBack.codec.decompress [0x10, 7, 2, 0, 0] 5 = .err () ∧
    threeBack.codec.decompress [0xF0, 255] 5 = .err () ∧ threeBack.codec.decompress [0x10, 7, 1, 0, 0] 4 = .err () := by
  decide +kernel

end Souris
