import Verif.Props.Binary
import Verif.Props.Lz4
import Mathlib.Data.Fintype.BigOperators
import Mathlib.Data.Fintype.Sigma
import Mathlib.Algebra.Ring.GeomSum

/-!
# Data that LZ4 cannot compress well

Every LZ4 block that says a string of bytes 0 and 1 can be described by fewer bits than it has: a literal takes one
bit, the length of a copy takes one bit for each byte 255, and a copy without literals needs no length of literals. So
there are not enough short blocks for all these strings.
-/

namespace Souris

namespace Lz4

open Bits

/-! ## Strings of bits that describe data -/

/-- The lowest `w` bits of a number. -/
def natBits : Nat → Nat → List Bool
  | 0, _ => []
  | w + 1, n => decide (n % 2 = 1) :: natBits w (n / 2)

theorem natBits_length (w n : Nat) : (natBits w n).length = w := by
  induction w generalizing n with
  | zero => rfl
  | succ w ih => simp [natBits, ih]

theorem packByte_natBits (w n : Nat) (h : n < 2 ^ w) : packByte (natBits w n) = n := by
  induction w generalizing n with
  | zero => simp at h; subst h; rfl
  | succ w ih =>
    rw [natBits, packByte, ih _ (by rw [Nat.pow_succ] at h; omega)]
    rcases Nat.mod_two_eq_zero_or_one n with h1 | h1 <;> simp [h1] <;> omega

def getNat (w : Nat) (l : List Bool) : Nat × List Bool := (packByte (l.take w), l.drop w)

theorem getNat_natBits {w n : Nat} (h : n < 2 ^ w) (r : List Bool) : getNat w (natBits w n ++ r) = (n, r) := by
  unfold getNat
  rw [List.take_left' (natBits_length w n), List.drop_left' (natBits_length w n), packByte_natBits w n h]

def getUnary : List Bool → Nat × List Bool
  | true :: l => ((getUnary l).1 + 1, (getUnary l).2)
  | false :: l => (0, l)
  | [] => (0, [])

theorem getUnary_replicate (k : Nat) (r : List Bool) : getUnary (List.replicate k true ++ false :: r) = (k, r) := by
  induction k with
  | zero => rfl
  | succ k ih => rw [List.replicate_succ, List.cons_append, getUnary, ih]

/-- A length that begins with `nib`. -/
def getLen (nib : Nat) (l : List Bool) : Nat × List Bool :=
  if nib = 15 then
    let k := getUnary l
    let r := getNat 8 k.2
    (15 + 255 * k.1 + r.1, r.2)
  else (nib, l)

theorem getLen_field {n nib : Nat} {ext : List UInt8} (h : LengthField n nib ext) :
    ∃ bits : List Bool, (∀ r, getLen nib (bits ++ r) = (n, r)) ∧
      2 * bits.length ≤ 15 * ext.length + (if nib = 15 then 3 else 0) := by
  cases h with
  | short h => exact ⟨[], fun r => by unfold getLen; rw [if_neg (by omega)]; rfl, by simp⟩
  | long k x h =>
    refine ⟨List.replicate k true ++ false :: natBits 8 x.toNat, fun r => ?_, ?_⟩
    · unfold getLen
      rw [if_pos rfl, List.append_assoc, List.cons_append, getUnary_replicate]
      dsimp only
      rw [getNat_natBits x.toNat_lt]
    · simp only [List.length_append, List.length_replicate, List.length_cons, natBits_length, List.length_nil, if_true]
      omega

/-- A bit as a byte. -/
def bitByte (b : Bool) : UInt8 := if b then 1 else 0

/-- The data that some bits describe. -/
def unpack : Nat → List UInt8 → List Bool → List UInt8
  | _, before, true :: false :: rest => before ++ rest.map bitByte
  | fuel + 1, before, true :: true :: rest =>
    let nib := getNat 4 rest
    let nib' := getNat 4 nib.2
    let offset := getNat 16 nib'.2
    let len := getLen nib.1 offset.2
    let n := getLen nib'.1 (len.2.drop len.1)
    unpack fuel (duplicate (fun _ => 0) offset.1 (n.1 + 4) (before ++ (len.2.take len.1).map bitByte)) n.2
  | fuel + 1, before, false :: rest =>
    let nib' := getNat 4 rest
    let offset := getNat 16 nib'.2
    let n := getLen nib'.1 offset.2
    unpack fuel (duplicate (fun _ => 0) offset.1 (n.1 + 4) before) n.2
  | _, before, _ => before

theorem bits_of {l : List UInt8} (h : ∀ x ∈ l, x = 0 ∨ x = 1) : ∃ bs : List Bool, bs.map bitByte = l := by
  induction l with
  | nil => exact ⟨[], rfl⟩
  | cons x l ih =>
    obtain ⟨bs, rfl⟩ := ih fun y hy => h y (List.mem_cons_of_mem _ hy)
    rcases h x (List.mem_cons_self ..) with rfl | rfl
    · exact ⟨false :: bs, rfl⟩
    · exact ⟨true :: bs, rfl⟩

theorem Lz4Block.prefix' {strict ends : Bool} {before bytes out : List UInt8} (h : Lz4Block strict ends before bytes out) :
    before <+: out := by
  induction h with
  | last _ => exact List.prefix_append _ _
  | copy _ _ hc _ _ ih =>
    rcases hc with hc | hc
    · exact ((List.prefix_append _ _).trans hc.2.2.1).trans ih
    · exact ((List.prefix_append _ _).trans hc.2.2.2.1).trans ih

/-- A block that says bytes 0 and 1 is described by at most 15/16 as many bits as it has. -/
theorem block_bits {ends : Bool} {before bytes out : List UInt8} (h : Lz4Block true ends before bytes out)
    (ho : ∀ x ∈ out, x = 0 ∨ x = 1) :
    ∃ bits : List Bool, 2 * bits.length ≤ 15 * bytes.length ∧
      ∀ fuel, bytes.length ≤ fuel → unpack fuel before bits = out := by
  induction h with
  | @last before lits ext tok h =>
    obtain ⟨bs, rfl⟩ := bits_of fun x hx => ho x (List.mem_append_right _ hx)
    refine ⟨true :: false :: bs, ?_, fun fuel _ => by rw [unpack]⟩
    simp only [List.length_cons, List.length_append, List.length_map]
    omega
  | @copy before lits ext ext' rest mid out tok lo hi n h h' hc he hr ih =>
    obtain ⟨bits, hlen, hbits⟩ := ih ho
    have hrep : Repeats (before ++ lits) (lo.toNat + 256 * hi.toNat) (n + 4) mid := by
      rcases hc with hc | hc
      · exact hc
      · exact absurd hc.1 (by decide)
    have hdup := repeats_unique (duplicate_repeats (fun _ => 0) hrep.1 hrep.2.1 (n + 4)) hrep
    have htok := tok.toNat_lt
    have hlo := lo.toNat_lt
    have hhi := hi.toNat_lt
    obtain ⟨lbits, hl1, hl2⟩ := getLen_field h
    obtain ⟨nbits, hn1, hn2⟩ := getLen_field h'
    obtain ⟨bs, rfl⟩ := bits_of fun x hx => ho x
      ((Lz4Block.prefix' hr).subset (hrep.2.2.1.subset (List.mem_append_right before hx)))
    rw [List.length_map] at hl1 h
    by_cases hz : bs = []
    · subst hz
      refine ⟨false :: (natBits 4 (tok.toNat % 16) ++ (natBits 16 (lo.toNat + 256 * hi.toNat) ++ (nbits ++ bits))),
        ?_, fun fuel hf => ?_⟩
      · simp only [List.length_cons, List.length_append, natBits_length, List.length_map, List.length_nil] at *
        split at hn2 <;> omega
      · cases fuel with
        | zero => simp at hf
        | succ fuel =>
          rw [unpack, getNat_natBits (by omega)]
          dsimp only
          rw [getNat_natBits (by omega)]
          dsimp only
          rw [hn1]
          dsimp only
          simp only [List.map_nil, List.append_nil] at hdup
          rw [hdup]
          exact hbits fuel (by simp only [List.length_cons, List.length_append] at hf; omega)
    · have hpos := List.length_pos_iff.mpr hz
      refine ⟨true :: true :: (natBits 4 (tok.toNat / 16) ++ (natBits 4 (tok.toNat % 16) ++
        (natBits 16 (lo.toNat + 256 * hi.toNat) ++ (lbits ++ (bs ++ (nbits ++ bits)))))), ?_, fun fuel hf => ?_⟩
      · have hlit : tok.toNat / 16 = 15 → 15 ≤ bs.length := by
          intro e
          rw [e] at h
          generalize hg : bs.length = m at h
          cases h with
          | short h => omega
          | long k r h => omega
        simp only [List.length_cons, List.length_append, natBits_length, List.length_map] at *
        split at hn2 <;> split at hl2 <;> omega
      · cases fuel with
        | zero => simp at hf
        | succ fuel =>
          rw [unpack, getNat_natBits (by omega)]
          dsimp only
          rw [getNat_natBits (by omega)]
          dsimp only
          rw [getNat_natBits (by omega)]
          dsimp only
          rw [hl1]
          dsimp only
          rw [List.drop_left' rfl, List.take_left' rfl, hn1]
          dsimp only
          rw [hdup]
          exact hbits fuel (by simp only [List.length_cons, List.length_append] at hf; omega)

/-- The data that bits describe by its runs. -/
def unpackRuns : Nat → List Bool → List UInt8
  | fuel + 1, b :: rest =>
    let n := getNat 8 rest
    List.replicate n.1 (bitByte b) ++ unpackRuns fuel n.2
  | _, _ => []

theorem runs_bits {l : List UInt8} (ho : ∀ x ∈ l, x = 0 ∨ x = 1) (c : UInt8) (hc : c = 0 ∨ c = 1) (n : Nat) (h0 : 0 < n)
    (h1 : n ≤ 255) :
    ∃ bits : List Bool, 2 * bits.length = 9 * (Binary.rleRuns c n l).length ∧
      ∀ fuel, (Binary.rleRuns c n l).length ≤ fuel → unpackRuns fuel bits = List.replicate n c ++ l := by
  have hcb : ∃ b, bitByte b = c := by
    rcases hc with rfl | rfl
    · exact ⟨false, rfl⟩
    · exact ⟨true, rfl⟩
  obtain ⟨b, rfl⟩ := hcb
  induction l generalizing n b with
  | nil =>
    have : Binary.rleRuns (bitByte b) n [] = [UInt8.ofNat n, bitByte b] := by
      rw [Binary.rleRuns, if_pos (by omega)]
    rw [this]
    refine ⟨b :: natBits 8 n, by simp [natBits_length], fun fuel hf => ?_⟩
    cases fuel with
    | zero => simp at hf
    | succ fuel =>
      rw [unpackRuns]
      have := getNat_natBits (w := 8) (n := n) (by omega) []
      rw [List.append_nil] at this
      rw [this]
      cases fuel <;> simp [unpackRuns]
  | cons x l ih =>
    have hx := ho x (List.mem_cons_self ..)
    have ho' : ∀ y ∈ l, y = 0 ∨ y = 1 := fun y hy => ho y (List.mem_cons_of_mem _ hy)
    rw [Binary.rleRuns]
    split
    · rename_i h
      obtain ⟨bits, e1, e2⟩ := ih ho' (n := n + 1) (b := b) (by omega) (by omega) hc
      refine ⟨bits, e1, fun fuel hf => ?_⟩
      rw [e2 fuel hf, List.replicate_succ', ← h.1]
      simp
    · obtain ⟨b', rfl⟩ : ∃ b', bitByte b' = x := by
        rcases hx with rfl | rfl
        · exact ⟨false, rfl⟩
        · exact ⟨true, rfl⟩
      obtain ⟨bits, e1, e2⟩ := ih ho' (n := 1) (b := b') (by omega) (by omega) hx
      refine ⟨b :: (natBits 8 n ++ bits), by simp [natBits_length]; omega, fun fuel hf => ?_⟩
      cases fuel with
      | zero => simp at hf
      | succ fuel =>
        rw [unpackRuns, getNat_natBits (by omega)]
        dsimp only
        rw [e2 fuel (by simp only [List.length_cons] at hf; omega)]
        rfl

/-! ## There are not enough short descriptions -/

theorem sum_two_pow (n : Nat) : (Finset.univ.sum fun i : Fin n => 2 ^ (i : Nat)) < 2 ^ n := by
  rw [Fin.sum_univ_eq_sum_range (fun i => 2 ^ i) n]
  induction n with
  | zero => simp
  | succ n ih => rw [Finset.sum_range_succ, Nat.pow_succ]; omega

theorem bitByte_inj : Function.Injective bitByte := by
  intro a b h
  cases a <;> cases b <;> first | rfl | exact absurd h (by decide)

/-- However bits describe data, some string of `n` bytes 0 and 1 is described by no fewer than `n` bits. -/
theorem indescribable (U : List Bool → List UInt8) (n : Nat) :
    ∃ out : List UInt8, out.length = n ∧ (∀ x ∈ out, x = 0 ∨ x = 1) ∧ ∀ bits, U bits = out → n ≤ bits.length := by
  by_contra hcon
  push Not at hcon
  have key : ∀ f : Fin n → Bool, ∃ s : (Σ i : Fin n, Fin i → Bool), U (List.ofFn s.2) = (List.ofFn f).map bitByte := by
    intro f
    obtain ⟨bits, h1, h2⟩ := hcon ((List.ofFn f).map bitByte) (by simp) (by
      intro x hx
      obtain ⟨b, _, rfl⟩ := List.mem_map.mp hx
      cases b
      · exact .inl rfl
      · exact .inr rfl)
    refine ⟨⟨⟨bits.length, h2⟩, fun i => bits[i]⟩, ?_⟩
    rw [← h1]
    congr 1
    exact List.ofFn_getElem
  choose g hg using key
  have hinj : Function.Injective g := by
    intro f f' h
    have e := hg f
    rw [h, hg f'] at e
    exact (List.ofFn_injective ((List.map_injective_iff.mpr bitByte_inj) e)).symm
  have := Fintype.card_le_of_injective g hinj
  simp only [Fintype.card_sigma, Fintype.card_fun, Fintype.card_bool, Fintype.card_fin] at this
  have := sum_two_pow n
  omega

/-- Some data of every length is compressed well neither by LZ4 nor by its runs, and is not one byte repeated. -/
theorem incompressible {z : Lz4} (hz : z.Earlier) (n : Nat) (hn : 4 ≤ n) :
    ∃ out : List UInt8, out.length = n ∧ (∀ x ∈ out, x = 0 ∨ x = 1) ∧ TwoSymbols out ∧
      2 * n ≤ 15 * (z.compress out).length + 4 ∧ 2 * n ≤ 9 * (Binary.rle out).length + 4 := by
  obtain ⟨out, h1, h2, h3⟩ := indescribable (fun bits => match bits with
    | false :: false :: rest => unpack (2 * n + 2) [] rest
    | false :: true :: rest => unpackRuns rest.length rest
    | true :: b :: _ => List.replicate n (bitByte b)
    | _ => []) n
  refine ⟨out, h1, h2, ?_, ?_, ?_⟩
  · by_contra hcon
    cases hout : out with
    | nil => rw [hout] at h1; simp at h1; omega
    | cons x xs =>
      have hx : x ∈ out := by rw [hout]; exact List.mem_cons_self ..
      have hall : out = List.replicate n x := by
        rw [List.eq_replicate_iff]
        refine ⟨h1, fun y hy => ?_⟩
        by_contra hne
        exact hcon ⟨y, hy, x, hx, hne⟩
      rcases h2 x hx with rfl | rfl
      · have := h3 [true, false] hall.symm
        simp only [List.length_cons, List.length_nil] at this
        omega
      · have := h3 [true, true] hall.symm
        simp only [List.length_cons, List.length_nil] at this
        omega
  · obtain ⟨bits, e1, e2⟩ := block_bits (compress_block hz out) h2
    have hsz := C89_size hz out
    change 255 * (z.compress out).length ≤ _ at hsz
    have := h3 (false :: false :: bits) (e2 _ (by omega))
    simp only [List.length_cons] at this
    omega
  · cases hout : out with
    | nil => rw [hout] at h1; simp at h1; omega
    | cons x xs =>
      obtain ⟨bits, e1, e2⟩ := runs_bits (l := xs) (fun y hy => h2 y (by rw [hout]; exact List.mem_cons_of_mem _ hy)) x
        (h2 x (by rw [hout]; exact List.mem_cons_self ..)) 1 (by omega) (by omega)
      have := h3 (false :: true :: bits) (by
        show unpackRuns bits.length bits = out
        rw [e2 _ (by omega), hout]
        rfl)
      simp only [List.length_cons] at this
      simp only [Binary.rle, List.length_append]
      omega

end Lz4

end Souris
