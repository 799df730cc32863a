import Verif.Model.Lz4

/-! # Specification vocabulary for LZ4: the block format -/

namespace Souris

/-- A length is written as four bits in the token, and when these are all set as further bytes, which are added up to
the first that is not 255. -/
inductive LengthField : Nat → Nat → List UInt8 → Prop
  | short {n : Nat} (h : n < 15) : LengthField n n []
  | long (k : Nat) (r : UInt8) (h : r ≠ 255) : LengthField (15 + 255 * k + r.toNat) 15 (List.replicate k 255 ++ [r])

/-- `out` continues `before` with `n` bytes, each of which is the one `offset` places earlier. -/
def Repeats (before : List UInt8) (offset n : Nat) (out : List UInt8) : Prop :=
  0 < offset ∧ offset ≤ before.length ∧ before <+: out ∧ out.length = before.length + n ∧
    ∀ i, before.length ≤ i → i < out.length → out[i]? = out[i - offset]?

/-- The LZ4 block format: what `bytes` say when `before` has been said already. The lower half of the last token has
no meaning. `strict` is whether offsets of 0 are forbidden; they should be, and have no meaning. `ends` is whether
the conditions on the end of the block are kept, which some decompressors rely on: the last five bytes are literals,
and the last copy begins twelve bytes before the end or earlier. -/
inductive Lz4Block (strict ends : Bool) : (before bytes out : List UInt8) → Prop
  | last {before lits ext : List UInt8} {token : UInt8} (h : LengthField lits.length (token.toNat / 16) ext) :
      Lz4Block strict ends before (token :: (ext ++ lits)) (before ++ lits)
  | copy {before lits ext ext' rest mid out : List UInt8} {token lo hi : UInt8} {n : Nat}
      (h : LengthField lits.length (token.toNat / 16) ext) (h' : LengthField n (token.toNat % 16) ext')
      (hc : Repeats (before ++ lits) (lo.toNat + 256 * hi.toNat) (n + 4) mid ∨
        strict = false ∧ lo = 0 ∧ hi = 0 ∧ before ++ lits <+: mid ∧ mid.length = (before ++ lits).length + (n + 4))
      (he : ends = true → mid.length + 5 ≤ out.length ∧ (before ++ lits).length + 12 ≤ out.length)
      (hr : Lz4Block strict ends mid rest out) :
      Lz4Block strict ends before (token :: (ext ++ (lits ++ (lo :: hi :: (ext' ++ rest))))) out

/-- A hash table that holds earlier positions only. -/
def Lz4.Earlier (z : Lz4) : Prop := ∀ input cur, 0 < cur → z.candidate input cur < cur

end Souris
