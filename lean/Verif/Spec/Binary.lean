import Verif.Model.Binary

/-! # Specification vocabulary for the binary codecs -/

namespace Souris

/-- What we need from lz4_flex: decompressing what was compressed, giving the true length, yields the
original. The model of lz4_flex has this property (`C89_lossless`). -/
def Lz.Lossless (z : Lz) : Prop := ∀ b, b.length ≤ isizeMax → z.decompress (z.compress b) b.length = .ok b

/-- lz4_flex panics at most because the size that it is told is too large for a vector (`C89_panics`). -/
def Lz.Allocates (z : Lz) : Prop := ∀ b n r, z.decompress b n = .panic r → r = .capacityOverflow ∧ isizeMax < n

/-- `p` inverts the bytes `bytes`: wherever they stand in a buffer of addressable size, `p` returns
`x` and stops exactly behind them. -/
def Inverts {ε α : Type} (p : Parser ε α) (bytes : List UInt8) (x : α) : Prop :=
  ∀ pre tail : List UInt8, (pre ++ bytes ++ tail).length < 2 ^ 64 →
    p ⟨pre ++ bytes ++ tail, pre.length⟩
      = .ok (x, ⟨pre ++ bytes ++ tail, (pre ++ bytes).length⟩)

end Souris
