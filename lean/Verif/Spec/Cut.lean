import Verif.Model.Store

/-! # Errors that say that there are not enough bytes (specification of C107) -/

namespace Souris

/-- The integer error says that there are not enough bytes. -/
def IntegerSerError.Short (e : IntegerSerError) : Prop := e = .notEnoughBytes

/-- The error of a tree or a coded text says so, or hands on one that does. -/
def HuffmanSerError.Short : HuffmanSerError → Prop
  | .notEnoughBytes => True
  | .integer e => e.Short
  | _ => False

/-- The error of binary data says so, or hands on one that does. -/
def BinarySerError.Short : BinarySerError → Prop
  | .notEnoughBytes => True
  | .integer e => e.Short
  | .huffman e => e.Short
  | _ => False

/-- The error of a value says so, or hands on one that does. -/
def ValueSerError.Short : ValueSerError → Prop
  | .notEnoughBytes => True
  | .integer e => e.Short
  | .binary e => e.Short
  | _ => False

/-- The error of a store says so, or hands on one that does about the compressed contents. Errors in what is inside of these
do not count: all of it is there when the compressed contents are. -/
def StoreSerError.Short : StoreSerError → Prop
  | .notEnoughBytes => True
  | .binary e => e.Short
  | _ => False

/-- Cut anywhere, what `p` reads is noticed to be cut exactly if something of it is missing: if all the bytes it takes up are
left, the same is read and ends at the same place; else the answer is an error that says that there are not enough bytes. -/
def NoticesCut {ε α : Type} (S : ε → Prop) (p : Parser ε α) : Prop :=
  ∀ (b tail : List UInt8) (x : α) (c : Cursor UInt8), p (Cursor.new (b ++ tail)) = .ok (x, c) →
    if c.pos ≤ b.length then p (Cursor.new b) = .ok (x, ⟨b, c.pos⟩) else ∃ e, p (Cursor.new b) = .err e ∧ S e

end Souris
