import Verif.Model.Huffman

/-! # Specification vocabulary for Huffman coding -/

namespace Souris

/-- A way in which a hash map may hand out its entries: any reordering. -/
def HashOrder {α : Type} (ord : List α → List α) : Prop := ∀ l, (ord l).Perm l

/-- The data contains two different symbols. -/
def TwoSymbols {T : Type} (data : List T) : Prop := ∃ x ∈ data, ∃ y ∈ data, x ≠ y

/-- A code that gives different symbols of the data codes of which neither starts with the other. -/
def PrefixFreeOn {T : Type} (data : List T) (code : T → List Bool) : Prop :=
  ∀ x ∈ data, ∀ y ∈ data, x ≠ y → ¬ code x <+: code y

/-- Two coders that cannot be told apart by encoding and decoding. -/
def SameCoder {T : Type} [DecidableEq T] (h h' : Huffman T) : Prop :=
  (∀ xs, h.encode xs = h'.encode xs) ∧ (∀ b, h.decode b = h'.decode b)

end Souris
