import Verif.Spec.Disk

/-! # Where the name of a database leads -/

namespace Souris

/-- The parts of a text between its slashes. -/
def Pieces (s : List Char) (cs : List (List Char)) : Prop :=
  cs ≠ [] ∧ (∀ c ∈ cs, '/' ∉ c) ∧ ['/'].intercalate cs = s

/-- One step along a path. -/
def Path.step (cur : Path) (c : List Char) : Path :=
  if c = [] ∨ c = ['.'] then cur else if c = ['.', '.'] then cur.dropLast else cur ++ [c]

/-- Where the steps lead, without looking at the disk. -/
def Path.follow (cur : Path) (cs : List (List Char)) : Path := cs.foldl Path.step cur

/-- Where a path begins: at the root if it begins with a slash. -/
def Path.origin (base : Path) (n : List Char) : Path := if n.head? = some '/' then [] else base

/-- Directly in the base directory, or one of the directories that lead to it. -/
def Path.Inside (base p : Path) : Prop := (∃ f, p = base ++ [f]) ∨ p <+: base

end Souris
