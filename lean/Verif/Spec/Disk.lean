import Verif.Model.Disk

/-! # Specification for the files of the daemon -/

namespace Souris

/-- Names that are one path component. -/
def PlainName (n : List Char) : Prop := '/' ∉ n ∧ Char.ofNat 0 ∉ n

/-- Directly in the base directory: where the file of a database should be. -/
def sdbPath (base : Path) (n : List Char) : Path := base ++ [n ++ ".sdb".toList]

/-- The base directory is there, or can be created. -/
def BaseOk (fs : FS) (base : Path) : Prop :=
  fs base = some .dir ∨ (fs base = none ∧ ∀ i b, fs (base.take i) ≠ some (.file b))

/-- The same databases with the same contents, whatever the order in which maps list their entries. -/
def SameDbs (dbs dbs' : Dbs) : Prop :=
  ∀ n, Option.Rel (fun s s' => s'.Perm s) (AMap.get n dbs) (AMap.get n dbs')

end Souris
