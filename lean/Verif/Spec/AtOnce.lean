import Verif.Spec.RaceFree

/-! # Specification: a change of a database that is the only one (C112) -/

namespace Souris

/-- The request `w` is the only one that may change the database `n`. -/
def OnlyChange (evs : List Ev) (n : List Char) (w : Nat) : Prop :=
  ∀ u op, .call u op ∈ evs → op.Writes n → u = w

end Souris
