import Verif.Model.Imaginary
import Verif.Spec.Integer

/-! # Specification vocabulary for imaginary numbers -/

namespace Souris

/-- Same number with the same signedness. -/
def Integer.SameAs (i j : Integer) : Prop := i.signedState = j.signedState ∧ i.value = j.value

/-- Same form, same coefficients; floats bit for bit. -/
inductive Imaginary.SameAs : Imaginary → Imaginary → Prop
  | cartesian {a b a' b' : Integer} (h1 : a.SameAs a') (h2 : b.SameAs b') :
      SameAs (.cartesian a b) (.cartesian a' b')
  | polar (m a : UInt64) : SameAs (.polar m a) (.polar m a)

/-- Imaginary numbers that exist at run time. -/
inductive Imaginary.Reachable : Imaginary → Prop
  | cartesian {a b : Integer} (h1 : a.Reachable) (h2 : b.Reachable) : Reachable (.cartesian a b)
  | polar (m a : UInt64) : Reachable (.polar m a)

end Souris
