import Verif.Model.IntegerFloat

/-!
# Multiplication and division of floats

IEEE-754 arithmetic, rounding to nearest with ties to even, on the bits of floats without their sign. Used
by the model of serde_json's reader.
-/

namespace Souris

namespace FloatFormat

variable (F : FloatFormat)

/-- `a * b` of two finite floats. -/
def mul (a b : Nat) : Nat := F.ofRatio (F.mag a * F.mag b) (2 ^ (2 * F.scale))

/-- `a / b` of two finite floats, `b` not zero. -/
def div (a b : Nat) : Nat := F.ofRatio (F.mag a) (F.mag b)

end FloatFormat

end Souris
