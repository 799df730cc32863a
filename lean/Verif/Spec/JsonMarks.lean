import Verif.Spec.ValueEq

/-! # Specification vocabulary for the JSON form without type markers -/

namespace Souris

namespace Value

/-- Values of types that JSON does not have. -/
inductive NeedsMark : Value → Prop
  | imaginary (z : Imaginary) : NeedsMark (.imaginary z)
  | timestamp (t : Timestamp) : NeedsMark (.timestamp t)
  | timezone (n : List Char) : NeedsMark (.timezone n)
  | binary (b : List UInt8) : NeedsMark (.binary b)
  | ipv4 (a b c d : UInt8) : NeedsMark (.ipv4 a b c d)
  | ipv6 (a b c d e f g i : UInt16) : NeedsMark (.ipv6 a b c d e f g i)

/-- There is no such value in it, at any depth. -/
def NoMarks (v : Value) : Prop := ∀ x, Sub x v → ¬ NeedsMark x

end Value

end Souris
