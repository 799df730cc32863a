import Verif.Spec.IntegerFloat
import Verif.Spec.JsonText
import Verif.Model.ImaginarySerde

/-! # Specification of complex numbers in JSON -/

namespace Souris

/-- A JSON number that is written without fraction and exponent, and the number it is. -/
inductive WholeNumber : SJValue → Int → Prop
  | pos (n : Nat) : WholeNumber (.number (.posInt n)) n
  | neg (n : Int) : WholeNumber (.number (.negInt n)) n

/-- A JSON number as a float: itself, or for a whole number the nearest one. -/
inductive FloatNumber : SJValue → UInt64 → Prop
  | float (b : UInt64) : FloatNumber (.number (.float b)) b
  | whole {j : SJValue} {z : Int} {b : UInt64} (h : WholeNumber j z) (hb : NearestF64 z b) : FloatNumber j b

/-- An object that says a complex number: one member, `CartesianForm` with whole numbers `real` and `imaginary`, or
`PolarForm` with numbers `modulus` and `argument`; there may be other members beside these. -/
inductive ComplexJson : SJValue → Imaginary → Prop
  | cartesian {m : List (List Char × SJValue)} {a b : SJValue} {re im : Integer}
      (ha : ("real".toList, a) ∈ m) (hb : ("imaginary".toList, b) ∈ m)
      (hre : re.Native ∧ WholeNumber a re.value) (him : im.Native ∧ WholeNumber b im.value) :
      ComplexJson (.object [("CartesianForm".toList, .object m)]) (.cartesian re im)
  | polar {m : List (List Char × SJValue)} {a b : SJValue} {md ar : UInt64}
      (ha : ("modulus".toList, a) ∈ m) (hb : ("argument".toList, b) ∈ m)
      (hmd : FloatNumber a md) (har : FloatNumber b ar) :
      ComplexJson (.object [("PolarForm".toList, .object m)]) (.polar md ar)

end Souris
