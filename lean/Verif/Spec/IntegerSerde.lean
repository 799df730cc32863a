import Verif.Spec.IntegerConv
import Verif.Model.IntegerSerde

/-! # Specification of integers in JSON text (RFC 8259, without fraction and exponent) -/

namespace Souris

/-- JSON's white space. -/
def JsonSpace (c : Char) : Prop := c ∈ [' ', '\n', '\t', '\r']

/-- `s` is a JSON integer with value `n`: white space around an optional minus sign and digits without
superfluous zeros. -/
inductive JsonInt : List Char → Int → Prop
  | pos {before digits after : List Char} (hb : ∀ c ∈ before, JsonSpace c) (ha : ∀ c ∈ after, JsonSpace c)
      (hne : digits ≠ []) (hd : ∀ c ∈ digits, c ∈ decimalDigits)
      (hz : digits.head? = some '0' → digits = ['0']) :
      JsonInt (before ++ digits ++ after) (digitsValue digits)
  | neg {before digits after : List Char} (hb : ∀ c ∈ before, JsonSpace c) (ha : ∀ c ∈ after, JsonSpace c)
      (hne : digits ≠ []) (hd : ∀ c ∈ digits, c ∈ decimalDigits)
      (hz : digits.head? = some '0' → digits = ['0']) :
      JsonInt (before ++ '-' :: digits ++ after) (-(digitsValue digits : Int))

/-- The number of a call in serde's data model. -/
inductive SerdeNum.Denotes : SerdeNum → Int → Prop
  | unsigned {k n : Nat} (hk : Width k) (hn : IsUnsigned k n) : Denotes (.unsigned k n) n
  | signed {k : Nat} {n : Int} (hk : Width k) (hn : IsSigned k n) : Denotes (.signed k n) n

end Souris
