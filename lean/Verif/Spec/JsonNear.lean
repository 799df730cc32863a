import Verif.Spec.JsonText

/-! # JSON values that differ only in the last digits of their floats -/

namespace Souris

/-- The floats have the same sign, and differ by at most two parts in 10¹⁵, or about the smallest float. -/
def FloatNear (b b' : UInt64) : Prop :=
  F64Finite b' ∧ (b.toNat < 2 ^ 63 ↔ b'.toNat < 2 ^ 63) ∧
    |f64Value b' - f64Value b| ≤ |f64Value b| * 2 / 10 ^ 15 + 2 / 10 ^ 323

/-- The same JSON, only that floats may differ a little. -/
inductive JsonNear : SJValue → SJValue → Prop
  | null : JsonNear .null .null
  | bool (b : Bool) : JsonNear (.bool b) (.bool b)
  | posInt (n : Nat) : JsonNear (.number (.posInt n)) (.number (.posInt n))
  | negInt (n : Int) : JsonNear (.number (.negInt n)) (.number (.negInt n))
  | float {b b' : UInt64} (h : FloatNear b b') : JsonNear (.number (.float b)) (.number (.float b'))
  | string (s : List Char) : JsonNear (.string s) (.string s)
  | array {a a' : List SJValue} (hl : a.length = a'.length) (h : ∀ x ∈ a.zip a', JsonNear x.1 x.2) :
      JsonNear (.array a) (.array a')
  | object {m m' : List (List Char × SJValue)} (hk : m.map Prod.fst = m'.map Prod.fst)
      (h : ∀ x ∈ m.zip m', JsonNear x.1.2 x.2.2) : JsonNear (.object m) (.object m')

end Souris
