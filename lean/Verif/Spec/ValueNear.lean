import Verif.Spec.Value
import Verif.Spec.JsonNear

/-! # Values that differ only in the last digits of floats in their JSON -/

namespace Souris.Value

/-- The same contents, only that in place of JSON there may be JSON that is related to it. -/
inductive SameUpTo (R : SJValue → SJValue → Prop) : Value → Value → Prop
  | same {v v' : Value} (h : SameAs v v') : SameUpTo R v v'
  | json {j j' : SJValue} (h : R j j') : SameUpTo R (.json j) (.json j')
  | array {a a' : List Value} (hl : a.length = a'.length)
      (h : ∀ (i : Nat) (v v' : Value), a[i]? = some v → a'[i]? = some v' → SameUpTo R v v') :
      SameUpTo R (.array a) (.array a')

/-- JSON that serde_json can make and read, with floats up to a bound. -/
def JsonUpTo (B : ℚ) (j : SJValue) : Prop := (j.Made fun b => |f64Value b| ≤ B) ∧ j.depth ≤ 127

end Souris.Value
