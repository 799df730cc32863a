import Verif.Spec.Value
import Verif.Spec.JsonNear

/-! # Values that differ only in the last digits of their floats -/

namespace Souris

/-- The same float, or one that is near. -/
def FloatKept (b b' : UInt64) : Prop := b = b' ∨ FloatNear b b'

namespace Value

/-- The same contents, only that doubles and polar forms may have changed a little. -/
inductive NearTo : Value → Value → Prop
  | same {v v' : Value} (h : SameAs v v') : NearTo v v'
  | double {x x' : UInt64} (h : FloatNear x x') : NearTo (.double x) (.double x')
  | polar {m m' a a' : UInt64} (hm : FloatKept m m') (ha : FloatKept a a') :
      NearTo (.imaginary (.polar m a)) (.imaginary (.polar m' a'))
  | array {a a' : List Value} (hl : a.length = a'.length)
      (h : ∀ (i : Nat) (v v' : Value), a[i]? = some v → a'[i]? = some v' → NearTo v v') :
      NearTo (.array a) (.array a')
  | map {m m' : List (List Char × Value)} (hl : m.length = m'.length)
      (hk : ∀ k, (∃ v, (k, v) ∈ m) ↔ ∃ v', (k, v') ∈ m')
      (h : ∀ k v v', (k, v) ∈ m → (k, v') ∈ m' → NearTo v v') :
      NearTo (.map m) (.map m')

end Value

end Souris
