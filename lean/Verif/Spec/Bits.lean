import Verif.Model.Bits

/-! # Specification of `Bits`: a growable list of booleans -/

namespace Souris

namespace Bits

/-- Operations of the public API. `extend l` is `push_many` of a `Bits` collected from `l`;
`fromList l` is collecting `l` into a fresh `Bits`; `fromBytes` is `from_binary`. -/
inductive Op
  | push (x : Bool)
  | pop
  | extend (l : List Bool)
  | clear
  | fromList (l : List Bool)
  | fromBytes (bytes : List UInt8)

/-- The bits of a byte, lowest first. -/
def byteBools (b : UInt8) : List Bool := (List.range 8).map (fun i => b.toNat.testBit i)

/-- Specification: the effect of an operation on a list of booleans, and what it returns (only
`pop` returns something). -/
def specStep : List Bool → Op → List (Option Bool) × List Bool
  | l, .push x => ([], l ++ [x])
  | l, .pop => ([l.getLast?], l.dropLast)
  | l, .extend l' => ([], l ++ l')
  | _, .clear => ([], [])
  | _, .fromList l' => ([], l')
  | _, .fromBytes bytes => ([], bytes.flatMap byteBools)

/-- Specification of a history: the values returned, in order, and the final list. -/
def specRun : List Op → List Bool → List (Option Bool) × List Bool
  | [], l => ([], l)
  | op :: ops, l =>
    let (o, l') := specStep l op
    let (os, l'') := specRun ops l'
    (o ++ os, l'')

/-- The modelled code performing one operation. -/
def implStep (b : Bits) : Op → Out Empty (List (Option Bool) × Bits)
  | .push x => .ok ([], b.push x)
  | .pop => do
    let (o, b') ← b.pop
    return ([o], b')
  | .extend l => do
    let b' ← b.pushMany (ofBools l)
    return ([], b')
  | .clear => .ok ([], b.clear)
  | .fromList l => .ok ([], ofBools l)
  | .fromBytes bytes => .ok ([], fromBinary bytes)

/-- The modelled code performing a history. -/
def implRun : List Op → Bits → Out Empty (List (Option Bool) × Bits)
  | [], b => .ok ([], b)
  | op :: ops, b => do
    let (o, b') ← implStep b op
    let (os, b'') ← implRun ops b'
    return (o ++ os, b'')

end Bits

end Souris
