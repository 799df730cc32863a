import Verif.Model.IntegerSerde
import Verif.Model.Imaginary
import Verif.Model.ValueJson

/-!
# `Imaginary` through serde: imaginary.rs L18-36

The implementations are derived, so they are serde's: an enum is an object whose only member is named after the
variant, and a variant with fields is an object of them. Modelled for the value tree of serde_json 1.0.129
(`to_value`, `from_value`), from the documentation of serde and the source of serde_json. The text form is that of
the value (`Model/JsonText.lean`).
-/

namespace Souris.Imaginary

/-- `"CartesianForm"` -/
def kCartesian : List Char := ['C', 'a', 'r', 't', 'e', 's', 'i', 'a', 'n', 'F', 'o', 'r', 'm']
/-- `"PolarForm"` -/
def kPolar : List Char := ['P', 'o', 'l', 'a', 'r', 'F', 'o', 'r', 'm']

/-- A field of type `Integer` (integer.rs L509-522), in the serialiser of `to_value`; every failure is its error. -/
def intField (i : Integer) : Out Unit SJValue :=
  match i.toJsonNumber with
  | .ok (some n) => .ok (.number n)
  | .ok none => .err ()
  | .err _ => .err ()
  | .panic p => .panic p

/-- A field of type `f64`: `Value::from(f64)`, which is `null` if there is no such number in JSON. -/
def floatField (b : UInt64) : SJValue :=
  match SJValue.ofF64 b with
  | some n => .number n
  | none => .null

/-- `serde_json::to_value(&imaginary)`. -/
def toJsonValue : Imaginary → Out Unit SJValue
  | cartesian re im => do
    let r ← intField re
    let i ← intField im
    return .object [(kCartesian, .object (SJValue.insert Value.kImaginary i (SJValue.insert Value.kReal r [])))]
  | polar m a =>
    .ok (.object [(kPolar, .object (SJValue.insert Value.kArgument (floatField a)
      (SJValue.insert Value.kModulus (floatField m) [])))])

/-- `Integer::deserialize` (integer.rs L525-610) from a value: numbers go to the visitor, other values to methods which
it does not have. -/
def readInt : SJValue → Option Integer
  | .number n =>
    match Integer.ofJsonNumber n with
    | .ok i => some i
    | _ => none
  | _ => none

/-- `f64::deserialize` from a value: integers are converted with `as`. -/
def readFloat : SJValue → Option UInt64
  | .number n => SJValue.asF64 n
  | _ => none

/-- `serde_json::from_value::<Imaginary>`: an object with one member, whose name chooses the variant and whose value is
an object with the fields; other members of that object are skipped. -/
def ofJsonValue : SJValue → Option Imaginary
  | .object [(name, .object m)] =>
    if name = kCartesian then do
      let re ← readInt (← SJValue.get Value.kReal m)
      let im ← readInt (← SJValue.get Value.kImaginary m)
      return .cartesian re im
    else if name = kPolar then do
      let md ← readFloat (← SJValue.get Value.kModulus m)
      let ar ← readFloat (← SJValue.get Value.kArgument m)
      return .polar md ar
    else none
  | _ => none

end Souris.Imaginary
