import Verif.Model.IntegerConv

/-!
# `Integer` through serde: integer.rs L509-610

The calls to a serialiser and from a deserialiser are data (`SerdeNum`). serde_json 1.0.129 (without
`arbitrary_precision`) is external code, modelled from its documentation and source as far as an integer
can go: its text (`to_string`, `from_str`) and its value tree (`to_value`, `from_value`).
-/

namespace Souris

/-- A number in serde's data model: one of `u8` to `u128`, one of `i8` to `i128` (with the width in
bytes), or anything else (floats, strings, maps, ...). -/
inductive SerdeNum
  | unsigned (k : Nat) (n : Nat)
  | signed (k : Nat) (n : Int)
  | other
deriving DecidableEq, Repr

namespace Integer

/-- integer.rs L509-522: `Serialize`. A failed conversion becomes the serialiser's error. -/
def serialise (i : Integer) : Out IntegerSerError SerdeNum :=
  match i.signedState with
  | .unsigned => do return .unsigned 16 (← i.toUnsigned 16)
  | _ => do return .signed 16 (← i.toSigned 16)

/-- integer.rs L533-606: the visitor. The methods it does not have (`visit_f64`, `visit_str`, ...) are
serde's defaults, which return the error `invalid type`. -/
def visit : SerdeNum → Out Unit Integer
  | .unsigned k n => .ok (ofUnsigned k n)
  | .signed k n => .ok (ofSigned k n)
  | .other => .err ()

end Integer

namespace SerdeJson

/-- serde_json `ser.rs`, `serialize_u128` and `serialize_i128`: decimal digits. -/
def text : SerdeNum → List Char
  | .unsigned _ n => natText n
  | .signed _ n => intText n
  | .other => []

/-- serde_json `read.rs`, whitespace. -/
def ws (c : Char) : Bool := c = ' ' || c = '\n' || c = '\t' || c = '\r'

/-- serde_json `de.rs`, `parse_integer`: the digits of an integer without leading zeros, as long as they
fit a `u64`; and what follows. Longer ones are read as floats. -/
def significand (cs : List Char) : Option (Nat × List Char) :=
  let ds := cs.takeWhile (fun c => (digitOf c).isSome)
  let rest := cs.dropWhile (fun c => (digitOf c).isSome)
  if ds = [] then none
  else if ds.head? = some '0' ∧ 1 < ds.length then none
  else (parseDigits (2 ^ 64 - 1) 0 ds).map (fun n => (n, rest))

/-- serde_json `de.rs`, `from_str` with `deserialize_any`: whitespace, a number, whitespace. A negative
number is an `i64` if it is one and not zero, else a float. Every other text is an error or a call of a
method which the visitor does not have, which is an error too. -/
def read (s : List Char) : Option SerdeNum :=
  match s.dropWhile ws with
  | '-' :: cs =>
    match significand cs with
    | some (n, rest) =>
      if rest.all ws then
        if n = 0 ∨ 2 ^ 63 < n then some .other else some (.signed 8 (-(n : Int)))
      else none
    | none => none
  | cs =>
    match significand cs with
    | some (n, rest) => if rest.all ws then some (.unsigned 8 n) else none
    | none => none

/-- serde_json `value/ser.rs`: `serialize_u128` and `serialize_i128` of the serialiser of `to_value`. -/
def toNumber : SerdeNum → Option SJNumber
  | .unsigned _ n => if n < 2 ^ 64 then some (.ofU64 n) else none
  | .signed _ n =>
    if 0 ≤ n ∧ n < 2 ^ 64 then some (.ofU64 n.toNat)
    else if -(2 ^ 63) ≤ n ∧ n < 2 ^ 63 then some (.ofI64 n)
    else none
  | .other => none

/-- serde_json `number.rs`: the visitor's method called by `from_value`. -/
def ofNumber : SJNumber → SerdeNum
  | .posInt n => .unsigned 8 n
  | .negInt n => .signed 8 n
  | .float _ => .other

end SerdeJson

namespace Integer

/-- `serde_json::to_string(&integer)`. -/
def toJsonText (i : Integer) : Out IntegerSerError (List Char) := do
  return SerdeJson.text (← i.serialise)

/-- `serde_json::from_str::<Integer>`. -/
def ofJsonText (s : List Char) : Out Unit Integer :=
  match SerdeJson.read s with
  | some v => visit v
  | none => .err ()

/-- `serde_json::to_value(&integer)`: a number, `none` for the error that it is out of range. -/
def toJsonNumber (i : Integer) : Out IntegerSerError (Option SJNumber) := do
  return SerdeJson.toNumber (← i.serialise)

/-- `serde_json::from_value::<Integer>` of a number. -/
def ofJsonNumber (n : SJNumber) : Out Unit Integer := visit (SerdeJson.ofNumber n)

end Integer

end Souris
