import Verif.Model.Value
import Verif.Model.IntegerFloat

/-!
# Values and JSON (crates/sourisdb/src/values.rs L595-925)
-/

namespace Souris

/-- `f64::from(f32)`, on bit patterns. Only finite floats matter here; an infinity stays one, a NaN
stays a NaN. -/
def widen (x : UInt32) : UInt64 :=
  let b := x.toNat
  let sign := (b / 2 ^ 31) * 2 ^ 63
  let e := f32Format.exponent b
  let m := f32Format.mantissa b
  if e = 255 then UInt64.ofNat (sign + 2047 * 2 ^ 52 + m * 2 ^ 29)
  else if e = 0 then
    if m = 0 then UInt64.ofNat sign
    else UInt64.ofNat (sign + (m.log2 + 874) * 2 ^ 52 + (m - 2 ^ m.log2) * 2 ^ (52 - m.log2))
  else UInt64.ofNat (sign + (e + 896) * 2 ^ 52 + m * 2 ^ 29)

namespace SJValue

/-- Collecting entries into a `serde_json::Map`. -/
def collect (es : List (List Char × SJValue)) : List (List Char × SJValue) :=
  es.foldl (fun m e => insert e.1 e.2 m) []

/-- `Number::as_f64` (always `Some` without `arbitrary_precision`). -/
def asF64 : SJNumber → Option UInt64
  | .posInt n => some (UInt64.ofNat (f64Format.castNat n))
  | .negInt n => some (UInt64.ofNat (f64Format.castInt n))
  | .float bits => some bits

end SJValue

namespace Value

/-- `"souris_type"` -/
def kTy : List Char := ['s', 'o', 'u', 'r', 'i', 's', '_', 't', 'y', 'p', 'e']
/-- `"real"` -/
def kReal : List Char := ['r', 'e', 'a', 'l']
/-- `"imaginary"` -/
def kImaginary : List Char := ['i', 'm', 'a', 'g', 'i', 'n', 'a', 'r', 'y']
/-- `"modulus"` -/
def kModulus : List Char := ['m', 'o', 'd', 'u', 'l', 'u', 's']
/-- `"argument"` -/
def kArgument : List Char := ['a', 'r', 'g', 'u', 'm', 'e', 'n', 't']
/-- `"timestamp"` -/
def kTimestamp : List Char := ['t', 'i', 'm', 'e', 's', 't', 'a', 'm', 'p']
/-- `"timezone"` -/
def kTimezone : List Char := ['t', 'i', 'm', 'e', 'z', 'o', 'n', 'e']
/-- `"bytes"` -/
def kBytes : List Char := ['b', 'y', 't', 'e', 's']
/-- `"octets"` -/
def kOctets : List Char := ['o', 'c', 't', 'e', 't', 's']

/-- `SJValue::Number(Number::from(n))` for `u8` and `u16`. -/
def num (n : Nat) : SJValue := .number (.ofU64 n)

/-- The object started by values.rs L637-643, L661-667, L674-680 and binary.rs L155-161: empty, or with
the marker. -/
def marked (types : Bool) (ty : ValueTy) : List (List Char × SJValue) :=
  if types then SJValue.insert kTy (num ty.toU8.toNat) [] else []

/-- values.rs L636-658. -/
def imaginaryToJson (types : Bool) : Imaginary → Option SJValue
  | .cartesian re im => do
    let r ← re.toJson
    let i ← im.toJson
    some (.object (SJValue.insert kImaginary (.number i) (SJValue.insert kReal (.number r) (marked types .imaginary))))
  | .polar m a => do
    let m ← SJValue.ofF64 m
    let a ← SJValue.ofF64 a
    some (.object (SJValue.insert kArgument (.number a) (SJValue.insert kModulus (.number m) (marked types .imaginary))))

/-- values.rs L687-704 and L705-722: an address. -/
def addrToJson (types : Bool) (ty : ValueTy) (octets : List Nat) : SJValue :=
  let arr := .array (octets.map num)
  if types then .object (SJValue.insert kOctets arr (SJValue.insert kTy (num ty.toU8.toNat) [])) else arr

mutual
/-- values.rs L611-724: `convert_to_json`. -/
def toJson (env : Env) (types : Bool) : Value → Option SJValue
  | character c => some (.string [c])
  | string s => some (.string s)
  | boolean b => some (.bool b)
  | integer i => i.toJson.map .number
  | json j => some j
  | null => some .null
  | single f => (SJValue.ofF64 (widen f)).map .number
  | double f => (SJValue.ofF64 f).map .number
  | array a => (toJsonList env types a).map .array
  | map m => (toJsonEntries env types m).map fun es => .object (SJValue.collect es)
  | imaginary z => imaginaryToJson types z
  | timestamp t => some (.object (SJValue.insert kTimestamp (.string (env.tsPrint t)) (marked types .timestamp)))
  | timezone n => some (.object (SJValue.insert kTimezone (.string n) (marked types .timezone)))
  | binary b => some (.object (SJValue.insert kBytes (.array (b.map fun x => num x.toNat)) (marked types .binary)))
  | ipv4 a b c d => some (addrToJson types .ipv4Addr [a.toNat, b.toNat, c.toNat, d.toNat])
  | ipv6 a b c d e f g h => some (addrToJson types .ipv6Addr
      [a.toNat, b.toNat, c.toNat, d.toNat, e.toNat, f.toNat, g.toNat, h.toNat])

/-- values.rs L621-625. -/
def toJsonList (env : Env) (types : Bool) : List Value → Option (List SJValue)
  | [] => some []
  | v :: vs => do
    let j ← toJson env types v
    let js ← toJsonList env types vs
    return j :: js

/-- values.rs L626-630. -/
def toJsonEntries (env : Env) (types : Bool) : List (List Char × Value) → Option (List (List Char × SJValue))
  | [] => some []
  | (k, v) :: vs => do
    let j ← toJson env types v
    let js ← toJsonEntries env types vs
    return (k, j) :: js
end

/-- values.rs L758-767: the marker of an object, when it is a number that is a type code. -/
def marker (m : List (List Char × SJValue)) : Option ValueTy :=
  match SJValue.get kTy m with
  | some (.number n) =>
    match n.asU64 with
    | some u =>
      if u < 256 then
        match ValueTy.ofU8 (UInt8.ofNat u) with
        | .ok ty => some ty
        | _ => none
      else none
    | none => none
  | _ => none

/-- `.iter().map(|x| x.as_u64().and_then(|x| uN::try_from(x).ok())).collect::<Option<Vec<_>>>()`. -/
def smallInts (bound : Nat) : List SJValue → Option (List Nat)
  | [] => some []
  | j :: js =>
    match j.asU64 with
    | some u => if u < bound then (smallInts bound js).map (u :: ·) else none
    | none => none

/-- values.rs L769-912: an object with a marker. -/
def fromMarked (env : Env) (ty : ValueTy) (m : List (List Char × SJValue)) : Out ValueSerError Value :=
  let bad : Out ValueSerError Value := .err (.invalidSourisType ty .invalidData)
  let missing : Out ValueSerError Value := .err (.invalidSourisType ty .notFound)
  match ty with
  | .imaginary =>
    match SJValue.get kReal m, SJValue.get kImaginary m with
    | some (.number re), some (.number im) =>
      match Integer.fromJson re, Integer.fromJson im with
      | some re, some im => .ok (.imaginary (.cartesian re im))
      | _, _ => bad
    | _, _ =>
      match SJValue.get kModulus m, SJValue.get kArgument m with
      | some (.number md), some (.number ar) =>
        match SJValue.asF64 md, SJValue.asF64 ar with
        | some md, some ar => .ok (.imaginary (.polar md ar))
        | _, _ => bad
      | _, _ => missing
  | .timestamp =>
    match SJValue.get kTimestamp m with
    | some (.string s) => match env.tsParse s with | some t => .ok (.timestamp t) | none => bad
    | _ => missing
  | .timezone =>
    match SJValue.get kTimezone m with
    | some (.string s) => if s ∈ env.tzNames then .ok (.timezone s) else bad
    | _ => missing
  | .binary =>
    match SJValue.get kBytes m with
    | some (.array a) =>
      match smallInts 256 a with
      | some bs => .ok (.binary (bs.map UInt8.ofNat))
      | none => bad
    | _ => missing
  | .ipv4Addr =>
    match SJValue.get kOctets m with
    | some (.array a) =>
      match smallInts 256 a with
      | some [a, b, c, d] => .ok (.ipv4 (.ofNat a) (.ofNat b) (.ofNat c) (.ofNat d))
      | _ => bad
    | _ => missing
  | .ipv6Addr =>
    match SJValue.get kOctets m with
    | some (.array a) =>
      match smallInts 65536 a with
      | some [a, b, c, d, e, f, g, h] =>
        .ok (.ipv6 (.ofNat a) (.ofNat b) (.ofNat c) (.ofNat d) (.ofNat e) (.ofNat f) (.ofNat g) (.ofNat h))
      | _ => bad
    | _ => missing
  | ty => .err (.invalidSourisType ty .noSourisTypeApplicable)

/-- Collecting entries into a `HashMap`. -/
def collectMap (es : List (List Char × Value)) : List (List Char × Value) :=
  es.foldl (fun m e => mapInsert e.1 e.2 m) []

mutual
/-- values.rs L736-925: `convert_from_json`. -/
def fromJson (env : Env) : SJValue → Out ValueSerError Value
  | .null => .ok .null
  | .bool b => .ok (.boolean b)
  | .number n =>
    match Integer.fromJson n with
    | some i => .ok (.integer i)
    | none =>
      match SJValue.asF64 n with
      | some f => .ok (.double f)
      | none => .panic .unreachable
  | .string s => .ok (.string s)
  | .array a => do
    let vs ← fromJsonList env a
    return .array vs
  | .object m =>
    match marker m with
    | some ty => fromMarked env ty m
    | none => do
      let es ← fromJsonEntries env m
      return .map (env.mapOrd (collectMap es))

/-- values.rs L752-756. -/
def fromJsonList (env : Env) : List SJValue → Out ValueSerError (List Value)
  | [] => .ok []
  | j :: js => do
    let v ← fromJson env j
    let vs ← fromJsonList env js
    return v :: vs

/-- values.rs L917-921. -/
def fromJsonEntries (env : Env) : List (List Char × SJValue) → Out ValueSerError (List (List Char × Value))
  | [] => .ok []
  | (k, j) :: js => do
    let v ← fromJson env j
    let vs ← fromJsonEntries env js
    return (k, v) :: vs
end

end Value

end Souris
