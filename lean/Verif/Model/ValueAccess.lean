import Verif.Model.Value

/-!
# Typed access to values (crates/sourisdb/src/values.rs L103-193)

The macro `as_ty!` is expanded for its sixteen variants. `as_x` and `to_x` have the same body; a mutable
reference is modelled by what is left after writing through it.
-/

namespace Souris

namespace Value

/-- What the macro defines for one variant: `x(v)`, `as_x`/`to_x`, `is_x`, writing through `as_mut_x`, and
`TryFrom<Value>`. -/
structure Accessor (T : Type) where
  new : T → Value
  extract : Value → Option T
  is : Value → Bool
  update : (T → T) → Value → Option Value
  tryFrom : Value → Out ValueSerError T

/-- values.rs L153-168: `TryFrom<Value>` in terms of `to_x`. -/
def tryWith {T : Type} (extract : Value → Option T) (expected : ValueTy) (v : Value) : Out ValueSerError T :=
  match extract v with
  | some x => .ok x
  | none => .err (.unexpectedValueType v.asTy expected)

/-- values.rs L171 with L103-168: `character`. -/
def charAcc : Accessor (Char) where
  new := character
  extract := fun v => match v with | character x => some x | _ => none
  is := fun v => match v with | character .. => true | _ => false
  update := fun f v => match v with | character x => some (character (f x)) | _ => none
  tryFrom := tryWith (fun v => match v with | character x => some x | _ => none) .character

/-- values.rs L171 with L103-168: `string`. -/
def strAcc : Accessor (List Char) where
  new := string
  extract := fun v => match v with | string x => some x | _ => none
  is := fun v => match v with | string .. => true | _ => false
  update := fun f v => match v with | string x => some (string (f x)) | _ => none
  tryFrom := tryWith (fun v => match v with | string x => some x | _ => none) .string

/-- values.rs L171 with L103-168: `boolean`. -/
def boolAcc : Accessor (Bool) where
  new := boolean
  extract := fun v => match v with | boolean x => some x | _ => none
  is := fun v => match v with | boolean .. => true | _ => false
  update := fun f v => match v with | boolean x => some (boolean (f x)) | _ => none
  tryFrom := tryWith (fun v => match v with | boolean x => some x | _ => none) .boolean

/-- values.rs L171 with L103-168: `integer`. -/
def intAcc : Accessor (Integer) where
  new := integer
  extract := fun v => match v with | integer x => some x | _ => none
  is := fun v => match v with | integer .. => true | _ => false
  update := fun f v => match v with | integer x => some (integer (f x)) | _ => none
  tryFrom := tryWith (fun v => match v with | integer x => some x | _ => none) .integer

/-- values.rs L171 with L103-168: `imaginary`. -/
def imaginaryAcc : Accessor (Imaginary) where
  new := imaginary
  extract := fun v => match v with | imaginary x => some x | _ => none
  is := fun v => match v with | imaginary .. => true | _ => false
  update := fun f v => match v with | imaginary x => some (imaginary (f x)) | _ => none
  tryFrom := tryWith (fun v => match v with | imaginary x => some x | _ => none) .imaginary

/-- values.rs L171 with L103-168: `timestamp`. -/
def timestampAcc : Accessor (Timestamp) where
  new := timestamp
  extract := fun v => match v with | timestamp x => some x | _ => none
  is := fun v => match v with | timestamp .. => true | _ => false
  update := fun f v => match v with | timestamp x => some (timestamp (f x)) | _ => none
  tryFrom := tryWith (fun v => match v with | timestamp x => some x | _ => none) .timestamp

/-- values.rs L171 with L103-168: `json`. -/
def jsonAcc : Accessor (SJValue) where
  new := json
  extract := fun v => match v with | json x => some x | _ => none
  is := fun v => match v with | json .. => true | _ => false
  update := fun f v => match v with | json x => some (json (f x)) | _ => none
  tryFrom := tryWith (fun v => match v with | json x => some x | _ => none) .json

/-- values.rs L171 with L103-168: `null`. -/
def nullAcc : Accessor (Unit) where
  new := fun _ => null
  extract := fun v => match v with | null => some () | _ => none
  is := fun v => match v with | null => true | _ => false
  update := fun _ v => match v with | null => some null | _ => none
  tryFrom := tryWith (fun v => match v with | null => some () | _ => none) .null

/-- values.rs L171 with L103-168: `double`. -/
def doubleAcc : Accessor (UInt64) where
  new := double
  extract := fun v => match v with | double x => some x | _ => none
  is := fun v => match v with | double .. => true | _ => false
  update := fun f v => match v with | double x => some (double (f x)) | _ => none
  tryFrom := tryWith (fun v => match v with | double x => some x | _ => none) .doubleFloat

/-- values.rs L171 with L103-168: `single`. -/
def singleAcc : Accessor (UInt32) where
  new := single
  extract := fun v => match v with | single x => some x | _ => none
  is := fun v => match v with | single .. => true | _ => false
  update := fun f v => match v with | single x => some (single (f x)) | _ => none
  tryFrom := tryWith (fun v => match v with | single x => some x | _ => none) .singleFloat

/-- values.rs L171 with L103-168: `array`. -/
def arrayAcc : Accessor (List Value) where
  new := array
  extract := fun v => match v with | array x => some x | _ => none
  is := fun v => match v with | array .. => true | _ => false
  update := fun f v => match v with | array x => some (array (f x)) | _ => none
  tryFrom := tryWith (fun v => match v with | array x => some x | _ => none) .array

/-- values.rs L171 with L103-168: `map`. -/
def mapAcc : Accessor (List (List Char × Value)) where
  new := map
  extract := fun v => match v with | map x => some x | _ => none
  is := fun v => match v with | map .. => true | _ => false
  update := fun f v => match v with | map x => some (map (f x)) | _ => none
  tryFrom := tryWith (fun v => match v with | map x => some x | _ => none) .map

/-- values.rs L171 with L103-168: `timezone`. -/
def tzAcc : Accessor (List Char) where
  new := timezone
  extract := fun v => match v with | timezone x => some x | _ => none
  is := fun v => match v with | timezone .. => true | _ => false
  update := fun f v => match v with | timezone x => some (timezone (f x)) | _ => none
  tryFrom := tryWith (fun v => match v with | timezone x => some x | _ => none) .timezone

/-- values.rs L171 with L103-168: `ipv4`. -/
def ipv4Acc : Accessor (UInt8 × UInt8 × UInt8 × UInt8) where
  new := fun (x0, x1, x2, x3) => ipv4 x0 x1 x2 x3
  extract := fun v => match v with | ipv4 x0 x1 x2 x3 => some (x0, x1, x2, x3) | _ => none
  is := fun v => match v with | ipv4 .. => true | _ => false
  update := fun f v => match v with | ipv4 x0 x1 x2 x3 => let (x0, x1, x2, x3) := f (x0, x1, x2, x3); some (ipv4 x0 x1 x2 x3) | _ => none
  tryFrom := tryWith (fun v => match v with | ipv4 x0 x1 x2 x3 => some (x0, x1, x2, x3) | _ => none) .ipv4Addr

/-- values.rs L171 with L103-168: `ipv6`. -/
def ipv6Acc : Accessor (UInt16 × UInt16 × UInt16 × UInt16 × UInt16 × UInt16 × UInt16 × UInt16) where
  new := fun (x0, x1, x2, x3, x4, x5, x6, x7) => ipv6 x0 x1 x2 x3 x4 x5 x6 x7
  extract := fun v => match v with | ipv6 x0 x1 x2 x3 x4 x5 x6 x7 => some (x0, x1, x2, x3, x4, x5, x6, x7) | _ => none
  is := fun v => match v with | ipv6 .. => true | _ => false
  update := fun f v => match v with | ipv6 x0 x1 x2 x3 x4 x5 x6 x7 => let (x0, x1, x2, x3, x4, x5, x6, x7) := f (x0, x1, x2, x3, x4, x5, x6, x7); some (ipv6 x0 x1 x2 x3 x4 x5 x6 x7) | _ => none
  tryFrom := tryWith (fun v => match v with | ipv6 x0 x1 x2 x3 x4 x5 x6 x7 => some (x0, x1, x2, x3, x4, x5, x6, x7) | _ => none) .ipv6Addr

/-- values.rs L171 with L103-168: `binary`. -/
def binaryAcc : Accessor (List UInt8) where
  new := binary
  extract := fun v => match v with | binary x => some x | _ => none
  is := fun v => match v with | binary .. => true | _ => false
  update := fun f v => match v with | binary x => some (binary (f x)) | _ => none
  tryFrom := tryWith (fun v => match v with | binary x => some x | _ => none) .binary

/-- values.rs L176-180: `From<u8..u128, usize>`. -/
def ofUnsigned (k n : Nat) : Value := integer (Integer.ofUnsigned k n)
/-- values.rs L176-180: `From<i8..i128, isize>`. -/
def ofSigned (k : Nat) (n : Int) : Value := integer (Integer.ofSigned k n)

/-- values.rs L182-188: `TryFrom<Value>` for unsigned types. -/
def toUnsigned (k : Nat) (v : Value) : Out ValueSerError Nat := do
  let i ← intAcc.tryFrom v
  (i.toUnsigned k).mapErr .integer

/-- values.rs L182-188: `TryFrom<Value>` for signed types. -/
def toSigned (k : Nat) (v : Value) : Out ValueSerError Int := do
  let i ← intAcc.tryFrom v
  (i.toSigned k).mapErr .integer

end Value

end Souris
