import Verif.Model.ImaginarySerde
import Verif.Model.JsonText

/-!
# `Imaginary` straight to JSON text and back: imaginary.rs L18-36 with serde_json 1.0.129

`serde_json::to_string(&imaginary)` and `from_str::<Imaginary>` do not go through a `Value`: the members are written in
the order of the declaration, 128-bit integers are written in full, and the fields are read as they come. Modelled from
the documentation of serde's derived implementations and the source of serde_json. Simplified: where both fail with
different errors there is one failure, and skipping the values of unknown members (`ignore_value`)
is a parameter, for which Model/IgnoreValue is put in.
-/

namespace Souris.Imaginary

open SerdeJson

/-- serde_json `ser.rs`, `serialize_f64`. -/
def floatFieldText (b : UInt64) : List Char :=
  match SJValue.ofF64 b with
  | some _ => floatText b
  | none => ['n', 'u', 'l', 'l']

/-- serde_json `ser.rs`, `serialize_struct_variant` and two fields, `CompactFormatter`. -/
def variantText (name k x k' y : List Char) : List Char :=
  '{' :: (strText name ++ ':' :: '{' :: (strText k ++ ':' :: (x ++ ',' :: (strText k' ++ ':' :: (y ++ ['}', '}'])))))

/-- `serde_json::to_string(&imaginary)`. -/
def toJsonText : Imaginary → Out IntegerSerError (List Char)
  | cartesian re im => do
    let r ← re.toJsonText
    let i ← im.toJsonText
    return variantText kCartesian Value.kReal r Value.kImaginary i
  | polar m a => .ok (variantText kPolar Value.kModulus (floatFieldText m) Value.kArgument (floatFieldText a))

/-- serde_json `de.rs`, `deserialize_number` (and `deserialize_any` where the visitor takes numbers only). -/
def numberField (cs : List Char) : Option (SJNumber × List Char) :=
  match skip cs with
  | [] => none
  | c :: rest =>
    if c = '-' then number false rest
    else if (digitOf c).isSome then number true (c :: rest)
    else none

/-- A field of type `Integer`: integer.rs L525-610. -/
def intFieldOf (cs : List Char) : Option (Integer × List Char) :=
  match numberField cs with
  | none => none
  | some (n, rest) => (readInt (.number n)).map (·, rest)

/-- A field of type `f64`. -/
def floatFieldOf (cs : List Char) : Option (UInt64 × List Char) :=
  match numberField cs with
  | none => none
  | some (n, rest) => (readFloat (.number n)).map (·, rest)

section

variable {α : Type} (read : List Char → Option (α × List Char)) (ignore : List Char → Option (List Char))

/-- The derived `visit_map` with serde_json's `MapAccess` and `end_map`: each member goes to the field of its name, a
second one of the same name is an error, and so is a missing one. -/
def members (k k' : List Char) : Nat → Bool → Option α → Option α → List Char → Option ((α × α) × List Char)
  | 0, _, _, _, _ => none
  | fuel + 1, first, x, y, cs =>
    match skip cs with
    | [] => none
    | c :: rest =>
      if c = '}' then
        match x, y with
        | some a, some b => some ((a, b), rest)
        | _, _ => none
      else
        let start := if first then some (c :: rest)
          else if c = ',' then some (skip rest)
          else none
        match start with
        | none => none
        | some [] => none
        | some (c :: cs) =>
          if c = '"' then
            match str (cs.length + 1) cs with
            | none => none
            | some (name, cs) =>
              match colon cs with
              | none => none
              | some cs =>
                if name = k then
                  match x with
                  | some _ => none
                  | none =>
                    match read cs with
                    | none => none
                    | some (a, cs) => members k k' fuel false (some a) y cs
                else if name = k' then
                  match y with
                  | some _ => none
                  | none =>
                    match read cs with
                    | none => none
                    | some (b, cs) => members k k' fuel false x (some b) cs
                else
                  match ignore cs with
                  | none => none
                  | some cs => members k k' fuel false x y cs
          else none

/-- The derived `visit_seq` with serde_json's `SeqAccess` and `end_seq`: two elements in the order of the
declaration. -/
def two (cs : List Char) : Option ((α × α) × List Char) :=
  match skip cs with
  | [] => none
  | c :: rest =>
    if c = ']' then none
    else
      match read (c :: rest) with
      | none => none
      | some (a, cs) =>
        match skip cs with
        | [] => none
        | c :: rest =>
          if c = ',' then
            match skip rest with
            | [] => none
            | c :: rest =>
              if c = ']' then none
              else
                match read (c :: rest) with
                | none => none
                | some (b, cs) =>
                  match skip cs with
                  | [] => none
                  | c :: rest => if c = ']' then some ((a, b), rest) else none
          else none

/-- serde_json `de.rs`, `deserialize_struct`. -/
def fieldsOf (k k' : List Char) (cs : List Char) : Option ((α × α) × List Char) :=
  match skip cs with
  | [] => none
  | c :: rest =>
    if c = '[' then two read rest
    else if c = '{' then members read ignore k k' (rest.length + 1) true none none rest
    else none

end

/-- serde_json `de.rs`, `deserialize_enum`: behind the opening brace, the name of the variant, a colon and the fields. A
string in place of the object would be a variant without fields, which there is none. -/
def variantOf (ignore : List Char → Option (List Char)) (cs : List Char) : Option (Imaginary × List Char) :=
  match skip cs with
  | [] => none
  | c :: rest =>
    if c = '"' then
      match str (rest.length + 1) rest with
      | none => none
      | some (name, cs) =>
        if name = kCartesian then
          match colon cs with
          | none => none
          | some cs => (fieldsOf intFieldOf ignore Value.kReal Value.kImaginary cs).map fun r => (.cartesian r.1.1 r.1.2, r.2)
        else if name = kPolar then
          match colon cs with
          | none => none
          | some cs => (fieldsOf floatFieldOf ignore Value.kModulus Value.kArgument cs).map fun r => (.polar r.1.1 r.1.2, r.2)
        else none
    else none

/-- `serde_json::from_str::<Imaginary>`. -/
def ofJsonText (ignore : List Char → Option (List Char)) (s : List Char) : Option Imaginary :=
  match skip s with
  | [] => none
  | c :: rest =>
    if c = '{' then
      match variantOf ignore rest with
      | none => none
      | some (z, cs) =>
        match skip cs with
        | [] => none
        | c :: rest => if c = '}' ∧ (skip rest).isEmpty then some z else none
    else none

end Souris.Imaginary
