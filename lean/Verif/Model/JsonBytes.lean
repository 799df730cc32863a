import Verif.Model.JsonText
import Verif.Model.StoreSerde

/-!
# JSON from bytes

External code: serde_json 1.0.129, `from_slice::<Value>` with `SliceRead`, which store.rs L143 (`from_json_bytes`)
and the clients (through reqwest and ureq) call on bytes that nobody has checked to be UTF-8. The reader goes byte by
byte. Outside of strings it compares bytes with ASCII characters only. The bytes of a string are gathered as they
are, an escape adds the UTF-8 bytes of its character, and at the closing quote the whole is checked to be UTF-8.

A byte is written as the character with its number, so that the functions of `Model/JsonText.lean` that look at
ASCII characters only serve for bytes as they are.
-/

namespace Souris

namespace SerdeJson

/-- Bytes as characters with the same numbers. -/
def latin (b : List UInt8) : List Char := b.map fun x => Char.ofNat x.toNat

/-- serde_json `read.rs`, `SliceRead::parse_str_bytes` with `as_str` as the `result`, behind the opening quote;
`scratch` are the bytes gathered so far. -/
def strBytes : Nat → List UInt8 → List Char → Option (List Char × List Char)
  | 0, _, _ => none
  | _ + 1, _, [] => none
  | fuel + 1, scratch, c :: rest =>
    if c = '"' then (utf8Decode scratch).map (·, rest)
    else if c = '\\' then
      match escape rest with
      | none => none
      | some (x, rest) => strBytes fuel (scratch ++ String.utf8EncodeChar x) rest
    else if c.toNat < 32 then none
    else strBytes fuel (scratch ++ [UInt8.ofNat c.toNat]) rest

mutual
/-- serde_json `de.rs`, `deserialize_any` with the visitor of `Value`, on bytes. -/
def valueBytes : Nat → Nat → List Char → Option (SJValue × List Char)
  | 0, _, _ => none
  | fuel + 1, depth, cs =>
    match skip cs with
    | [] => none
    | c :: rest =>
      if c = 'n' then (ident ['u', 'l', 'l'] rest).map (SJValue.null, ·)
      else if c = 't' then (ident ['r', 'u', 'e'] rest).map (SJValue.bool true, ·)
      else if c = 'f' then (ident ['a', 'l', 's', 'e'] rest).map (SJValue.bool false, ·)
      else if c = '-' then (number false rest).map fun r => (.number r.1, r.2)
      else if (digitOf c).isSome then (number true (c :: rest)).map fun r => (.number r.1, r.2)
      else if c = '"' then (strBytes (rest.length + 1) [] rest).map fun r => (.string r.1, r.2)
      else if c = '[' then
        if depth ≤ 1 then none
        else (elementsBytes fuel (depth - 1) true rest).map fun r => (.array r.1, r.2)
      else if c = '{' then
        if depth ≤ 1 then none
        else (entriesBytes fuel (depth - 1) true rest).map fun r =>
          (.object (r.1.foldl (fun m e => SJValue.insert e.1 e.2 m) []), r.2)
      else none

/-- serde_json `de.rs`, `SeqAccess::next_element_seed` until it returns `None`, and `end_seq`, on bytes. -/
def elementsBytes : Nat → Nat → Bool → List Char → Option (List SJValue × List Char)
  | 0, _, _, _ => none
  | fuel + 1, depth, first, cs =>
    match skip cs with
    | [] => none
    | c :: rest =>
      if c = ']' then some ([], rest)
      else
        let start := if first then some (c :: rest)
          else if c = ',' then
            match skip rest with
            | [] => none
            | c' :: rest' => if c' = ']' then none else some (c' :: rest')
          else none
        match start with
        | none => none
        | some cs =>
          match valueBytes fuel depth cs with
          | none => none
          | some (v, cs) => (elementsBytes fuel depth false cs).map fun r => (v :: r.1, r.2)

/-- serde_json `de.rs`, `MapAccess::next_key_seed` and `next_value_seed` until there are no more, and `end_map`,
on bytes. -/
def entriesBytes : Nat → Nat → Bool → List Char → Option (List (List Char × SJValue) × List Char)
  | 0, _, _, _ => none
  | fuel + 1, depth, first, cs =>
    match skip cs with
    | [] => none
    | c :: rest =>
      if c = '}' then some ([], rest)
      else
        let start := if first then some (c :: rest)
          else if c = ',' then some (skip rest)
          else none
        match start with
        | none => none
        | some [] => none
        | some (c :: cs) =>
          if c = '"' then
            match strBytes (cs.length + 1) [] cs with
            | none => none
            | some (k, cs) =>
              match colon cs with
              | none => none
              | some cs =>
                match valueBytes fuel depth cs with
                | none => none
                | some (v, cs) => (entriesBytes fuel depth false cs).map fun r => ((k, v) :: r.1, r.2)
          else none
end

/-- serde_json `de.rs`, `from_slice::<Value>`. -/
def parseBytes (b : List UInt8) : Option SJValue :=
  match valueBytes (2 * b.length + 1) 128 (latin b) with
  | none => none
  | some (v, rest) => if (skip rest).isEmpty then some v else none

end SerdeJson

/-- store.rs L142-145: `from_json_bytes`, on bytes. -/
def Store.fromJsonSlice (env : Env) (b : List UInt8) : Out StoreBytesError Store :=
  match SerdeJson.parseBytes b with
  | none => .err .serdeJson
  | some v =>
    match fromJson env v with
    | .err e => .err (.store e)
    | .panic p => .panic p
    | .ok s => .ok s

end Souris
