import Verif.Model.Store

/-!
# Stores for any serde type: store.rs L138-161

What `#[derive(Serialize, Deserialize)]` makes of a type `T` is a parameter: the functions
`serde_json::to_value` and `serde_json::from_value` at that type, where `none` is their error.
-/

namespace Souris

/-- `serde_json::to_value` and `serde_json::from_value` at a type. -/
structure SerdeType (T : Type) where
  toValue : T → Option SJValue
  ofValue : SJValue → Option T

/-- store.rs L223-236, with the two errors that only these functions construct. -/
inductive StoreBytesError
  | store (e : StoreSerError)
  | serdeJson
  | unableToConvertToJson
deriving DecidableEq, Repr

namespace Store

/-- store.rs L156-161: `to_bytes`. -/
def toBytes (env : Env) {T : Type} (S : SerdeType T) (t : T) : Out StoreBytesError (List UInt8) :=
  match S.toValue t with
  | none => .err .serdeJson
  | some v =>
    match fromJson env v with
    | .err e => .err (.store e)
    | .panic p => .panic p
    | .ok s =>
      match ser env s with
      | .ok b => .ok b
      | .panic p => .panic p

/-- store.rs L150-153: the end of `from_bytes`. -/
def toType (env : Env) {T : Type} (S : SerdeType T) (s : Store) : Out StoreBytesError T :=
  match toJson env false s with
  | none => .err .unableToConvertToJson
  | some v =>
    match S.ofValue v with
    | none => .err .serdeJson
    | some t => .ok t

/-- store.rs L148-154: `from_bytes`. -/
def fromBytes (env : Env) {T : Type} (S : SerdeType T) (bytes : List UInt8) : Out StoreBytesError T :=
  match deser env bytes with
  | .err e => .err (.store e)
  | .panic p => .panic p
  | .ok s => toType env S s

/-- store.rs L142-145: `from_json_bytes`, on the characters of the text. -/
def fromJsonBytes (env : Env) (text : List Char) : Out StoreBytesError Store :=
  match env.jsonParse text with
  | none => .err .serdeJson
  | some v =>
    match fromJson env v with
    | .err e => .err (.store e)
    | .panic p => .panic p
    | .ok s => .ok s

end Store

end Souris
