import Verif.Model.ValueJson

/-!
# `Store` (crates/sourisdb/src/store.rs)

A `Store` is a `HashMap<String, Value>`: the list of its entries in the order of iteration, as in the
model of values. `Deref` to the map is not modelled, `Display` is in `Model/Display.lean`; `from_bytes`, `to_bytes` and
`from_json_bytes` (L138-161) are in `Model/StoreSerde.lean`.
-/

namespace Souris

/-- store.rs L223-236. `SerdeJson`, `UnableToConvertToJson`, `UnsupportedCompression` and `Integer` are
not constructed by the functions below. -/
inductive StoreSerError
  | expectedMap (t : ValueTy)
  | expectedMagicBytes
  | notEnoughBytes
  | value (e : ValueSerError)
  | huffman (e : HuffmanSerError)
  | binary (e : BinarySerError)
deriving DecidableEq, Repr

/-- store.rs L33-34. -/
abbrev Store : Type := List (List Char × Value)

theorem Value.sizeOf_array (a : List Value) : (a.map sizeOf).sum < sizeOf (Value.array a) := by
  have : ∀ a : List Value, (a.map sizeOf).sum ≤ sizeOf a := by
    intro a
    induction a with
    | nil => simp
    | cons x xs ih => simp only [List.map_cons, List.sum_cons, List.cons.sizeOf_spec]; omega
  have := this a
  simp only [Value.array.sizeOf_spec]
  omega

theorem Value.sizeOf_map (m : List (List Char × Value)) :
    ((m.map Prod.snd).map sizeOf).sum < sizeOf (Value.map m) := by
  have : ∀ m : List (List Char × Value), ((m.map Prod.snd).map sizeOf).sum ≤ sizeOf m := by
    intro m
    induction m with
    | nil => simp
    | cons x xs ih =>
      obtain ⟨k, v⟩ := x
      simp only [List.map_cons, List.sum_cons, List.cons.sizeOf_spec, Prod.mk.sizeOf_spec]
      omega
  have := this m
  simp only [Value.map.sizeOf_spec]
  omega

namespace Store

/-- store.rs L37-39: `new`. -/
def new (env : Env) (items : List (List Char × Value)) : Store := env.mapOrd (Value.collectMap items)

/-- store.rs L49-68: the text that one value contributes, and the values that are pushed for later. -/
def textOf (env : Env) : Value → List Char × List Value
  | .map m => (m.flatMap Prod.fst, m.map Prod.snd)
  | .array a => ([], a)
  | .json j => (env.jsonPrint j, [])
  | .timezone n => (n, [])
  | .string s => (s, [])
  | _ => ([], [])

theorem textOf_size (env : Env) (v : Value) : ((textOf env v).2.map sizeOf).sum < sizeOf v := by
  cases v with
  | map m => exact Value.sizeOf_map m
  | array a => exact Value.sizeOf_array a
  | _ => simp [textOf] <;> omega

/-- store.rs L44-71: the loop that collects the text of the values on a stack (top first). Values are
pushed in order of iteration, so the last one is on top. -/
def allText (env : Env) : List Value → List Char
  | [] => []
  | v :: stack => (textOf env v).1 ++ allText env ((textOf env v).2.reverse ++ stack)
termination_by stack => (stack.map sizeOf).sum
decreasing_by
  have := textOf_size env v
  simp only [List.map_append, List.map_reverse, List.sum_append, List.sum_reverse, List.map_cons, List.sum_cons]
  omega

/-- `b"SOURISDB"` -/
def magic : List UInt8 := [0x53, 0x4F, 0x55, 0x52, 0x49, 0x53, 0x44, 0x42]

/-- store.rs L42-95: `ser`. -/
def ser (env : Env) (s : Store) : Out Empty (List UInt8) := do
  let rawMap := Value.map s
  let (huffmanExists, res) ←
    match Huffman.new env.charOrd (allText env [rawMap]) with
    | .ok h => do
      let map ← Value.ser env (some h) rawMap
      pure (true, h.serChar ++ map)
    | .err _ => do
      let map ← Value.ser env none rawMap
      pure (false, map)
    | .panic p => .panic p
  let (compressionType, compressed) ← Binary.ser env.lz env.byteOrd res
  let magicTy : UInt8 := ((if huffmanExists then (1 : UInt8) else 0) <<< 7) ||| compressionType.toByte
  return magic ++ magicTy :: compressed

/-- store.rs L192-202: `TryFrom<Value> for Store`. -/
def ofValue : Value → Out StoreSerError Store
  | .map m => .ok m
  | v => .err (.expectedMap v.asTy)

/-- store.rs L123-127: the coder, when there is one. -/
def deserCoder (isHuffmanEncoded : Bool) : Parser StoreSerError (Option (Huffman Char)) :=
  if isHuffmanEncoded then do
    let h ← Huffman.deserChar.mapErr .huffman
    return some h
  else return none

/-- store.rs L121-129: the value, from the decompressed bytes. `Cursor::new(&bytes)` takes what the
cursor has left. -/
def deserValue (env : Env) (isHuffmanEncoded : Bool) (bytes : List UInt8) : Out StoreSerError Value := do
  let (huffman, c) ← deserCoder isHuffmanEncoded (Cursor.new bytes)
  let (val, _) ← (Value.deser env huffman (Cursor.new c.asRef)).mapErr .value
  return val

/-- store.rs L114-135: what follows the magic bytes. -/
def deserRest (env : Env) : Parser StoreSerError Store := do
  let compression ← Parser.next .notEnoughBytes
  let ty ← (Parser.lift (BinaryCompression.ofByte (compression &&& 0b01111111))).mapErr .binary
  let bytes ← (Binary.deser env.lz ty).mapErr .binary
  let val ← Parser.lift (deserValue env (compression &&& 0b10000000 ≠ 0) bytes)
  Parser.lift (ofValue val)

/-- store.rs L104-135: `deser`. -/
def deser (env : Env) (bytes : List UInt8) : Out StoreSerError Store :=
  match (Cursor.new bytes).read 8 with
  | (none, _) => .err .notEnoughBytes
  | (some magicBytes, c) =>
    if magicBytes ≠ magic then .err .expectedMagicBytes
    else
      match deserRest env c with
      | .ok (s, _) => .ok s
      | .err e => .err e
      | .panic p => .panic p

/-- `"JSON"` -/
def kJson : List Char := ['J', 'S', 'O', 'N']

/-- store.rs L165-178: `to_json`. -/
def toJson (env : Env) (types : Bool) (s : Store) : Option SJValue :=
  match (if s.length = 1 then SJValue.get kJson s else none) with
  | some v => Value.toJson env types v
  | none => (Value.toJsonEntries env types s).map fun es => .object (SJValue.collect es)

/-- store.rs L180-189: `from_json`. -/
def fromJson (env : Env) (j : SJValue) : Out StoreSerError Store :=
  match Value.fromJson env j with
  | .ok (.map m) => .ok m
  | .ok v => .ok [(kJson, v)]
  | .err e => .err (.value e)
  | .panic p => .panic p

end Store

end Souris
