import Verif.Model.Binary
import Verif.Model.Imaginary
import Verif.Model.Json

/-!
# `Value` (crates/sourisdb/src/values.rs)

A `String` is the list of its characters; its bytes are its UTF-8 encoding. A float is its bit pattern.
A `HashMap` is the list of its entries in the order in which it iterates over them; operations that
build a map choose that order with the parameter `mapOrd`. The parameters that stand for external code
are collected in `Env`.
-/

namespace Souris

/-- chrono's `NaiveDateTime`, by its fields; `nano` is `nanosecond()`, which is 10^9 or more inside a
leap second. -/
structure Timestamp where
  year : Int
  month : Nat
  day : Nat
  hour : Nat
  minute : Nat
  sec : Nat
  nano : Nat
deriving DecidableEq, Repr

namespace Timestamp

/-- Gregorian leap years. -/
def isLeap (y : Int) : Bool := y % 4 = 0 ∧ (y % 100 ≠ 0 ∨ y % 400 = 0)

/-- Days of a month. -/
def daysIn (y : Int) (m : Nat) : Nat :=
  if m = 2 then (if isLeap y then 29 else 28)
  else if m = 4 ∨ m = 6 ∨ m = 9 ∨ m = 11 then 30 else 31

/-- chrono 0.4.38: does `NaiveDate::from_ymd_opt` return a date? -/
def dateOk (y : Int) (m d : Nat) : Bool :=
  -262143 ≤ y ∧ y ≤ 262142 ∧ 1 ≤ m ∧ m ≤ 12 ∧ 1 ≤ d ∧ d ≤ daysIn y m

/-- chrono 0.4.38: does `NaiveTime::from_hms_nano_opt` return a time? -/
def timeOk (h m s n : Nat) : Bool :=
  h < 24 ∧ m < 60 ∧ s < 60 ∧ n < 2000000000 ∧ (1000000000 ≤ n → s = 59)

end Timestamp

/-- values.rs L60-101. -/
inductive Value
  | character (c : Char)
  | string (s : List Char)
  | binary (b : List UInt8)
  | boolean (b : Bool)
  | integer (i : Integer)
  | imaginary (z : Imaginary)
  | timestamp (t : Timestamp)
  | json (j : SJValue)
  | null
  | single (bits : UInt32)
  | double (bits : UInt64)
  | array (a : List Value)
  | map (m : List (List Char × Value))
  | timezone (name : List Char)
  | ipv4 (a b c d : UInt8)
  | ipv6 (a b c d e f g h : UInt16)

/-- values.rs L374-391. -/
inductive ValueTy
  | character | string | binary | boolean | integer | imaginary | timestamp | json | null
  | doubleFloat | array | map | timezone | ipv4Addr | ipv6Addr | singleFloat
deriving DecidableEq, Repr

/-- values.rs L490-499. -/
inductive DeserStateError
  | invalidStackAfterValue
  | foundKeyValueWithoutMap
  | shouldOnlyComeAfterFoundValue
  | emptyStack
deriving DecidableEq, Repr

/-- values.rs L509-516. -/
inductive InvalidSourisTypeError
  | notFound
  | invalidData
  | noSourisTypeApplicable
deriving DecidableEq, Repr

/-- values.rs L443-487. Errors of external libraries carry no payload; `SerdeCustom` belongs to the
serde glue, which is not modelled. -/
inductive ValueSerError
  | invalidType (b : UInt8)
  | integer (e : IntegerSerError)
  | notEnoughBytes
  | invalidCharacter
  | nonUtf8String
  | serdeJson
  | unexpectedValueType (found expected : ValueTy)
  | tzError
  | invalidDateOrTime
  | noHuffman
  | binary (e : BinarySerError)
  | huffman (e : HuffmanSerError)
  | invalidSourisType (found : ValueTy) (cause : InvalidSourisTypeError)
  | invalidDeserialisation (e : DeserStateError)
deriving DecidableEq, Repr

/-- External code and run-time choices that values depend on. -/
structure Env where
  /-- lz4_flex -/
  lz : Lz
  /-- iteration order of the maps that build byte and character Huffman trees -/
  byteOrd : List (Node UInt8 × Nat) → List (Node UInt8 × Nat)
  charOrd : List (Node Char × Nat) → List (Node Char × Nat)
  /-- iteration order of a `HashMap<String, Value>` built from these entries -/
  mapOrd : List (List Char × Value) → List (List Char × Value)
  /-- serde_json's `to_string`, `to_string_pretty` and `from_str` -/
  jsonPrint : SJValue → List Char
  jsonPretty : SJValue → List Char
  jsonParse : List Char → Option SJValue
  /-- the names of chrono-tz's timezones (`Tz::from_str` succeeds exactly on them) -/
  tzNames : List (List Char)
  /-- chrono's `Display` and `FromStr` of `NaiveDateTime` -/
  tsPrint : Timestamp → List Char
  tsParse : List Char → Option Timestamp
  /-- largest capacities accepted by `Vec::<Value>::with_capacity` and
  `HashMap::<String, Value>::with_capacity` -/
  arrayCapMax : Nat
  mapCapMax : Nat

namespace ValueTy

/-- values.rs L393-414: `From<ValueTy> for u8`. -/
def toU8 : ValueTy → UInt8
  | character => 0
  | string => 1
  | binary => 2
  | boolean => 3
  | integer => 4
  | imaginary => 5
  | timestamp => 6
  | json => 7
  | map => 8
  | null => 9
  | doubleFloat => 10
  | array => 11
  | timezone => 12
  | ipv4Addr => 13
  | ipv6Addr => 14
  | singleFloat => 15

/-- values.rs L415-439: `TryFrom<u8> for ValueTy`. -/
def ofU8 (b : UInt8) : Out ValueSerError ValueTy :=
  if b = 0 then .ok character
  else if b = 1 then .ok string
  else if b = 2 then .ok binary
  else if b = 3 then .ok boolean
  else if b = 4 then .ok integer
  else if b = 5 then .ok imaginary
  else if b = 6 then .ok timestamp
  else if b = 7 then .ok json
  else if b = 8 then .ok map
  else if b = 9 then .ok null
  else if b = 10 then .ok doubleFloat
  else if b = 11 then .ok array
  else if b = 12 then .ok timezone
  else if b = 13 then .ok ipv4Addr
  else if b = 14 then .ok ipv6Addr
  else if b = 15 then .ok singleFloat
  else .err (.invalidType b)

end ValueTy

/-- `String::as_bytes`. -/
def utf8 (s : List Char) : List UInt8 := s.flatMap String.utf8EncodeChar

/-- `String::from_utf8`. -/
def utf8Decode (bs : List UInt8) : Option (List Char) :=
  (ByteArray.mk bs.toArray).utf8Decode?.map Array.toList

namespace Value

/-- values.rs L930-949: `as_ty`. -/
def asTy : Value → ValueTy
  | character _ => .character
  | string _ => .string
  | binary _ => .binary
  | boolean _ => .boolean
  | integer _ => .integer
  | imaginary _ => .imaginary
  | timestamp _ => .timestamp
  | json _ => .json
  | null => .null
  | single _ => .singleFloat
  | double _ => .doubleFloat
  | array _ => .array
  | map _ => .map
  | timezone _ => .timezone
  | ipv4 .. => .ipv4Addr
  | ipv6 .. => .ipv6Addr

/-! ## Serialisation -/

/-- values.rs L985 with the flags `ty |= ..`: the type byte. -/
def tyByte (t : ValueTy) (flags : UInt8) : UInt8 := (t.toU8 <<< 4) ||| flags

/-- values.rs L994-1011: a string. `huffman.and_then(|x| x.encode_string(s).ok())` turns an error into
the plain form. -/
def serString (h : Option (Huffman Char)) (s : List Char) : Out Empty (List UInt8) :=
  let plain := tyByte .string 0 :: ((Integer.ofUnsigned 8 (utf8 s).length).ser.2 ++ utf8 s)
  match h with
  | none => .ok plain
  | some h =>
    match h.encode s with
    | .ok bits => do
      let sered ← bits.ser
      return tyByte .string 1 :: sered
    | .err _ => .ok plain
    | .panic p => .panic p

/-- values.rs L1078-1088 and L1095-1106: type byte and length of a map or an array. -/
def serLen (t : ValueTy) (len : Nat) : List UInt8 :=
  if len < 7 then [tyByte t (UInt8.ofNat len <<< 1)]
  else tyByte t 1 :: (Integer.ofUnsigned 8 len).ser.2

/-- `u16::to_le_bytes`. -/
def le16 (x : UInt16) : List UInt8 := leBytes 2 x.toNat

/-- values.rs L1039-1062: a timestamp. -/
def serTimestamp (t : Timestamp) : List UInt8 :=
  let year := (Integer.ofSigned 4 t.year).ser
  tyByte .timestamp year.1.toU8 :: (year.2 ++ ((Integer.ofUnsigned 4 t.month).ser.2 ++
    ((Integer.ofUnsigned 4 t.day).ser.2 ++ ((Integer.ofUnsigned 4 t.hour).ser.2 ++
    ((Integer.ofUnsigned 4 t.minute).ser.2 ++ ((Integer.ofUnsigned 4 t.sec).ser.2 ++
    (Integer.ofUnsigned 4 t.nano).ser.2))))))

mutual
/-- values.rs L982-1128: `ser`. -/
def ser (env : Env) (h : Option (Huffman Char)) : Value → Out Empty (List UInt8)
  | character ch => .ok (tyByte .character 0 :: (Integer.ofUnsigned 4 ch.toNat).ser.2)
  | string s => serString h s
  | binary b => do
    let (ct, bytes) ← Binary.ser env.lz env.byteOrd b
    return tyByte .binary ct.toByte :: bytes
  | boolean b => .ok [tyByte .boolean (if b then 1 else 0)]
  | integer i => .ok (tyByte .integer i.ser.1.toU8 :: i.ser.2)
  | imaginary z => .ok (tyByte .imaginary z.ser.1 :: z.ser.2)
  | timestamp t => .ok (serTimestamp t)
  | json j => do
    let s ← serString h (env.jsonPrint j)
    return tyByte .json 0 :: s
  | null => .ok [tyByte .null 0]
  | single bits => .ok (tyByte .singleFloat 0 :: leBytes 4 bits.toNat)
  | double bits => .ok (tyByte .doubleFloat 0 :: leBytes 8 bits.toNat)
  | map m => do
    let rest ← serEntries env h m
    return serLen .map m.length ++ rest
  | array a => do
    let rest ← serList env h a
    return serLen .array a.length ++ rest
  | timezone name => do
    let s ← serString h name
    return tyByte .timezone 0 :: s
  | ipv4 a b c d => .ok [tyByte .ipv4Addr 0, a, b, c, d]
  | ipv6 a b c d e f g i => .ok (tyByte .ipv6Addr 0 :: (le16 a ++ (le16 b ++ (le16 c ++ (le16 d ++
      (le16 e ++ (le16 f ++ (le16 g ++ le16 i))))))))

/-- values.rs L1108-1110. -/
def serList (env : Env) (h : Option (Huffman Char)) : List Value → Out Empty (List UInt8)
  | [] => .ok []
  | v :: vs => do
    let b ← ser env h v
    let bs ← serList env h vs
    return b ++ bs

/-- values.rs L1090-1093. -/
def serEntries (env : Env) (h : Option (Huffman Char)) :
    List (List Char × Value) → Out Empty (List UInt8)
  | [] => .ok []
  | (k, v) :: vs => do
    let kb ← serString h k
    let b ← ser env h v
    let bs ← serEntries env h vs
    return kb ++ (b ++ bs)
end

/-! ## Deserialisation -/

/-- `Integer::deser(ss, bytes)?`. -/
def intP (ss : SignedState) : Parser ValueSerError Integer := (Integer.deser ss).mapErr .integer

/-- `Integer::deser(Unsigned, bytes)?.try_into()?` at the unsigned type of `k` bytes. -/
def uintP (k : Nat) : Parser ValueSerError Nat := do
  let i ← intP .unsigned
  (Parser.lift (i.toUnsigned k)).mapErr .integer

/-- values.rs L952-976: `deser_array_or_map_len`. -/
def lenP (byte : UInt8) (expected : ValueTy) : Parser ValueSerError Nat := do
  let ty ← Parser.lift (ValueTy.ofU8 ((byte &&& 0b11110000) >>> 4))
  if ty = expected then
    if byte &&& 1 > 0 then uintP 8
    else return ((byte &&& 0b00001110) >>> 1).toNat
  else Parser.fail (.unexpectedValueType ty expected)

/-- values.rs L1164-1180: `parse_string`. -/
def parseString (h : Option (Huffman Char)) (byte : UInt8) : Parser ValueSerError (List Char) :=
  if byte &&& 1 > 0 then
    match h with
    | none => Parser.fail .noHuffman
    | some h => do
      let bits ← Bits.deser.mapErr .integer
      (Parser.lift (h.decode bits)).mapErr .huffman
  else do
    let len ← uintP 8
    let bs ← Parser.read .notEnoughBytes len
    Parser.lift (Out.ofOption .nonUtf8String (utf8Decode bs))

/-- values.rs L1200-1201: `char::from_u32(..).ok_or(InvalidCharacter)`. -/
def charOf (n : Nat) : Out ValueSerError Char :=
  if h : n.isValidChar then .ok (Char.ofNatAux n h) else .err .invalidCharacter

/-- values.rs L1204-1223: a timestamp. -/
def timestampP (byte : UInt8) : Parser ValueSerError Timestamp := do
  let ss ← (Parser.lift (SignedState.ofU8 (byte &&& 3))).mapErr .integer
  let yi ← intP ss
  let year ← (Parser.lift (yi.toSigned 4)).mapErr .integer
  let month ← uintP 4
  let day ← uintP 4
  if ¬ Timestamp.dateOk year month day then Parser.fail .invalidDateOrTime
  else do
    let hour ← uintP 4
    let minute ← uintP 4
    let sec ← uintP 4
    let nano ← uintP 4
    if ¬ Timestamp.timeOk hour minute sec nano then Parser.fail .invalidDateOrTime
    else return ⟨year, month, day, hour, minute, sec, nano⟩

/-- Element `i` of a fixed-size array. -/
def at16 (bs : List UInt8) (i : Nat) : UInt16 :=
  UInt16.ofNat (ofLe [bs.getD (i * 2) 0, bs.getD (i * 2 + 1) 0])

/-- values.rs L1156-1162. -/
inductive ParseResult
  | value (v : Value)
  | newArray (len : Nat)
  | newMap (len : Nat) (byte : UInt8)
  | json
  | timezone

/-- values.rs L1182-1279: `parse_primitive`. -/
def parsePrimitive (env : Env) (h : Option (Huffman Char)) : Parser ValueSerError ParseResult := do
  let byte ← Parser.next .notEnoughBytes
  let ty ← Parser.lift (ValueTy.ofU8 ((byte &&& 0b11110000) >>> 4))
  match ty with
  | .integer => do
    let ss ← (Parser.lift (SignedState.ofU8 (byte &&& 3))).mapErr .integer
    let i ← intP ss
    return .value (.integer i)
  | .imaginary => do
    let z ← (Imaginary.deser (byte &&& 0b1111)).mapErr .integer
    return .value (.imaginary z)
  | .character => do
    let n ← uintP 4
    let ch ← Parser.lift (charOf n)
    return .value (.character ch)
  | .timestamp => do
    let t ← timestampP byte
    return .value (.timestamp t)
  | .string => do
    let s ← parseString h byte
    return .value (.string s)
  | .json => return .json
  | .binary => do
    let ct ← (Parser.lift (BinaryCompression.ofByte (byte &&& 0b1111))).mapErr .binary
    let b ← (Binary.deser env.lz ct).mapErr .binary
    return .value (.binary b)
  | .boolean => return .value (.boolean (byte &&& 1 > 0))
  | .null => return .value .null
  | .singleFloat => do
    let bs ← Parser.read .notEnoughBytes 4
    return .value (.single (UInt32.ofNat (ofLe bs)))
  | .doubleFloat => do
    let bs ← Parser.read .notEnoughBytes 8
    return .value (.double (UInt64.ofNat (ofLe bs)))
  | .map => do
    let len ← lenP byte .map
    return .newMap len byte
  | .array => do
    let len ← lenP byte .array
    return .newArray len
  | .timezone => return .timezone
  | .ipv4Addr => do
    let bs ← Parser.read .notEnoughBytes 4
    return .value (.ipv4 (bs.getD 0 0) (bs.getD 1 0) (bs.getD 2 0) (bs.getD 3 0))
  | .ipv6Addr => do
    let bs ← Parser.read .notEnoughBytes 16
    return .value (.ipv6 (at16 bs 0) (at16 bs 1) (at16 bs 2) (at16 bs 3) (at16 bs 4) (at16 bs 5)
      (at16 bs 6) (at16 bs 7))

/-- values.rs L1145-1154. -/
inductive DState
  | valueNeeded
  | foundValue (v : Value)
  | jsonNeeded
  | timezoneNeeded
  | map (soFar : List (List Char × Value)) (left : Nat) (byte : UInt8)
  | foundKey (key : List Char)
  | foundKeyValue (key : List Char) (v : Value)
  | array (soFar : List Value) (left : Nat)

/-- `HashMap::insert` on the entries. -/
def mapInsert (k : List Char) (v : Value) : List (List Char × Value) → List (List Char × Value)
  | [] => [(k, v)]
  | (k', v') :: rest => if k = k' then (k, v) :: rest else (k', v') :: mapInsert k v rest

/-- values.rs L1301-1343: `FoundValue(val)`, on the rest of the stack. Either a result or a new
stack. -/
def afterValue (env : Env) (val : Value) :
    List DState → Out ValueSerError (Value ⊕ List DState)
  | [] => .ok (.inl val)
  | .foundKey key :: stack => .ok (.inr (.foundKeyValue key val :: stack))
  | .array soFar left :: stack =>
    if left ≤ 1 then .ok (.inr (.foundValue (.array (soFar ++ [val])) :: stack))
    else .ok (.inr (.array (soFar ++ [val]) (left - 1) :: stack))
  | .jsonNeeded :: stack =>
    match val with
    | .string s =>
      match env.jsonParse s with
      | some j => .ok (.inr (.foundValue (.json j) :: stack))
      | none => .err .serdeJson
    | v => .err (.unexpectedValueType v.asTy .string)
  | .timezoneNeeded :: stack =>
    match val with
    | .string s =>
      if s ∈ env.tzNames then .ok (.inr (.foundValue (.timezone s) :: stack)) else .err .tzError
    | v => .err (.unexpectedValueType v.asTy .string)
  | .valueNeeded :: _ => .err (.invalidDeserialisation .invalidStackAfterValue)
  | .foundValue _ :: _ => .err (.invalidDeserialisation .invalidStackAfterValue)
  | .map .. :: _ => .err (.invalidDeserialisation .invalidStackAfterValue)
  | .foundKeyValue .. :: _ => .err (.invalidDeserialisation .invalidStackAfterValue)

/-- values.rs L1283-1368: one iteration of the loop: the popped state, the rest of the stack. A result or
a new stack (top first). -/
def step (env : Env) (h : Option (Huffman Char)) :
    DState → List DState → Parser ValueSerError (Value ⊕ List DState)
  | .valueNeeded, stack => do
    let r ← parsePrimitive env h
    match r with
    | .value v => return .inr (.foundValue v :: stack)
    | .newArray len =>
      if len ≤ env.arrayCapMax then return .inr (.array [] len :: stack)
      else Parser.crash .capacityOverflow
    | .newMap len byte =>
      if len ≤ env.mapCapMax then return .inr (.map [] len byte :: stack)
      else Parser.crash .capacityOverflow
    | .json => return .inr (.valueNeeded :: .jsonNeeded :: stack)
    | .timezone => return .inr (.valueNeeded :: .timezoneNeeded :: stack)
  | .foundValue val, stack => Parser.lift (afterValue env val stack)
  | .array soFar left, stack => return .inr (.valueNeeded :: .array soFar left :: stack)
  | .map soFar left byte, stack => do
    let key ← parseString h byte
    return .inr (.foundKey key :: .map soFar left byte :: stack)
  | .foundKeyValue key val, stack =>
    match stack with
    | .map soFar left byte :: stack =>
      let soFar := mapInsert key val soFar
      if left ≤ 1 then return .inr (.foundValue (.map (env.mapOrd soFar)) :: stack)
      else return .inr (.map soFar (left - 1) byte :: stack)
    | _ => Parser.fail (.invalidDeserialisation .foundKeyValueWithoutMap)
  | .foundKey _, _ => Parser.fail (.invalidDeserialisation .shouldOnlyComeAfterFoundValue)
  | .jsonNeeded, _ => Parser.fail (.invalidDeserialisation .shouldOnlyComeAfterFoundValue)
  | .timezoneNeeded, _ => Parser.fail (.invalidDeserialisation .shouldOnlyComeAfterFoundValue)

/-- The loop of values.rs L1283-1371, for at most `fuel` iterations; running out is reported as
`Panic.explicit`, which does not happen for the fuel given by `deser` (`C27_terminates`). -/
def run (env : Env) (h : Option (Huffman Char)) : Nat → List DState → Parser ValueSerError Value
  | 0, _ => Parser.crash .explicit
  | _ + 1, [] => Parser.fail (.invalidDeserialisation .emptyStack)
  | fuel + 1, st :: stack => do
    let r ← step env h st stack
    match r with
    | .inl v => return v
    | .inr stack' => run env h fuel stack'

/-- values.rs L1141-1372: `deser`. -/
def deser (env : Env) (h : Option (Huffman Char)) : Parser ValueSerError Value := fun c =>
  run env h (4 * (c.backing.length - c.pos) + 1) [.valueNeeded] c

end Value

end Souris
