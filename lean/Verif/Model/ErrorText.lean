import Verif.Model.Display
import Verif.Model.Daemon

/-!
# What errors say: `Display`, `Debug` and `Error::source`

crates/sourisdb/src/types/integer.rs, utilities/huffman.rs, types/binary.rs, values.rs, store.rs, client.rs,
axum.rs, lib.rs, crates/sourisd/src/error.rs and crates/mouse/src/main.rs. Here every variant is present.
An error of another library is represented by its text: the one `{}` gives in the functions `display`, the
one `{:?}` gives in the functions `debug`. All features are on.
-/

namespace Souris.Fault

/-- A text. -/
abbrev Text : Type := List Char

/-- `write!(f, "<s>{rest}")`. -/
def say (s : String) (rest : Text) : Text := s.toList ++ rest

/-- std: binary digits without leading zeros; `fuel` bits are enough for the number. -/
def binText : Nat → Nat → Text
  | 0, _ => []
  | fuel + 1, n => if n < 2 then [if n = 0 then '0' else '1'] else binText fuel (n / 2) ++ [if n % 2 = 0 then '0' else '1']

/-- std: `{b:#b}` of a `u8`. -/
def binByte (b : UInt8) : Text := '0' :: 'b' :: binText 8 b.toNat

/-- std: `{b}` and `{b:?}` of a `u8`. -/
def decByte (b : UInt8) : Text := natText b.toNat

/-- std: `u32::to_le_bytes`. -/
def leBytes (n : UInt32) : List UInt8 :=
  [UInt8.ofNat n.toNat, UInt8.ofNat (n.toNat / 256), UInt8.ofNat (n.toNat / 65536), UInt8.ofNat (n.toNat / 16777216)]

/-- Derived `Debug` of a variant with one field: `Name(field)`; `s` is `Name(`. -/
def wrap (s : String) (field : Text) : Text := say s (field ++ [')'])

/-! ## The types -/

/-- integer.rs L641-655. -/
inductive IntegerErr
  | invalidSignedStateDiscriminant (b : UInt8)
  | notEnoughBytes
  | tooBigToFit
  | signError
  | integerParseError (e : Text)
  | serdeCustom (s : Text)
deriving DecidableEq

/-- huffman.rs L212-227. -/
inductive HuffmanErr
  | invalidCharacter (n : UInt32)
  | integer (e : IntegerErr)
  | notEnoughBytes
  | invalidNodeFormat (ex : Char) (found : UInt8)
  | invalidDiscriminant (b : UInt8)
  | unableToCode
  | unableToCreateNodeTree
deriving DecidableEq

/-- binary.rs L60-67. -/
inductive BinaryErr
  | noCompressionTypeFound (v : UInt8)
  | integer (e : IntegerErr)
  | notEnoughBytes
  | lzFlex (e : Text)
  | huffman (e : HuffmanErr)
deriving DecidableEq

/-- values.rs L443-487. -/
inductive ValueErr
  | invalidType (b : UInt8)
  | integer (e : IntegerErr)
  | notEnoughBytes
  | invalidCharacter
  | nonUtf8String (e : Text)
  | serdeJson (e : Text)
  | unexpectedValueType (found expected : ValueTy)
  | tzError (e : Text)
  | invalidDateOrTime
  | serdeCustom (s : Text)
  | noHuffman
  | binary (e : BinaryErr)
  | huffman (e : HuffmanErr)
  | invalidSourisType (found : ValueTy) (cause : InvalidSourisTypeError)
  | invalidDeserialisation (e : DeserStateError)
deriving DecidableEq

/-- store.rs L223-236. -/
inductive StoreErr
  | expectedMap (t : ValueTy)
  | expectedMagicBytes
  | notEnoughBytes
  | value (e : ValueErr)
  | integer (e : IntegerErr)
  | serdeJson (e : Text)
  | unableToConvertToJson
  | unsupportedCompression (b : UInt8)
  | huffman (e : HuffmanErr)
  | binary (e : BinaryErr)
deriving DecidableEq

/-- client.rs L57-81; a `StatusCode` is a number with three digits. -/
inductive ClientErr
  | ureq (e : Text)
  | reqwest (e : Text)
  | store (e : StoreErr)
  | value (e : ValueErr)
  | httpErrorCode (code : Nat)
  | io (e : Text)
  | invalidStatusCode (e : Text)
  | serverNotHealthy (code : Nat)
  | serdeJson (e : Text)
deriving DecidableEq

/-- axum.rs L93-101. -/
inductive RejectionErr
  | couldNotGetBytes (e : Text)
  | value (e : ValueErr)
  | store (e : StoreErr)
deriving DecidableEq

/-- error.rs L12-22. -/
inductive ServerErr
  | io (e : Text)
  | databaseNotFound
  | keyNotFound
  | storeError (e : StoreErr)
  | valueError (e : ValueErr)
  | invalidDatabaseName
  | integerSerError (e : IntegerErr)
deriving DecidableEq

/-- mouse/main.rs L62-71. -/
inductive MouseErr
  | io (e : Text)
  | dialoguer (e : Text)
  | serdeJson (e : Text)
  | value (e : ValueErr)
  | store (e : StoreErr)
  | noDatabasesFound
  | client (e : ClientErr)
deriving DecidableEq

/-! ## `Debug` of the enumerations without fields -/

/-- values.rs L373-391, derived. -/
def tyName : ValueTy → Text
  | .character => "Character".toList
  | .string => "String".toList
  | .binary => "Binary".toList
  | .boolean => "Boolean".toList
  | .integer => "Integer".toList
  | .imaginary => "Imaginary".toList
  | .timestamp => "Timestamp".toList
  | .json => "JSON".toList
  | .null => "Null".toList
  | .doubleFloat => "DoubleFloat".toList
  | .array => "Array".toList
  | .map => "Map".toList
  | .timezone => "Timezone".toList
  | .ipv4Addr => "Ipv4Addr".toList
  | .ipv6Addr => "Ipv6Addr".toList
  | .singleFloat => "SingleFloat".toList

/-- values.rs L507-516, derived. -/
def causeName : InvalidSourisTypeError → Text
  | .notFound => "NotFound".toList
  | .invalidData => "InvalidData".toList
  | .noSourisTypeApplicable => "NoSourisTypeApplicable".toList

/-- values.rs L489-499, derived. -/
def stateName : DeserStateError → Text
  | .invalidStackAfterValue => "InvalidStackAfterValue".toList
  | .foundKeyValueWithoutMap => "FoundKeyValueWithoutMap".toList
  | .shouldOnlyComeAfterFoundValue => "ShouldOnlyComeAfterFoundValue".toList
  | .emptyStack => "EmptyStack".toList

/-! ## `Display` -/

/-- integer.rs L663-681. -/
def IntegerErr.display : IntegerErr → Text
  | invalidSignedStateDiscriminant b => say "Invalid signed state discriminant found: " (binByte b)
  | notEnoughBytes => say "Not enough bytes provided" []
  | tooBigToFit => say "Attempted to deserialise into size too small to fit" []
  | signError => say "Tried to fit integer into incorrect sign" []
  | integerParseError e => say "Error parsing from base-10 string: " e
  | serdeCustom s => say "Error in serde: " s

/-- huffman.rs L235-262. -/
def HuffmanErr.display : HuffmanErr → Text
  | invalidCharacter n => say "Found invalid character: " (displayBytes (leBytes n))
  | integer e => say "Error with integer: " e.display
  | notEnoughBytes => say "Not enough bytes" []
  | invalidNodeFormat ex found =>
    say "Tried to deserialise node, expected: "
      (natText ex.toNat ++ say " (" (ex :: say ") but found " (decByte found)))
  | invalidDiscriminant b => say "Deserialising u8 node tree, expected 0 or 1, found " (decByte b)
  | unableToCode => say "Unable to encode/decode given bits using given huffman tree" []
  | unableToCreateNodeTree => say "Unable to create node tree with empty input" []

/-- binary.rs L68-80. -/
def BinaryErr.display : BinaryErr → Text
  | noCompressionTypeFound v => say "Invalid compression discriminant found: " (decByte v)
  | integer e => say "Error parsing integer: " e.display
  | notEnoughBytes => say "Not enough bytes to deserialize." []
  | lzFlex e => say "Error decompressing LZ: " e
  | huffman e => say "Error decompressing huffman: " e.display

/-- values.rs L518-550. -/
def ValueErr.display : ValueErr → Text
  | serdeCustom s => say "Serde Error: " s
  | invalidType b => say "Invalid Type Discriminant found: " (binByte b)
  | integer e => say "Error de/ser-ing integer: " e.display
  | notEnoughBytes => say "Not enough bytes provided" []
  | invalidCharacter => say "Invalid character provided" []
  | nonUtf8String e => say "Error converting to UTF-8: " e
  | serdeJson e => say "Error de/ser-ing serde_json: " e
  | unexpectedValueType found expected => say "Expected " (tyName expected ++ say ", found: " (tyName found))
  | tzError e => say "Error parsing timezone: " e
  | invalidDateOrTime => say "Error with invalid time given" []
  | noHuffman => say "Encountered huffman-encoded string with no huffman tree provided" []
  | binary e => say "Error deserialising binary: " e.display
  | huffman e => say "Error deserialising huffman: " e.display
  | invalidSourisType found cause =>
    say "Error with JSON `souris_type` - was deserialising a " (tyName found ++ say ", but " (causeName cause))
  | invalidDeserialisation e => say "Error deserialising value: " (stateName e)

/-- store.rs L238-262. -/
def StoreErr.display : StoreErr → Text
  | expectedMap t => say "Expected to find a map when deserialising, found " (tyName t ++ say " instead" [])
  | notEnoughBytes => say "Not enough bytes" []
  | expectedMagicBytes => say "Unable to find starting magic bytes" []
  | integer e => say "Error with integer: " e.display
  | value e => say "Error with values: " e.display
  | serdeJson e => say "Error with serde_json: " e
  | unableToConvertToJson => say "Unable to convert self to JSON" []
  | unsupportedCompression b => say "Unable to read compression type: " (binByte b)
  | huffman e => say "Error with huffman: " e.display
  | binary e => say "Error with binary compression: " e.display

/-- client.rs L83-106; `{:?}` of a `StatusCode` is its number. -/
def ClientErr.display : ClientErr → Text
  | ureq e => say "Error with ureq: " e
  | reqwest e => say "Error with reqwest: " e
  | store e => say "Error with store: " e.display
  | httpErrorCode c => say "Error with response: " (natText c)
  | io e => say "IO Error: " e
  | invalidStatusCode e => say "Invalid status code provided: " e
  | serverNotHealthy c => say "Tried to get server health check, got status code: " (natText c)
  | serdeJson e => say "Tried to parse JSON and failed: " e
  | value e => say "Error with value: " e.display

/-- axum.rs L111-121, L139-143: `body_text` and `Display`. -/
def RejectionErr.display : RejectionErr → Text
  | couldNotGetBytes e => say "Could not get bytes: " e
  | value e => say "Could not deserialise value: " e.display
  | store e => say "Could not deserialise store: " e.display

/-- mouse/main.rs L73-85. -/
def MouseErr.display : MouseErr → Text
  | io e => say "Error handling IO: " e
  | dialoguer e => say "Error with dialoguer: " e
  | serdeJson e => say "Error with JSON: " e
  | value e => say "Error with values: " e.display
  | store e => say "Error with store: " e.display
  | noDatabasesFound => say "No databases found" []
  | client e => say "Error with souris client: " e.display

/-! ## `Debug`, derived -/

/-- integer.rs L639. -/
def IntegerErr.debug (sh : Shows) : IntegerErr → Text
  | invalidSignedStateDiscriminant b => wrap "InvalidSignedStateDiscriminant(" (decByte b)
  | notEnoughBytes => say "NotEnoughBytes" []
  | tooBigToFit => say "TooBigToFit" []
  | signError => say "SignError" []
  | integerParseError e => wrap "IntegerParseError(" e
  | serdeCustom s => wrap "SerdeCustom(" (sh.strLiteral s)

/-- huffman.rs L211. -/
def HuffmanErr.debug (sh : Shows) : HuffmanErr → Text
  | invalidCharacter n => wrap "InvalidCharacter(" (natText n.toNat)
  | integer e => wrap "Integer(" (e.debug sh)
  | notEnoughBytes => say "NotEnoughBytes" []
  | invalidNodeFormat ex found =>
    say "InvalidNodeFormat { ex: " (sh.charLiteral ex ++ say ", found: " (decByte found ++ say " }" []))
  | invalidDiscriminant b => wrap "InvalidDiscriminant(" (decByte b)
  | unableToCode => say "UnableToCode" []
  | unableToCreateNodeTree => say "UnableToCreateNodeTree" []

/-- binary.rs L59. -/
def BinaryErr.debug (sh : Shows) : BinaryErr → Text
  | noCompressionTypeFound v => wrap "NoCompressionTypeFound(" (decByte v)
  | integer e => wrap "Integer(" (e.debug sh)
  | notEnoughBytes => say "NotEnoughBytes" []
  | lzFlex e => wrap "LzFlex(" e
  | huffman e => wrap "Huffman(" (e.debug sh)

/-- values.rs L441. -/
def ValueErr.debug (sh : Shows) : ValueErr → Text
  | invalidType b => wrap "InvalidType(" (decByte b)
  | integer e => wrap "IntegerSerError(" (e.debug sh)
  | notEnoughBytes => say "NotEnoughBytes" []
  | invalidCharacter => say "InvalidCharacter" []
  | nonUtf8String e => wrap "NonUTF8String(" e
  | serdeJson e => wrap "SerdeJson(" e
  | unexpectedValueType found expected =>
    say "UnexpectedValueType { found: " (tyName found ++ say ", expected: " (tyName expected ++ say " }" []))
  | tzError e => wrap "TzError(" e
  | invalidDateOrTime => say "InvalidDateOrTime" []
  | serdeCustom s => wrap "SerdeCustom(" (sh.strLiteral s)
  | noHuffman => say "NoHuffman" []
  | binary e => wrap "BinarySerError(" (e.debug sh)
  | huffman e => wrap "HuffmanSerError(" (e.debug sh)
  | invalidSourisType found cause =>
    say "InvalidSourisType { found: " (tyName found ++ say ", cause: " (causeName cause ++ say " }" []))
  | invalidDeserialisation e => wrap "InvalidDeserialisation(" (stateName e)

/-- store.rs L223. -/
def StoreErr.debug (sh : Shows) : StoreErr → Text
  | expectedMap t => wrap "ExpectedMap(" (tyName t)
  | expectedMagicBytes => say "ExpectedMagicBytes" []
  | notEnoughBytes => say "NotEnoughBytes" []
  | value e => wrap "Value(" (e.debug sh)
  | integer e => wrap "Integer(" (e.debug sh)
  | serdeJson e => wrap "SerdeJson(" e
  | unableToConvertToJson => say "UnableToConvertToJson" []
  | unsupportedCompression b => wrap "UnsupportedCompression(" (decByte b)
  | huffman e => wrap "Huffman(" (e.debug sh)
  | binary e => wrap "Binary(" (e.debug sh)

/-- client.rs L55. -/
def ClientErr.debug (sh : Shows) : ClientErr → Text
  | ureq e => wrap "Ureq(" e
  | reqwest e => wrap "Reqwest(" e
  | store e => wrap "Store(" (e.debug sh)
  | value e => wrap "Value(" (e.debug sh)
  | httpErrorCode c => wrap "HttpErrorCode(" (natText c)
  | io e => wrap "IO(" e
  | invalidStatusCode e => wrap "InvalidStatusCode(" e
  | serverNotHealthy c => wrap "ServerNotHealthy(" (natText c)
  | serdeJson e => wrap "SerdeJson(" e

/-- error.rs L12. -/
def ServerErr.debug (sh : Shows) : ServerErr → Text
  | io e => wrap "IO(" e
  | databaseNotFound => say "DatabaseNotFound" []
  | keyNotFound => say "KeyNotFound" []
  | storeError e => wrap "StoreError(" (e.debug sh)
  | valueError e => wrap "ValueError(" (e.debug sh)
  | invalidDatabaseName => say "InvalidDatabaseName" []
  | integerSerError e => wrap "IntegerSerError(" (e.debug sh)

/-- mouse/main.rs L62; `Box` prints what it holds. -/
def MouseErr.debug (sh : Shows) : MouseErr → Text
  | io e => wrap "IO(" e
  | dialoguer e => wrap "Dialoguer(" e
  | serdeJson e => wrap "SerdeJson(" e
  | value e => wrap "Value(" (e.debug sh)
  | store e => wrap "Store(" (e.debug sh)
  | noDatabasesFound => say "NoDatabasesFound" []
  | client e => wrap "Client(" (e.debug sh)

/-- error.rs L57-72; the last arm uses `{e:?}`. -/
def ServerErr.display (sh : Shows) : ServerErr → Text
  | storeError e => say "Error with Souris Store: " e.display
  | io e => say "Error with IO: " e
  | databaseNotFound => say "Could not find database with name" []
  | keyNotFound => say "Could not find value with name in database provided" []
  | valueError e => say "Error with value: " e.display
  | invalidDatabaseName =>
    say "Invalid database name - database names must be ASCII and not equal to `meta`" []
  | integerSerError e => say "Error deserialising integer: " (e.debug sh)

/-! ## What goes to the user -/

/-- error.rs L78-88: the status of an answer made from an error. -/
def ServerErr.status : ServerErr → Nat
  | keyNotFound | invalidDatabaseName | storeError _ | valueError _ | integerSerError _ => 400
  | databaseNotFound => 410
  | io _ => 500

/-- error.rs L74-92: `into_response`, status and body. -/
def ServerErr.response (sh : Shows) (e : ServerErr) : Nat × Text := (e.status, e.debug sh)

/-- axum.rs L123-136, L145-149: `status` and `into_response`; `br` is the status axum gives. -/
def RejectionErr.response (br : Text → Nat) (e : RejectionErr) : Nat × Text :=
  (match e with
   | couldNotGetBytes t => br t
   | value _ | store _ => 400, e.display)

/-- mouse/main.rs L55-60: what `main` prints when `fun_main` fails. -/
def MouseErr.printed (sh : Shows) (e : MouseErr) : Text := say "Error running program: " (e.debug sh)

/-! ## `Error::source` -/

/-- Any error: one of the nine types, or one of another library. -/
inductive Any
  | foreign (e : Text)
  | integer (e : IntegerErr)
  | huffman (e : HuffmanErr)
  | binary (e : BinaryErr)
  | value (e : ValueErr)
  | store (e : StoreErr)
  | client (e : ClientErr)
  | server (e : ServerErr)
  | mouse (e : MouseErr)

/-- integer.rs L683-691. -/
def IntegerErr.source : IntegerErr → Option Any
  | integerParseError e => some (.foreign e)
  | _ => none

/-- huffman.rs L264-272. -/
def HuffmanErr.source : HuffmanErr → Option Any
  | integer e => some (.integer e)
  | _ => none

/-- binary.rs L82-92. -/
def BinaryErr.source : BinaryErr → Option Any
  | noCompressionTypeFound _ | notEnoughBytes => none
  | integer e => some (.integer e)
  | lzFlex e => some (.foreign e)
  | huffman e => some (.huffman e)

/-- values.rs L583-596. -/
def ValueErr.source : ValueErr → Option Any
  | integer e => some (.integer e)
  | nonUtf8String e => some (.foreign e)
  | serdeJson e => some (.foreign e)
  | tzError e => some (.foreign e)
  | binary e => some (.binary e)
  | huffman e => some (.huffman e)
  | _ => none

/-- store.rs L290-301. -/
def StoreErr.source : StoreErr → Option Any
  | integer e => some (.integer e)
  | value e => some (.value e)
  | serdeJson e => some (.foreign e)
  | huffman e => some (.huffman e)
  | _ => none

/-- client.rs L159-175. -/
def ClientErr.source : ClientErr → Option Any
  | ureq e => some (.foreign e)
  | store e => some (.store e)
  | io e => some (.foreign e)
  | invalidStatusCode e => some (.foreign e)
  | serdeJson e => some (.foreign e)
  | value e => some (.value e)
  | _ => none

/-- error.rs L45-55. -/
def ServerErr.source : ServerErr → Option Any
  | io e => some (.foreign e)
  | storeError e => some (.store e)
  | valueError e => some (.value e)
  | integerSerError e => some (.integer e)
  | _ => none

/-- mouse/main.rs L118-130. -/
def MouseErr.source : MouseErr → Option Any
  | io e => some (.foreign e)
  | dialoguer e => some (.foreign e)
  | serdeJson e => some (.foreign e)
  | value e => some (.value e)
  | store e => some (.store e)
  | client e => some (.client e)
  | noDatabasesFound => none

/-- `Error::source` of any error; what lies below the errors of other libraries is not followed. -/
def Any.source : Any → Option Any
  | foreign _ => none
  | integer e => e.source
  | huffman e => e.source
  | binary e => e.source
  | value e => e.source
  | store e => e.source
  | client e => e.source
  | server e => e.source
  | mouse e => e.source

end Souris.Fault

namespace Souris

/-- The texts that errors of other libraries have, one for each place where the model keeps none. -/
structure Foreign where
  parse : Fault.Text
  lz : Fault.Text
  utf8 : Fault.Text
  json : Fault.Text
  tz : Fault.Text
  io : Fault.Text

/-- The error of Model/Integer.lean with the texts of other libraries put in. -/
def IntegerSerError.fault (F : Foreign) : IntegerSerError → Fault.IntegerErr
  | invalidSignedStateDiscriminant b => .invalidSignedStateDiscriminant b
  | notEnoughBytes => .notEnoughBytes
  | tooBigToFit => .tooBigToFit
  | signError => .signError
  | integerParseError => .integerParseError F.parse

/-- The error of Model/Huffman.lean; the number is a `u32`. -/
def HuffmanSerError.fault (F : Foreign) : HuffmanSerError → Fault.HuffmanErr
  | invalidCharacter n => .invalidCharacter (UInt32.ofNat n)
  | integer e => .integer (e.fault F)
  | notEnoughBytes => .notEnoughBytes
  | invalidNodeFormat ex found => .invalidNodeFormat ex found
  | invalidDiscriminant b => .invalidDiscriminant b
  | unableToCode => .unableToCode
  | unableToCreateNodeTree => .unableToCreateNodeTree

/-- The error of Model/Binary.lean. -/
def BinarySerError.fault (F : Foreign) : BinarySerError → Fault.BinaryErr
  | noCompressionTypeFound v => .noCompressionTypeFound v
  | integer e => .integer (e.fault F)
  | notEnoughBytes => .notEnoughBytes
  | lzFlex => .lzFlex F.lz
  | huffman e => .huffman (e.fault F)

/-- The error of Model/Value.lean. -/
def ValueSerError.fault (F : Foreign) : ValueSerError → Fault.ValueErr
  | invalidType b => .invalidType b
  | integer e => .integer (e.fault F)
  | notEnoughBytes => .notEnoughBytes
  | invalidCharacter => .invalidCharacter
  | nonUtf8String => .nonUtf8String F.utf8
  | serdeJson => .serdeJson F.json
  | unexpectedValueType found expected => .unexpectedValueType found expected
  | tzError => .tzError F.tz
  | invalidDateOrTime => .invalidDateOrTime
  | noHuffman => .noHuffman
  | binary e => .binary (e.fault F)
  | huffman e => .huffman (e.fault F)
  | invalidSourisType found cause => .invalidSourisType found cause
  | invalidDeserialisation e => .invalidDeserialisation e

/-- The error of Model/Store.lean. -/
def StoreSerError.fault (F : Foreign) : StoreSerError → Fault.StoreErr
  | expectedMap t => .expectedMap t
  | expectedMagicBytes => .expectedMagicBytes
  | notEnoughBytes => .notEnoughBytes
  | value e => .value (e.fault F)
  | huffman e => .huffman (e.fault F)
  | binary e => .binary (e.fault F)

/-- The error of Model/Daemon.lean. -/
def SourisError.fault (F : Foreign) : SourisError → Fault.ServerErr
  | io => .io F.io
  | databaseNotFound => .databaseNotFound
  | keyNotFound => .keyNotFound
  | storeError e => .storeError (e.fault F)
  | invalidDatabaseName => .invalidDatabaseName

/-- Status and body of the replies of Model/Daemon.lean that are made from errors. -/
def Reply.refusal (sh : Shows) (F : Foreign) : Reply → Option (Nat × Fault.Text)
  | .error e => some ((e.fault F).response sh)
  | .rejected e => some ((Fault.RejectionErr.value (e.fault F)).response (fun _ => 400))
  | _ => none

end Souris
