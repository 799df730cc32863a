import Verif.Model.IntegerConv
import Verif.Model.IntegerSerde
import Verif.Model.ValueAccess

/-!
# The project's own tests

Every `#[test]` of the crate `sourisdb`, with its random input as a parameter. A test passes if it ends without a
panic: `unwrap`, `expect` and the assertions are what can panic in them. All tests of /repo are here, the other
crates have none.
-/

namespace Souris

namespace RepoTests

/-- `unwrap`/`expect` and then the rest of the test. -/
def unwrap {ε α : Type} (o : Out ε α) (rest : α → Bool) : Bool :=
  match o with
  | .ok a => rest a
  | _ => false

/-! ## crates/sourisdb/src/types/integer.rs -/

/-- integer.rs L787-806: one round of the loop of `integer_cases`. -/
def integerCase (case : List Char) (ex : Int) : Bool :=
  unwrap (Integer.fromStr case) fun int =>
  unwrap (Integer.deser int.ser.1 (Cursor.new int.ser.2)) fun (deser, _) =>
  int.eq deser && unwrap (deser.toSigned 4) fun out => ex = out

/-- integer.rs L788-796: the cases. -/
def integerCases : List (List Char × Int) :=
  [(['-', '1'], -1), (['-', '1', '2', '9'], -129), (['-', '2', '5', '7'], -257), (['2', '3', '8'], 238),
    (['2', '3', '9'], 239), (['2', '4', '0'], 240), (['2', '4', '1'], 241)]

/-- integer.rs L809-812. -/
def integerDoesntCrash (s : List Char) : Bool :=
  match Integer.fromStr s with
  | .panic _ => false
  | _ => true

/-- integer.rs L814-818. -/
def parseValidU32 (i : Nat) : Bool :=
  unwrap ((Integer.ofUnsigned 4 i).toUnsigned 4) fun n => n = i

/-- integer.rs L820-824. -/
def parseValidI32 (i : Int) : Bool :=
  unwrap ((Integer.ofSigned 4 i).toSigned 4) fun n => n = i

/-- integer.rs L826-836. -/
def backToOriginal (i : Int) : Bool :=
  unwrap (Integer.fromStr (intText i)) fun parsed =>
  unwrap (Integer.deser parsed.ser.1 (Cursor.new parsed.ser.2)) fun (gotBack, _) =>
  parsed.eq gotBack && unwrap (gotBack.toSigned 16) fun n => n = i

/-- integer.rs L838-848. -/
def backToOriginalOtherSize (i : Nat) : Bool :=
  unwrap (Integer.fromStr (natText i)) fun parsed =>
  unwrap (Integer.deser parsed.ser.1 (Cursor.new parsed.ser.2)) fun (gotBack, _) =>
  parsed.eq gotBack && unwrap (gotBack.toUnsigned 4) fun n => n = i

/-- integer.rs L855-870 and L880-895: what both serde tests do with their integer. The test accepts an error of
serde_json whose text contains "invalid type"; the model does not tell the errors apart and accepts them all. -/
def serdeWorks (i : Integer) : Bool :=
  unwrap i.toJsonText fun toSerde =>
  match Integer.ofJsonText toSerde with
  | .ok fromSerde => decide (i.display = toSerde) && i.eq fromSerde
  | .err _ => true
  | .panic _ => false

/-- integer.rs L850-871. -/
def serdeWorksSigned (raw : Int) : Bool := serdeWorks (Integer.ofSigned 16 raw)

/-- integer.rs L873-895. -/
def serdeWorksUnsigned (raw : Nat) : Bool := serdeWorks (Integer.ofUnsigned 16 raw)

/-! ## crates/sourisdb/src/values.rs -/

/-- What the tests of values.rs L1391-1466 have in common: write without a coder, read, go on. -/
def reread (env : Env) (v : Value) (rest : Value → Bool) : Bool :=
  unwrap (Value.ser env none v) fun bytes =>
  unwrap (Value.deser env none (Cursor.new bytes)) fun (out, _) => rest out

/-- values.rs L1393-1401. -/
def testCh (env : Env) (c : Char) : Bool :=
  reread env (.character c) fun out => decide (Value.charAcc.extract out = some c)

/-- values.rs L1404-1412. -/
def testStr (env : Env) (s : List Char) : Bool :=
  reread env (.string s) fun out => decide (Value.strAcc.extract out = some s)

/-- values.rs L1415-1423. -/
def testBin (env : Env) (s : List UInt8) : Bool :=
  reread env (.binary s) fun out => decide (Value.binaryAcc.extract out = some s)

/-- values.rs L1426-1434. -/
def testBool (env : Env) (s : Bool) : Bool :=
  reread env (.boolean s) fun out => decide (Value.boolAcc.extract out = some s)

/-- values.rs L1437-1453. The floats are their bits and the test asks for the same bits, where Rust asks for a
difference below `EPSILON` (equal finite floats have the difference 0). The replacement of `-0.0` in L1438-1440
is left out: the generator's floats are an arbitrary parameter. -/
def testPolarFormSer (env : Env) (modulus argument : UInt64) : Bool :=
  reread env (.imaginary (.polar modulus argument)) fun out =>
    decide (Value.imaginaryAcc.extract out = some (.polar modulus argument))

/-- values.rs L1455-1465. `==` of two values is `Value.eq`; here both are integers. -/
def testInt (env : Env) (i : Int) : Bool :=
  reread env (.integer (Integer.ofSigned 16 i)) fun out =>
    match Value.intAcc.extract out with
    | some int => (Integer.ofSigned 16 i).eq int && unwrap (int.toSigned 16) fun n => n = i
    | none => false

/-! ## crates/sourisdb/src/utilities/bits.rs -/

/-- bits.rs L295-306. -/
def testDisplay : Bool :=
  let bits := ((((((Bits.empty.push false).push true).push true).push false).push false).push true)
  unwrap bits.display fun disp => disp = ['0', '1', '1', '0', '0', '1']

/-- A sequence of `assert_eq!(bits.pop(), …)`. -/
def pops (bits : Bits) : List (Option Bool) → (Bits → Bool) → Bool
  | [], rest => rest bits
  | ex :: more, rest => unwrap bits.pop fun (x, bits') => decide (x = ex) && pops bits' more rest

/-- bits.rs L309-345. -/
def testPop : Bool :=
  let bits := [false, true, true, false, false, true, true, false, true].foldl Bits.push Bits.empty
  pops bits [some true, some false, some true] fun bits =>
    pops ([false, false, false, true, false].foldl Bits.push bits)
      [some false, some true, some false, some false, some false, some true, some false, some false, some true,
        some true, some false, none] fun _ => true

/-- bits.rs L347-366. -/
def testPartialEq (a b : Nat) (aBits bBits : Nat) : Bool :=
  unwrap (Bits.eq ⟨leBytes 4 a, aBits⟩ ⟨leBytes 4 b, bBits⟩) fun eq => if a = b then eq else !eq

/-- bits.rs L369-397. `hash` is std's `DefaultHasher` on what is fed to it. -/
def testHash (hash : List UInt8 → UInt64) (a b : UInt8) (bits : Nat) : Bool :=
  unwrap (Bits.hashData ⟨[a], bits⟩) fun x =>
  unwrap (Bits.hashData ⟨[b], bits⟩) fun y =>
  unwrap (Bits.eq ⟨[a], bits⟩ ⟨[b], bits⟩) fun eq =>
  if eq then hash x = hash y else hash x ≠ hash y

/-! ## crates/sourisdb/src/utilities/huffman.rs -/

section
variable (ord : List (Node Char × Nat) → List (Node Char × Nat))

/-- huffman.rs L646-650. -/
def nodesFromEmptyString : Bool :=
  match Huffman.nodeTree ord (Huffman.freqTable []) with
  | .err _ => true
  | _ => false

/-- huffman.rs L652-660, for any character and any number of repetitions. -/
def nodesFromOneCharRepeated (x : Char) (n : Nat) : Bool :=
  unwrap (Huffman.nodeTree ord (Huffman.freqTable (List.replicate n x))) fun root =>
    match root with
    | .leaf ch => ch = x
    | _ => false

/-- huffman.rs L662-671, L680-687 and L690-697: three tests with the same body. -/
def encodeDecode (s : List Char) : Bool :=
  unwrap (Huffman.new ord s) fun huffman =>
  unwrap (huffman.encode s) fun encoded =>
  unwrap (huffman.decode encoded) fun decoded => s = decoded

/-- huffman.rs L674-677. -/
def huffmanDoesntCrash (s : List Char) : Bool :=
  match Huffman.new ord s with
  | .panic _ => false
  | _ => true

/-- huffman.rs L700-716. -/
def serWorks (s : List Char) : Bool :=
  unwrap (Huffman.new ord s) fun huffman =>
  unwrap (huffman.encode s) fun encoded =>
  unwrap encoded.ser fun serialisedBits =>
  unwrap (Huffman.deserChar (Cursor.new huffman.serChar)) fun (deserialisedHuffman, _) =>
  unwrap (Bits.deser (Cursor.new serialisedBits)) fun (deserialisedBits, _) =>
  unwrap (deserialisedHuffman.decode deserialisedBits) fun decoded => s = decoded

end

/-! ## crates/sourisdb/src/types/binary.rs and below -/

/-- binary.rs L238-249: `test_roundtrip`. -/
def testRoundtrip {ε ε' : Type} (input : List UInt8) (s : List UInt8 → Out ε (List UInt8))
    (d : Parser ε' (List UInt8)) : Bool :=
  unwrap (s input) fun encoded => unwrap (d (Cursor.new encoded)) fun (decoded, _) => input = decoded

/-- binary.rs L227-235: `CASES`. -/
def cases : List (List UInt8) :=
  [[0xFF, 0xFF, 0xFF, 0xFF, 0xFF, 0x00, 0x00, 0x00, 0xFF, 0xFF, 0xFF, 0x00, 0x00, 0xFF], [], [0],
    [0x12, 0x12, 0x12, 0xDE, 0xAD, 0xBE, 0xEF], List.replicate 10000 0xAB]

/-- rle.rs L76-102: `test_rle_specific_cases` and `proptest_rle_1` to `proptest_rle_256`. -/
def testRle (v : List UInt8) : Bool :=
  testRoundtrip (ε := Empty) v (fun b => .ok (Binary.rle b)) Binary.unRle

/-- lz.rs L217-243: `test_lz_specific_cases` and `proptest_lz_1` to `proptest_lz_256`. -/
def testLz (z : Lz) (v : List UInt8) : Bool :=
  testRoundtrip (ε := Empty) v (fun b => .ok (Binary.lz z b)) (Binary.unLz z)

/-- huffman.rs (types/binary) L67-94: `test_huff_specific_cases` and `proptest_huffman_1` to `_256`. -/
def testHuffman (ord : List (Node UInt8 × Nat) → List (Node UInt8 × Nat)) (v : List UInt8) : Bool :=
  testRoundtrip v (Binary.huffman ord) Binary.unHuffman

/-! ## crates/sourisdb/src/utilities/cursor.rs -/

/-- cursor.rs L255-283. `peek_remaining` is `asRef` here (the rest after the position). -/
def testCursorMovement : Bool :=
  let c0 : Cursor Int := Cursor.new [0, 1, 2, 3, 4, 5, 6, 7, 8, 9]
  let (r1, c1) := c0.read 5
  let p1 := c1.peek 5
  let (r2, c2) := c1.read 5
  let rest2 := c2.asRef
  let (_, c3) := c2.moveBackwards 4
  let rest3 := c3.asRef
  let (r4, c4) := c3.read 2
  let (_, c5) := c4.moveForwards 1
  let (r6, c6) := c5.read 1
  let (r7, c7) := c6.read 1
  decide (r1 = some [0, 1, 2, 3, 4] ∧ c1.pos = 5 ∧ p1 = some [5, 6, 7, 8, 9] ∧ r2 = some [5, 6, 7, 8, 9] ∧
    c2.pos = 10 ∧ rest2 = [] ∧ c3.pos = 6 ∧ rest3 = [6, 7, 8, 9] ∧ r4 = some [6, 7] ∧ c5.pos = 9 ∧
    r6 = some [9] ∧ c6.pos = 10 ∧ r7 = none ∧ c7.pos = 10)

end RepoTests

end Souris
