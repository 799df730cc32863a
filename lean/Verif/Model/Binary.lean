import Verif.Model.Huffman

/-!
# Binary data (crates/sourisdb/src/types/binary.rs and types/binary/{rle,lz,huffman}.rs)

lz4_flex is external: a pair of functions `Lz`, arbitrary except where a theorem assumes that it is
lossless. JSON conversion of binary data is in the model of values.
-/

namespace Souris

/-- `isize::MAX`, the largest number of bytes that a Rust allocation can have. -/
def isizeMax : Nat := 2 ^ 63 - 1

/-- lz4_flex's `compress` and `decompress(bytes, size)`. The error carries no information here. -/
structure Lz where
  compress : List UInt8 → List UInt8
  decompress : List UInt8 → Nat → Out Unit (List UInt8)

/-- binary.rs L27-32. -/
inductive BinaryCompression
  | nothing
  | runLengthEncoding
  | lempelZiv
  | huffman
deriving DecidableEq, Repr

/-- binary.rs L60-66. -/
inductive BinarySerError
  | noCompressionTypeFound (v : UInt8)
  | integer (e : IntegerSerError)
  | notEnoughBytes
  | lzFlex
  | huffman (e : HuffmanSerError)
deriving DecidableEq, Repr

namespace BinaryCompression

/-- binary.rs L34-43: `From<BinaryCompression> for u8`. -/
def toByte : BinaryCompression → UInt8
  | nothing => 0
  | runLengthEncoding => 1
  | lempelZiv => 2
  | huffman => 3

/-- binary.rs L45-57: `TryFrom<u8> for BinaryCompression`. -/
def ofByte (v : UInt8) : Out BinarySerError BinaryCompression :=
  if v = 0 then .ok nothing
  else if v = 1 then .ok runLengthEncoding
  else if v = 2 then .ok lempelZiv
  else if v = 3 then .ok huffman
  else .err (.noCompressionTypeFound v)

end BinaryCompression

namespace Binary

/-- `Integer::usize(n).ser().1`. -/
def usizeSer (n : Nat) : List UInt8 := (Integer.ofUnsigned 8 n).ser.2

/-- `Integer::deser(Unsigned, cursor)?.try_into()?` at type `usize`. -/
def usizeDeser : Parser BinarySerError Nat := do
  let i ← (Integer.deser .unsigned).mapErr .integer
  (Parser.lift (i.toUnsigned 8)).mapErr .integer

/-! ## Run-length encoding -/

/-- rle.rs L21-34: the loop and what follows it. `count` is a `u8`; it is at most 255 throughout
because L22 compares before incrementing. -/
def rleRuns (current : UInt8) (count : Nat) : List UInt8 → List UInt8
  | [] => if count ≠ 0 then [UInt8.ofNat count, current] else []
  | byte :: rest =>
    if current = byte ∧ count < 255 then rleRuns current (count + 1) rest
    else UInt8.ofNat count :: current :: rleRuns byte 1 rest

/-- rle.rs L12-42: `rle`. -/
def rle : List UInt8 → List UInt8
  | [] => usizeSer 0
  | current :: rest =>
    let compressed := rleRuns current 1 rest
    usizeSer compressed.length ++ compressed

/-- itertools' `tuples()` at pairs (an odd last element is dropped) and the loop L56-64. -/
def unRuns : List UInt8 → List UInt8
  | count :: byte :: rest => List.replicate count.toNat byte ++ unRuns rest
  | _ => []

/-- rle.rs L48-67: `un_rle`. -/
def unRle : Parser BinarySerError (List UInt8) := do
  let len ← usizeDeser
  if len = 0 then return []
  else do
    let bytes ← Parser.read .notEnoughBytes len
    return unRuns bytes

/-! ## LZ -/

/-- lz.rs L12-24: `lz`. -/
def lz (z : Lz) (input : List UInt8) : List UInt8 :=
  if input = [] then usizeSer input.length
  else
    let compressed := z.compress input
    usizeSer input.length ++ (usizeSer compressed.length ++ compressed)

/-- lz.rs L32-44: `un_lz`. -/
def unLz (z : Lz) : Parser BinarySerError (List UInt8) := do
  let inputLen ← usizeDeser
  if inputLen = 0 then return []
  else do
    let compressedLen ← usizeDeser
    let compressed ← Parser.read .notEnoughBytes compressedLen
    (Parser.lift (z.decompress compressed inputLen)).mapErr (fun _ => .lzFlex)

/-! ## Huffman -/

/-- itertools' `all_equal`. -/
def allEqual : List UInt8 → Bool
  | [] => true
  | x :: xs => xs.all (· = x)

/-- huffman.rs (types/binary) L12-33: `huffman`. `expect` (L22-23) panics on an error. -/
def huffman (ord : List (Node UInt8 × Nat) → List (Node UInt8 × Nat)) (input : List UInt8) :
    Out Empty (List UInt8) :=
  match input with
  | [] => .ok [0]
  | x :: _ =>
    if allEqual input then .ok (1 :: (usizeSer input.length ++ [x]))
    else
      match Huffman.newAndEncode ord input with
      | .ok (h, encoded) => do
        let bits ← encoded.ser
        return 2 :: (h.ser8 ++ bits)
      | .err _ => .panic .explicit
      | .panic p => .panic p

/-- `vec![x; n]` for bytes. Running out of memory is not modelled. -/
def vecRepeat {ε : Type} (x : UInt8) (n : Nat) : Out ε (List UInt8) :=
  if n ≤ isizeMax then .ok (List.replicate n x) else .panic .capacityOverflow

/-- huffman.rs (types/binary) L35-56: `un_huffman`. -/
def unHuffman : Parser HuffmanSerError (List UInt8) := do
  let first ← Parser.next .notEnoughBytes
  if first = 0 then return []
  else if first = 1 then do
    let i ← (Integer.deser .unsigned).mapErr .integer
    let count ← (Parser.lift (i.toUnsigned 8)).mapErr .integer
    let element ← Parser.next .notEnoughBytes
    Parser.lift (vecRepeat element count)
  else do
    let h ← Huffman.deser8
    let bits ← Bits.deser.mapErr .integer
    Parser.lift (h.decode bits)

/-! ## Choosing -/

/-- `Iterator::min_by_key(|(_, v)| v.len())` on a non-empty list: the first of the shortest. -/
def minByLen {α : Type} : (α × List UInt8) → List (α × List UInt8) → α × List UInt8
  | best, [] => best
  | best, x :: xs => minByLen (if x.2.length < best.2.length then x else best) xs

/-- binary.rs L178-197: `BinaryData::ser`. -/
def ser (z : Lz) (ord : List (Node UInt8 × Nat) → List (Node UInt8 × Nat)) (data : List UInt8) :
    Out Empty (BinaryCompression × List UInt8) := do
  let vanilla := usizeSer data.length ++ data
  let huff ← huffman ord data
  return minByLen (.nothing, vanilla) [(.runLengthEncoding, rle data), (.lempelZiv, lz z data),
    (.huffman, huff)]

/-- binary.rs L205-223: `BinaryData::deser`. -/
def deser (z : Lz) : BinaryCompression → Parser BinarySerError (List UInt8)
  | .nothing => do
    let length ← usizeDeser
    Parser.read .notEnoughBytes length
  | .runLengthEncoding => unRle
  | .lempelZiv => unLz z
  | .huffman => unHuffman.mapErr .huffman

end Binary

end Souris
