import Verif.Model.Binary

/-!
# LZ4 blocks (lz4_flex 0.11.3, used by crates/sourisdb/src/types/binary/lz.rs L1, L18, L43)

`Cargo.lock` pins lz4_flex 0.11.3 and crates/sourisdb/Cargo.toml switches its default features off, so it is the
variant with raw pointers (block/compress.rs and block/decompress.rs) that runs. Its source is not part of the
repository; this is a transcription of the algorithm from the LZ4 block format and from knowledge of the crate.

* The hash table of the compressor is replaced by its answers: `candidate input cur` is the position found in the
  table for the four bytes at `cur`. A position is looked up at most once, so nothing is lost by making it a
  function. The only thing that is ever assumed of it is that it is an earlier position.
* How fast the search speeds up where nothing is found is the parameter `shift`.
* What the memory of a new vector contains is the parameter `stale`: an offset of 0, which the format forbids, is
  not rejected and copies it.
-/

namespace Souris

/-- What the model of lz4_flex leaves open. -/
structure Lz4 where
  /-- What the hash table holds for the four bytes at a position of the input. -/
  candidate : List UInt8 → Nat → Nat
  /-- `INCREASE_STEPSIZE_BITSHIFT` -/
  shift : Nat
  /-- What is in memory behind the end of the output. -/
  stale : Nat → UInt8

namespace Lz4

/-! ## Writing -/

/-- compress.rs `write_integer`: 255 as often as it fits, then the rest. -/
def lenBytes (n : Nat) : List UInt8 := List.replicate (n / 255) 255 ++ [UInt8.ofNat (n % 255)]

/-- The part of a length that does not fit the token. -/
def extended (n : Nat) : List UInt8 := if 15 ≤ n then lenBytes (n - 15) else []

/-- compress.rs `token_from_literal_and_match_length` -/
def token (lits dup : Nat) : UInt8 := UInt8.ofNat (min lits 15 * 16 + min dup 15)

/-- compress.rs `handle_last_literals` -/
def lastLiterals (lits : List UInt8) : List UInt8 := token lits.length 0 :: (extended lits.length ++ lits)

/-- The end of the loop of compress.rs `compress_internal`: what is written for some literals and a copy of `dup + 4`
bytes that begins `offset` bytes earlier. -/
def sequence (lits : List UInt8) (offset dup : Nat) : List UInt8 :=
  token lits.length dup :: (extended lits.length ++ (lits ++
    (UInt8.ofNat (offset % 256) :: UInt8.ofNat (offset / 256 % 256) :: extended dup)))

/-- compress.rs `get_batch`: the four bytes at a position. -/
def batch (input : List UInt8) (i : Nat) : List UInt8 := (input.drop i).take 4

/-- The inner loop of `compress_internal`: the next position that has a candidate not further back than 65535
(`MAX_DISTANCE`) that begins with the same four bytes. `none` when the position is beyond `end_pos_check` (the
length minus `MFLIMIT`, 12). `non_match_count` begins at `1 << shift`, so the step is at least 1. -/
def search (z : Lz4) (input : List UInt8) (cur nonMatch : Nat) : Option (Nat × Nat) :=
  if input.length - 12 < cur then none
  else
    let candidate := z.candidate input cur
    if cur - candidate ≤ 65535 ∧ batch input candidate = batch input cur then some (cur, candidate)
    else search z input (cur + max 1 (nonMatch / 2 ^ z.shift)) (nonMatch + 1)
termination_by input.length + 1 - cur
decreasing_by omega

/-- compress.rs `backtrack_match` -/
def backtrack (input : List UInt8) (literalStart : Nat) : Nat → Nat → Nat × Nat
  | cur + 1, candidate + 1 =>
    if literalStart < cur + 1 ∧ input[cur]? = input[candidate]? then backtrack input literalStart cur candidate
    else (cur + 1, candidate + 1)
  | cur, candidate => (cur, candidate)

/-- compress.rs `count_same_bytes`, which stops `END_OFFSET` (6) bytes before the end of the input. -/
def same (input : List UInt8) (cur candidate : Nat) : Nat :=
  if cur < input.length - 6 ∧ input[cur]? = input[candidate]? then same input (cur + 1) (candidate + 1) + 1 else 0
termination_by input.length - cur
decreasing_by omega

/-- compress.rs `compress_internal`: the outer loop. The fuel is never used up (`sequences_fuel`). -/
def sequences (z : Lz4) (input : List UInt8) : Nat → Nat → Nat → List UInt8
  | 0, literalStart, _ => lastLiterals (input.drop literalStart)
  | fuel + 1, literalStart, cur =>
    match search z input cur (2 ^ z.shift) with
    | none => lastLiterals (input.drop literalStart)
    | some (found, candidate) =>
      let (cur, candidate') := backtrack input literalStart found candidate
      let dup := same input (cur + 4) (candidate' + 4)
      sequence ((input.drop literalStart).take (cur - literalStart)) (found - candidate) dup
        ++ sequences z input fuel (cur + 4 + dup) (cur + 4 + dup)

/-- compress.rs `compress`. Inputs shorter than 13 (`LZ4_MIN_LENGTH`) are only literals. -/
def compress (z : Lz4) (input : List UInt8) : List UInt8 :=
  if input.length < 13 then lastLiterals input else sequences z input input.length 0 1

/-! ## Reading -/

/-- decompress.rs `read_integer_ptr` -/
def readInteger : List UInt8 → Option (Nat × List UInt8)
  | [] => none
  | b :: rest =>
    if b = 255 then
      match readInteger rest with
      | none => none
      | some (n, rest) => some (255 + n, rest)
    else some (b.toNat, rest)

/-- The length that begins with four bits of the token. -/
def readLength (nibble : Nat) (rest : List UInt8) : Option (Nat × List UInt8) :=
  if nibble = 15 then
    match readInteger rest with
    | none => none
    | some (n, rest) => some (15 + n, rest)
  else some (nibble, rest)

/-- decompress.rs `duplicate` and `duplicate_overlapping`: byte for byte, so that what is copied can be part of what
is being written. -/
def duplicate (stale : Nat → UInt8) (offset : Nat) : Nat → List UInt8 → List UInt8
  | 0, out => out
  | n + 1, out =>
    duplicate stale offset n
      (out ++ [if offset = 0 then stale out.length else out.getD (out.length - offset) 0])

/-- decompress.rs `decompress_internal`: the loop. Every turn reads the token at least, so with one unit of fuel
for every byte it is not used up before the input is. -/
def decode (stale : Nat → UInt8) (capacity : Nat) : Nat → List UInt8 → List UInt8 → Option (List UInt8)
  | 0, _, _ => none
  | _ + 1, [], _ => none
  | fuel + 1, token :: rest, out =>
    match readLength (token.toNat / 16) rest with
    | none => none
    | some (lits, rest) =>
      if rest.length < lits ∨ capacity < out.length + lits then none
      else
        let out := out ++ rest.take lits
        match rest.drop lits with
        | [] => some out
        | [_] => none
        | lo :: hi :: rest =>
          let offset := lo.toNat + 256 * hi.toNat
          match readLength (token.toNat % 16) rest with
          | none => none
          | some (dup, rest) =>
            if out.length < offset ∨ capacity < out.length + (dup + 4) then none
            else decode stale capacity fuel rest (duplicate stale offset (dup + 4) out)

/-- decompress.rs `decompress`. `Vec::with_capacity` panics beyond `isize::MAX`; running out of memory before that is
not modelled. -/
def decompress (z : Lz4) (bytes : List UInt8) (size : Nat) : Out Unit (List UInt8) :=
  if isizeMax < size then .panic .capacityOverflow
  else
    match decode z.stale size bytes.length bytes [] with
    | none => .err ()
    | some out => .ok out

/-- lz4_flex, as lz.rs uses it. -/
def codec (z : Lz4) : Lz := ⟨z.compress, z.decompress⟩

end Lz4

end Souris
