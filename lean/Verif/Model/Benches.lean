import Verif.Model.StoreSerde

/-!
# The project's benchmarks (crates/sourisdb/benches)

Each benchmark of `cargo bench` for the crate `sourisdb`. They all work on `smallexampledata.json`, which is not in the
repository: whoever runs them brings their own. So its text is a parameter, and so is the number of rounds, which
criterion chooses. A benchmark yields what it measured in each round, that is what it gave to `black_box`; it panics if
`unwrap` does.

Simplified: the order of the hash maps is the same function in all rounds.
-/

namespace Souris

namespace Benches

variable {ε α σ : Type}

/-- `Result::unwrap`. -/
def unwrap (o : Out ε α) : Out Empty α :=
  match o with
  | .ok a => .ok a
  | .err _ => .panic .explicit
  | .panic p => .panic p

/-- criterion's `b.iter`, with what the closure changes and what it gives to `black_box`. -/
def iter (f : σ → Out Empty (α × σ)) : Nat → σ → Out Empty (List α)
  | 0, _ => .ok []
  | n + 1, s => do
    let (a, s) ← f s
    let rest ← iter f n s
    return a :: rest

/-- `b.iter` with a closure that changes nothing. -/
def still (o : Out Empty α) (n : Nat) : Out Empty (List α) :=
  iter (fun _ => do let a ← o; return (a, ())) n ()

/-! ## benches/compression.rs -/

/-- compression.rs L25-32, L48-55, L71-78: one cursor for all rounds, which is set back after each. -/
def reread (p : Parser ε α) (encoded : List UInt8) (n : Nat) : Out Empty (List α) :=
  iter (fun c => do
    let (decoded, c) ← unwrap (p c)
    return (decoded, c.setPos 0)) n (Cursor.new encoded)

/-- compression.rs L14-20: `rle`. -/
def rle (text : List Char) (n : Nat) : Out Empty (List (List UInt8)) := still (.ok (Binary.rle (utf8 text))) n

/-- compression.rs L22-33: `un-rle`. -/
def unRle (text : List Char) (n : Nat) : Out Empty (List (List UInt8)) :=
  reread Binary.unRle (Binary.rle (utf8 text)) n

/-- compression.rs L37-43: `lz`. -/
def lz (z : Lz) (text : List Char) (n : Nat) : Out Empty (List (List UInt8)) := still (.ok (Binary.lz z (utf8 text))) n

/-- compression.rs L45-56: `un-lz`. -/
def unLz (z : Lz) (text : List Char) (n : Nat) : Out Empty (List (List UInt8)) :=
  reread (Binary.unLz z) (Binary.lz z (utf8 text)) n

/-- compression.rs L60-66: `huff`. -/
def huff (ord : List (Node UInt8 × Nat) → List (Node UInt8 × Nat)) (text : List Char) (n : Nat) :
    Out Empty (List (List UInt8)) := still (Binary.huffman ord (utf8 text)) n

/-- compression.rs L68-79: `un-huff`. -/
def unHuff (ord : List (Node UInt8 × Nat) → List (Node UInt8 × Nat)) (text : List Char) (n : Nat) :
    Out Empty (List (List UInt8)) := do
  let encoded ← Binary.huffman ord (utf8 text)
  reread Binary.unHuffman encoded n

/-! ## benches/utilities.rs -/

section

variable (ord : List (Node Char × Nat) → List (Node Char × Nat)) (text : List Char) (n : Nat)

/-- utilities.rs L7-12: `create huffman`. -/
def createHuffman : Out Empty (List (Huffman Char)) := still (unwrap (Huffman.new ord text)) n

/-- utilities.rs L14-20: `encode huffman`. -/
def encodeHuffman : Out Empty (List Bits) := do
  let huff ← unwrap (Huffman.new ord text)
  still (unwrap (huff.encode text)) n

/-- utilities.rs L22-30: `decode huffman`. -/
def decodeHuffman : Out Empty (List (List Char)) := do
  let huff ← unwrap (Huffman.new ord text)
  let data ← unwrap (huff.encode text)
  still (unwrap (huff.decode data)) n

/-- utilities.rs L34-41: `serialise huffman`. -/
def serialiseHuffman : Out Empty (List (List UInt8)) := do
  let huff ← unwrap (Huffman.new ord text)
  still (.ok huff.serChar) n

/-- utilities.rs L43-52: `deserialise huffman`. -/
def deserialiseHuffman : Out Empty (List (Huffman Char)) := do
  let huff ← unwrap (Huffman.new ord text)
  still (do
    let (desered, _) ← unwrap (Huffman.deserChar (Cursor.new huff.serChar))
    return desered) n

/-- utilities.rs L56-64: `serialise bits`. -/
def serialiseBits : Out Empty (List (List UInt8)) := do
  let huff ← unwrap (Huffman.new ord text)
  let data ← unwrap (huff.encode text)
  still data.ser n

/-- utilities.rs L66-76: `deserialise bits`. -/
def deserialiseBits : Out Empty (List Bits) := do
  let huff ← unwrap (Huffman.new ord text)
  let data ← unwrap (huff.encode text)
  let sered ← data.ser
  still (do
    let (decoded, _) ← unwrap (Bits.deser (Cursor.new sered))
    return decoded) n

end

/-! ## benches/database.rs -/

/-- database.rs L7-8: the store that is made from the file. -/
def example_ (env : Env) (text : List Char) : Out Empty Store :=
  match env.jsonParse text with
  | none => .panic .explicit
  | some json => unwrap (Store.fromJson env json)

/-- database.rs L11: `serialise_store`. -/
def serialiseStore (env : Env) (text : List Char) (n : Nat) : Out Empty (List (List UInt8)) := do
  let store ← example_ env text
  still (Store.ser env store) n

/-- What goes on after a call whose result is not looked at. -/
def measured (o : Out ε α) : Out Empty (Out ε α) :=
  match o with
  | .panic p => .panic p
  | o => .ok o

/-- database.rs L13-15: `deserialise_store`, in which the result is not unwrapped. -/
def deserialiseStore (env : Env) (text : List Char) (n : Nat) : Out Empty (List (Out StoreSerError Store)) := do
  let store ← example_ env text
  let sered ← Store.ser env store
  still (measured (Store.deser env sered)) n

end Benches

end Souris
