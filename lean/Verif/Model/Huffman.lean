import Verif.Model.Bits

/-!
# `Huffman` (crates/sourisdb/src/utilities/huffman.rs)

A `HashMap` is modelled by what can be observed of it: lookups are functions, and turning it into a
list gives its entries in *some* order. That order is the parameter `ord`, of which the theorems
assume only that it returns a permutation. Weights are `Nat`: their sum is the length of the data, so
the `usize` additions (L316, L349) cannot overflow. `find`/`find_internal` (L103-131) are dead code
and are not modelled.
-/

namespace Souris

/-- huffman.rs L93-99. -/
inductive Node (T : Type)
  | leaf (t : T)
  | branch (left right : Node T)
deriving DecidableEq, Repr

/-- huffman.rs L212-227. -/
inductive HuffmanSerError
  | invalidCharacter (n : Nat)
  | integer (e : IntegerSerError)
  | notEnoughBytes
  | invalidNodeFormat (ex : Char) (found : UInt8)
  | invalidDiscriminant (b : UInt8)
  | unableToCode
  | unableToCreateNodeTree
deriving DecidableEq, Repr

namespace Huffman

variable {T : Type} [DecidableEq T]

/-- L313-316: `*frequency_table.entry(ch).or_default() += 1`, on the entries of the map. -/
def bump (x : T) : List (T × Nat) → List (T × Nat)
  | [] => [(x, 1)]
  | (y, n) :: l => if x = y then (y, n + 1) :: l else (y, n) :: bump x l

/-- L312-317: the frequency table of the data. -/
def freqTable (data : List T) : List (T × Nat) := data.foldl (fun l x => bump x l) []

/-- Index of the first minimum, `iter().enumerate().min_by_key(..)` of L298-303. -/
def minIdx {α : Type} : List (α × Nat) → Option Nat
  | [] => none
  | (_, w) :: l =>
    match minIdx l with
    | none => some 0
    | some i =>
      match l[i]? with
      | none => some 0
      | some (_, w') => if w' < w then some (i + 1) else some 0

/-- `Vec::swap_remove`. -/
def swapRemove {α : Type} (l : List α) (i : Nat) : Option (α × List α) :=
  match l[i]?, l.getLast? with
  | some x, some z => some (x, (l.set i z).dropLast)
  | _, _ => none

/-- huffman.rs L294-306: `MinHeap::next`. -/
def heapNext {α : Type} (l : List (α × Nat)) : Option ((α × Nat) × List (α × Nat)) :=
  match minIdx l with
  | none => none
  | some i => swapRemove l i

/-- huffman.rs L339-351: the loop. Each iteration shortens the heap by one, so `fuel` equal to the
number of entries suffices (`build_ok` in the lemmas); running out of it is reported as
`Panic.unreachable`, which therefore never happens. -/
def build : Nat → List (Node T × Nat) → Out HuffmanSerError (Node T)
  | 0, _ => .panic .unreachable
  | fuel + 1, heap =>
    match heapNext heap with
    | none => .panic .unwrapNone
    | some ((a, wa), heap1) =>
      match heapNext heap1 with
      | none => .ok a
      | some ((b, wb), heap2) => build fuel (heap2 ++ [(Node.branch a b, wa + wb)])

/-- huffman.rs L325-352: `data_with_frequencies_to_node_tree`. The entries of `data` are already
distinct, so the second map (L331-335) has the entries `(Leaf(ch), freq)`; `ord` is the order in
which it is drained. -/
def nodeTree (ord : List (Node T × Nat) → List (Node T × Nat)) (data : List (T × Nat)) :
    Out HuffmanSerError (Node T) :=
  if data = [] then .err .unableToCreateNodeTree
  else
    let heap := ord (data.map (fun p => (Node.leaf p.1, p.2)))
    build heap.length heap

/-- huffman.rs L357-376: `add_node_to_table`. -/
def addNode : Node T → (T → Option Bits) → Bits → (T → Option Bits)
  | .leaf t, tbl, bits => fun x => if x = t then some bits else tbl x
  | .branch l r, tbl, bits => addNode r (addNode l tbl (bits.push true)) (bits.push false)

end Huffman

/-- huffman.rs L85-88. -/
structure Huffman (T : Type) where
  toBits : T → Option Bits
  root : Node T

namespace Huffman

variable {T : Type} [DecidableEq T]

/-- The coder of a tree: L387-391 and L461-465, L626-630. -/
def ofRoot (root : Node T) : Huffman T := ⟨addNode root (fun _ => none) Bits.empty, root⟩

/-- huffman.rs L384-392: `new`. -/
def new (ord : List (Node T × Nat) → List (Node T × Nat)) (data : List T) :
    Out HuffmanSerError (Huffman T) := do
  let root ← nodeTree ord (freqTable data)
  return ofRoot root

/-- The `collect::<Option<Bits>>` of L408-413, via `FromIterator<Bits>` (bits.rs L213-222). -/
def encodeAux (tbl : T → Option Bits) : List T → Bits → Out HuffmanSerError Bits
  | [], acc => .ok acc
  | x :: xs, acc =>
    match tbl x with
    | none => .err .unableToCode
    | some b => do
      let acc' ← (acc.pushMany b).mapErr Empty.elim
      encodeAux tbl xs acc'

/-- huffman.rs L408-413: `encode`. -/
def encode (h : Huffman T) (xs : List T) : Out HuffmanSerError Bits :=
  encodeAux h.toBits xs Bits.empty

/-- huffman.rs L398-405: `new_and_encode`. -/
def newAndEncode (ord : List (Node T × Nat) → List (Node T × Nat)) (data : List T) :
    Out HuffmanSerError (Huffman T × Bits) := do
  let h ← new ord data
  let bits ← h.encode data
  return (h, bits)

/-- huffman.rs L421-443: the loop of `decode`; `!=` on nodes is structural. -/
def decodeAux (root : Node T) : Node T → List T → List Bool → Out HuffmanSerError (List T)
  | cur, acc, [] => if cur ≠ root then .err .unableToCode else .ok acc
  | .leaf _, _, _ :: _ => .panic .unreachable
  | .branch l r, acc, b :: bs =>
    match (if b then l else r) with
    | .leaf t => decodeAux root root (acc ++ [t]) bs
    | found => decodeAux root found acc bs

/-- huffman.rs L417-444: `decode`. -/
def decode (h : Huffman T) (bits : Bits) : Out HuffmanSerError (List T) := do
  let bools ← bits.toBools.mapErr Empty.elim
  decodeAux h.root h.root [] bools

end Huffman

namespace Node

/-- huffman.rs L142-152: `Node::<u8>::ser`. -/
def ser8 : Node UInt8 → List UInt8
  | .leaf b => [1, b]
  | .branch l r => 0 :: (ser8 l ++ ser8 r)

/-- huffman.rs L154-174: `Node::<u8>::deser`. `fuel` bounds the recursion depth; every call consumes a
byte, so one more than the number of bytes ahead suffices (`deser8_noPanic`); running out is reported as
`Panic.explicit`, which never happens. Stack overflow is not modelled. -/
def deser8Aux : Nat → Parser HuffmanSerError (Node UInt8)
  | 0 => Parser.crash .explicit
  | fuel + 1 => do
    let start ← Parser.next .notEnoughBytes
    if start = 0 then do
      let left ← deser8Aux fuel
      let right ← deser8Aux fuel
      return .branch left right
    else if start = 1 then do
      let byte ← Parser.next .notEnoughBytes
      return .leaf byte
    else Parser.fail (.invalidDiscriminant start)

/-- `Node::<u8>::deser` with enough fuel. -/
def deser8 : Parser HuffmanSerError (Node UInt8) := fun c =>
  deser8Aux (c.backing.length - c.pos + 1) c

/-- huffman.rs L177-187: `Node::<char>::ser`. (`ch as u32 + 1` cannot overflow.) -/
def serChar : Node Char → List UInt8
  | .leaf ch => (Integer.ofUnsigned 4 (ch.toNat + 1)).ser.2
  | .branch l r => 0 :: (serChar l ++ serChar r)

/-- L197 `cursor.move_backwards(1)` (its result is ignored). -/
def stepBack : Parser HuffmanSerError Unit := fun c => .ok ((), (c.moveBackwards 1).2)

/-- L198-203: from a `u32` to a leaf; `ch - 1` panics for 0, with overflow checks. -/
def charLeaf (n : Nat) : Out HuffmanSerError (Node Char) :=
  if n = 0 then .panic .arith
  else if h : (n - 1).isValidChar then .ok (.leaf (Char.ofNatAux (n - 1) h))
  else .err (.invalidCharacter (n - 1))

/-- huffman.rs L189-207: `Node::<char>::deser`, with fuel as in `deser8Aux`. -/
def deserCharAux : Nat → Parser HuffmanSerError (Node Char)
  | 0 => Parser.crash .explicit
  | fuel + 1 => do
    let ch ← Parser.next .notEnoughBytes
    if ch = 0 then do
      let left ← deserCharAux fuel
      let right ← deserCharAux fuel
      return .branch left right
    else do
      stepBack
      let i ← (Integer.deser .unsigned).mapErr .integer
      let n ← (Parser.lift (i.toUnsigned 4)).mapErr .integer
      Parser.lift (charLeaf n)

/-- `Node::<char>::deser` with enough fuel. -/
def deserChar : Parser HuffmanSerError (Node Char) := fun c =>
  deserCharAux (c.backing.length - c.pos + 1) c

end Node

namespace Huffman

/-- huffman.rs L449-452: `Huffman::<u8>::ser`. -/
def ser8 (h : Huffman UInt8) : List UInt8 := h.root.ser8

/-- huffman.rs L457-466: `Huffman::<u8>::deser`. -/
def deser8 : Parser HuffmanSerError (Huffman UInt8) := do
  let root ← Node.deser8
  return ofRoot root

/-- huffman.rs L614-617: `Huffman::<char>::ser`. -/
def serChar (h : Huffman Char) : List UInt8 := h.root.serChar

/-- huffman.rs L622-631: `Huffman::<char>::deser`. -/
def deserChar : Parser HuffmanSerError (Huffman Char) := do
  let root ← Node.deserChar
  return ofRoot root

end Huffman

end Souris
