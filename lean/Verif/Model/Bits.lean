import Verif.Model.Integer

/-!
# `Bits` (crates/sourisdb/src/utilities/bits.rs)
-/

namespace Souris

/-- bits.rs L18-21. -/
structure Bits where
  backing : List UInt8
  valid : Nat
deriving DecidableEq, Repr

namespace Bits

/-- `Bits::default()` (derived). -/
def empty : Bits := ⟨[], 0⟩

/-- The `u8` with only bit `i` set, Rust's `1 << i`. -/
def bit (i : Nat) : UInt8 := 1 <<< UInt8.ofNat i

/-- bits.rs L58-68: `push`. The index in L65 is in range whenever `backing` has `⌈valid/8⌉` bytes
(theorem `C14_push_in_range`); an out-of-range update is dropped here, where Rust would panic. -/
def push (b : Bits) (x : Bool) : Bits :=
  let backing := if b.valid % 8 = 0 then b.backing ++ [0] else b.backing
  ⟨backing.modify (b.valid / 8) (fun y => y ||| (if x then bit (b.valid % 8) else 0)), b.valid + 1⟩

/-- bits.rs L71-76: `from_binary`. -/
def fromBinary (backing : List UInt8) : Bits := ⟨backing, backing.length * 8⟩

/-- bits.rs L96-112: `pop`. -/
def pop (b : Bits) : Out Empty (Option Bool × Bits) :=
  if b.valid = 0 then .ok (none, b)
  else
    let v := b.valid - 1
    if v % 8 = 0 then
      match b.backing.getLast? with
      | none => .panic .unwrapNone
      | some x => .ok (some (x > 0), ⟨b.backing.dropLast, v⟩)
    else
      match b.backing[v / 8]? with
      | none => .panic .index
      | some x =>
        .ok (some (x &&& bit (v % 8) > 0), ⟨b.backing.set (v / 8) (x &&& (255 - bit (v % 8))), v⟩)

/-- The loop of bits.rs L180-182 followed by `reverse`: pop until `None`, the last popped bit comes
first. `fuel` bounds the number of pops; `valid` pops are always enough because every pop lowers
`valid` by one. -/
def drain : Nat → Bits → List Bool → Out Empty (List Bool)
  | 0, _, acc => .ok acc
  | fuel + 1, b, acc =>
    match b.pop with
    | .ok (some x, b') => drain fuel b' (x :: acc)
    | .ok (none, _) => .ok acc
    | .err e => .err e
    | .panic p => .panic p

/-- bits.rs L176-187: `From<Bits> for Vec<bool>`, also `IntoIterator` (L224-232). -/
def toBools (b : Bits) : Out Empty (List Bool) := drain b.valid b []

/-- bits.rs L86-92: `push_many`. -/
def pushMany (b other : Bits) : Out Empty Bits :=
  match other.toBools with
  | .ok bools => .ok (bools.foldl push b)
  | .err e => .err e
  | .panic p => .panic p

/-- bits.rs L189-211: `From<[bool]>` and `FromIterator<bool>`. -/
def ofBools (l : List Bool) : Bits := l.foldl push empty

/-- bits.rs L115-127: `get_proper_bytes`. L124 panics when there is no last byte. -/
def properBytes (b : Bits) : Out Empty (List UInt8) :=
  let i := b.valid % 8
  if i = 0 then .ok b.backing
  else
    let mask := (List.range (i + 1)).foldl (fun acc j => acc ||| bit j) 0
    if b.backing = [] then .panic .arith
    else .ok (b.backing.modify (b.backing.length - 1) (fun y => y &&& mask))

/-- bits.rs L130-142: `len`, `is_empty`, `clear`. -/
def len (b : Bits) : Nat := b.valid
def isEmpty (b : Bits) : Bool := b.valid = 0
def clear (_ : Bits) : Bits := ⟨[], 0⟩

/-- bits.rs L39-41: `PartialEq::eq` (`&&` is short-circuiting). -/
def eq (a b : Bits) : Out Empty Bool :=
  if a.valid = b.valid then
    match a.properBytes, b.properBytes with
    | .ok x, .ok y => .ok (x = y)
    | _, _ => .panic .arith
  else .ok false

/-- bits.rs L52-54: the data fed to the hasher. -/
def hashData (b : Bits) : Out Empty (List UInt8) := b.properBytes

/-- bits.rs L145-150: `ser`. -/
def ser (b : Bits) : Out Empty (List UInt8) :=
  match b.properBytes with
  | .ok bytes => .ok ((Integer.ofUnsigned 8 b.valid).ser.2 ++ bytes)
  | .err e => .err e
  | .panic p => .panic p

/-- `n as f32` for `n : usize`, as an exact natural number: round to nearest, ties to even, on a
24-bit significand. (Every `usize` is below `f32::MAX`.) -/
def roundF32 (n : Nat) : Nat :=
  if n < 2 ^ 24 then n
  else
    let e := Nat.log2 n - 23
    let q := n / 2 ^ e
    let r := n % 2 ^ e
    let half := 2 ^ (e - 1)
    let q' := if r > half ∨ (r = half ∧ q % 2 = 1) then q + 1 else q
    q' * 2 ^ e

/-- bits.rs L164: `(valid_bits as f32 / 8.0).ceil() as usize`. Dividing an `f32` integer by 8 is
exact, and `ceil` of an eighth of a natural number `m` is `⌈m/8⌉`. -/
def bytesToRead (valid : Nat) : Nat := (roundF32 valid + 7) / 8

/-- bits.rs L162-173: `deser`. -/
def deser : Parser IntegerSerError Bits := do
  let i ← Integer.deser .unsigned
  let valid ← Parser.lift (i.toUnsigned 8)
  let backing ← Parser.read .notEnoughBytes (bytesToRead valid)
  return ⟨backing, valid⟩

/-- bits.rs L265-284: `Index::index`; the assertion and the slice index panic. -/
def index (b : Bits) (i : Nat) : Out Empty Bool :=
  if i < b.valid then
    match b.backing[i / 8]? with
    | some x => .ok (x &&& bit (i % 8) > 0)
    | none => .panic .index
  else .panic .explicit

/-- One character of bits.rs L244-248. -/
def displayBit (b : Bits) (i : Nat) : Out Empty Char :=
  match b.backing[i / 8]? with
  | some x => .ok (if x &&& bit (i % 8) > 0 then '1' else '0')
  | none => .panic .index

/-- bits.rs L235-259: `Display::fmt`. The loop prints bits `0 .. valid-2`, the tail prints bit
`valid-1`. -/
def display (b : Bits) : Out Empty (List Char) :=
  if b.valid = 0 then .ok []
  else do
    let front ← (List.range (b.valid - 1)).mapM b.displayBit
    let last ← b.displayBit (b.valid - 1)
    return front ++ [last]

end Bits

end Souris
