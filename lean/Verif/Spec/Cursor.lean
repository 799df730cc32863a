import Verif.Model.Cursor

/-! # Specification of `Cursor`: a zipper (items already passed, items ahead) -/

namespace Souris

namespace Cursor

variable {α : Type}

/-- Operations of the cursor API (`seek` apart, see C13). Offsets are `usize`. -/
inductive Op
  | moveForwards (n : Nat)
  | moveBackwards (n : Nat)
  | read (n : Nat)
  | peek (n : Nat)
  | readRemaining
  | peekRemaining
  | pos
  | itemsRemaining
  | setPos (n : Nat)
  | isFinished
  | next

/-- What an operation returns. -/
inductive Res (α : Type)
  | unit
  | bool (b : Bool)
  | nat (n : Nat)
  | items (l : List α)
  | optItems (l : Option (List α))
  | optItem (x : Option α)
  | panicked
deriving DecidableEq

/-- Specification: `(d, t)` are the items before and after the position. -/
def specStep (d t : List α) : Op → Res α × List α × List α
  | .moveForwards n =>
    if n ≤ t.length then (.bool true, d ++ t.take n, t.drop n) else (.bool false, d, t)
  | .moveBackwards n =>
    if n ≤ d.length then
      (.bool true, d.take (d.length - n), d.drop (d.length - n) ++ t)
    else (.bool false, d, t)
  | .read n =>
    if n ≤ t.length then (.optItems (some (t.take n)), d ++ t.take n, t.drop n)
    else (.optItems none, d, t)
  | .peek n => (.optItems (if n ≤ t.length then some (t.take n) else none), d, t)
  | .readRemaining => (.items t, d ++ t, [])
  | .peekRemaining => (.items t, d, t)
  | .pos => (.nat d.length, d, t)
  | .itemsRemaining => (.nat t.length, d, t)
  | .setPos n => (.unit, (d ++ t).take n, (d ++ t).drop n)
  | .isFinished => (.bool t.isEmpty, d, t)
  | .next =>
    match t with
    | [] => (.optItem none, d, [])
    | x :: t' => (.optItem (some x), d ++ [x], t')

/-- The modelled code performing one operation. -/
def implStep (c : Cursor α) : Op → Res α × Cursor α
  | .moveForwards n => ((.bool (c.moveForwards n).1), (c.moveForwards n).2)
  | .moveBackwards n => ((.bool (c.moveBackwards n).1), (c.moveBackwards n).2)
  | .read n => (.optItems (c.read n).1, (c.read n).2)
  | .peek n => (.optItems (c.peek n), c)
  | .readRemaining => (.items c.readRemaining.1, c.readRemaining.2)
  | .peekRemaining => (.items c.asRef, c)
  | .pos => (.nat c.pos, c)
  | .itemsRemaining =>
    (match c.itemsRemaining with | .ok n => .nat n | _ => .panicked, c)
  | .setPos n => (.unit, c.setPos n)
  | .isFinished => (.bool c.isFinished, c)
  | .next => (.optItem c.next.1, c.next.2)

/-- Specification of a history. -/
def specRun : List Op → List α → List α → List (Res α) × List α × List α
  | [], d, t => ([], d, t)
  | op :: ops, d, t =>
    let (r, d', t') := specStep d t op
    let (rs, z) := specRun ops d' t'
    (r :: rs, z)

/-- The modelled code performing a history. -/
def implRun : List Op → Cursor α → List (Res α) × Cursor α
  | [], c => ([], c)
  | op :: ops, c =>
    let (r, c') := implStep c op
    let (rs, c'') := implRun ops c'
    (r :: rs, c'')

/-- The position that `std::io::Seek` asks for, relative to a stream of `len` items at `pos`. -/
def seekTarget (pos len : Nat) : SeekFrom → Int
  | .start n => n
  | .fromEnd n => len + n
  | .current n => pos + n

/-- The `std::io::Seek` contract for a cursor that may not leave its slice. -/
def SeekContract (c : Cursor α) (s : SeekFrom) : Prop :=
  if 0 ≤ seekTarget c.pos c.backing.length s ∧
      seekTarget c.pos c.backing.length s ≤ c.backing.length then
    c.seek s = (.ok (seekTarget c.pos c.backing.length s).toNat,
      ⟨c.backing, (seekTarget c.pos c.backing.length s).toNat⟩)
  else c.seek s = (.err (), c)

/-- `SeekFrom` carries a `u64` or an `i64`. -/
def SeekFrom.Native : SeekFrom → Prop
  | .start n => n < 2 ^ 64
  | .fromEnd n => -(2 ^ 63 : Int) ≤ n ∧ n < 2 ^ 63
  | .current n => -(2 ^ 63 : Int) ≤ n ∧ n < 2 ^ 63

end Cursor

end Souris
