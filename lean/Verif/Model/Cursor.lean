import Verif.Model.Out

/-!
# `Cursor` (crates/sourisdb/src/utilities/cursor.rs)

`usize` is modelled as `Nat`; every place where the Rust uses a checked operation is written with an
explicit bound `usizeMod = 2^64`. Borrowing is not modelled (a slice is a `List`).
-/

namespace Souris

/-- Number of `usize` values on the assumed 64-bit target. -/
def usizeMod : Nat := 2 ^ 64

/-- `usize::checked_add`. -/
def checkedAdd (a b : Nat) : Option Nat := if a + b < usizeMod then some (a + b) else none

/-- `usize::checked_sub`. -/
def checkedSub (a b : Nat) : Option Nat := if b ≤ a then some (a - b) else none

/-- cursor.rs L22-25: `struct Cursor { backing: &[T], pos: usize }`. -/
structure Cursor (α : Type) where
  backing : List α
  pos : Nat
deriving DecidableEq, Repr

namespace Cursor

variable {α : Type}

/-- cursor.rs L29-34: `Cursor::new`. -/
def new (backing : List α) : Cursor α := ⟨backing, 0⟩

/-- cursor.rs L41-51: `move_forwards`. -/
def moveForwards (c : Cursor α) (offset : Nat) : Bool × Cursor α :=
  match checkedAdd c.pos offset with
  | none => (false, c)
  | some newPos =>
    if newPos > c.backing.length then (false, c) else (true, { c with pos := newPos })

/-- cursor.rs L58-65: `move_backwards`. -/
def moveBackwards (c : Cursor α) (offset : Nat) : Bool × Cursor α :=
  match checkedSub c.pos offset with
  | none => (false, c)
  | some newPos => (true, { c with pos := newPos })

/-- The slice expression `&backing[start..end]` (only used with `start ≤ end ≤ len`). -/
def slice (l : List α) (start stop : Nat) : List α := (l.drop start).take (stop - start)

/-- cursor.rs L71-80: `read`. Also L101-110 `read_exact::<N>`, whose `try_into` cannot fail because
the slice has exactly `N` elements. -/
def read (c : Cursor α) (n : Nat) : Option (List α) × Cursor α :=
  match checkedAdd c.pos n with
  | none => (none, c)
  | some stop =>
    if stop > c.backing.length then (none, c)
    else (some (slice c.backing c.pos stop), { c with pos := stop })

/-- cursor.rs L114-122 `peek` (and L126-134 `peek_exact`). -/
def peek (c : Cursor α) (n : Nat) : Option (List α) :=
  match checkedAdd c.pos n with
  | none => none
  | some stop =>
    if stop > c.backing.length then none else some (slice c.backing c.pos stop)

/-- cursor.rs L140-148: `read_remaining`. -/
def readRemaining (c : Cursor α) : List α × Cursor α :=
  if c.pos ≥ c.backing.length then ([], c)
  else (c.backing.drop c.pos, { c with pos := c.backing.length })

/-- cursor.rs L186-194: `AsRef::as_ref`, and L154-156 `peek_remaining`. -/
def asRef (c : Cursor α) : List α :=
  if c.pos ≥ c.backing.length then [] else c.backing.drop c.pos

/-- cursor.rs L168-170: `items_remaining`; `usize` subtraction panics when it would underflow. -/
def itemsRemaining (c : Cursor α) : Out Empty Nat :=
  if c.pos ≤ c.backing.length then .ok (c.backing.length - c.pos) else .panic .arith

/-- cursor.rs L175-177: `set_pos`. -/
def setPos (c : Cursor α) (new : Nat) : Cursor α := { c with pos := min c.backing.length new }

/-- cursor.rs L181-183: `is_finished`. -/
def isFinished (c : Cursor α) : Bool := c.pos ≥ c.backing.length

/-- cursor.rs L199-206: `Iterator::next`. -/
def next (c : Cursor α) : Option α × Cursor α :=
  if c.pos ≥ c.backing.length then (none, c)
  else (c.backing[c.pos]?, { c with pos := c.pos + 1 })

/-- `std::io::SeekFrom`: `Start` carries a `u64`, the others an `i64`. -/
inductive SeekFrom
  | start (n : Nat)
  | fromEnd (n : Int)
  | current (n : Int)
deriving DecidableEq, Repr

/-- cursor.rs L216-247: `Seek::seek`. The error type is one `io::Error` kind, modelled as `Unit`.
`-offset` for `i64::MIN` overflows (L229), which is a panic with overflow checks. -/
def seek (c : Cursor α) : SeekFrom → Out Unit Nat × Cursor α
  | .current offset =>
    if offset > 0 then
      match c.moveForwards offset.toNat with
      | (true, c') => (.ok c'.pos, c')
      | (false, c') => (.err (), c')
    else (.ok c.pos, c)
  | .fromEnd offset =>
    if offset > 0 then (.err (), c)
    else if offset = -(2 ^ 63 : Int) then (.panic .arith, c)
    else
      match c.moveBackwards (-offset).toNat with
      | (true, c') => (.ok c'.pos, c')
      | (false, c') => (.err (), c')
  | .start offset =>
    match c.moveBackwards offset with
    | (true, c') => (.ok c'.pos, c')
    | (false, c') => (.err (), c')

end Cursor

/-! ## Parsers: functions taking `&mut Cursor<u8>` -/

/-- A Rust function `fn(&mut Cursor<u8>) -> Result<α, ε>`. When it fails, the position of the
cursor is dropped: every caller in the code base propagates the failure. -/
def Parser (ε α : Type) : Type := Cursor UInt8 → Out ε (α × Cursor UInt8)

namespace Parser

variable {ε ε' α β : Type}

/-- A parser that reads nothing. -/
def ret (a : α) : Parser ε α := fun c => .ok (a, c)

/-- Sequencing. -/
def bind (p : Parser ε α) (f : α → Parser ε β) : Parser ε β := fun c =>
  match p c with
  | .ok (a, c') => f a c'
  | .err e => .err e
  | .panic r => .panic r

instance : Monad (Parser ε) where
  pure := ret
  bind := bind

/-- `?` with a `From` conversion of the error. -/
def mapErr (f : ε → ε') (p : Parser ε α) : Parser ε' α := fun c => (p c).mapErr f

/-- A computation that does not touch the cursor. -/
def lift (x : Out ε α) : Parser ε α := fun c =>
  match x with
  | .ok a => .ok (a, c)
  | .err e => .err e
  | .panic r => .panic r

/-- Return an error. -/
def fail (e : ε) : Parser ε α := fun _ => .err e

/-- Panic. -/
def crash (p : Panic) : Parser ε α := fun _ => .panic p

/-- `let Some(b) = reader.next() else { return Err(e) }`. -/
def next (e : ε) : Parser ε UInt8 := fun c =>
  match c.next with
  | (some b, c') => .ok (b, c')
  | (none, _) => .err e

/-- `let Some(bs) = reader.read(n) else { return Err(e) }`. -/
def read (e : ε) (n : Nat) : Parser ε (List UInt8) := fun c =>
  match c.read n with
  | (some bs, c') => .ok (bs, c')
  | (none, _) => .err e

@[simp] theorem pure_apply (a : α) (c : Cursor UInt8) :
    (pure a : Parser ε α) c = .ok (a, c) := rfl
theorem bind_apply (p : Parser ε α) (f : α → Parser ε β) (c : Cursor UInt8) :
    (p >>= f) c = p c >>= fun x => f x.1 x.2 := by
  show Parser.bind p f c = _
  unfold Parser.bind
  cases p c <;> rfl
@[simp] theorem mapErr_apply (f : ε → ε') (p : Parser ε α) (c : Cursor UInt8) :
    mapErr f p c = (p c).mapErr f := rfl
@[simp] theorem fail_apply (e : ε) (c : Cursor UInt8) :
    (fail e : Parser ε α) c = .err e := rfl
@[simp] theorem crash_apply (r : Panic) (c : Cursor UInt8) :
    (crash r : Parser ε α) c = .panic r := rfl
@[simp] theorem lift_ok (a : α) (c : Cursor UInt8) :
    (lift (.ok a) : Parser ε α) c = .ok (a, c) := rfl
@[simp] theorem lift_err (e : ε) (c : Cursor UInt8) :
    (lift (.err e) : Parser ε α) c = .err e := rfl
@[simp] theorem lift_panic (r : Panic) (c : Cursor UInt8) :
    (lift (.panic r) : Parser ε α) c = .panic r := rfl

end Parser

end Souris
