/-!
# Outcomes of Rust functions

A Rust function returning `Result<T, E>` can return `Ok`, return `Err` or panic. `Out` keeps the
three apart, so that "does not panic" and "returns an error" are different statements.
-/

namespace Souris

/-- The reasons for which the modelled code can panic. -/
inductive Panic
  /-- `Vec::with_capacity` / `HashMap::with_capacity` / `vec![x; n]` with too large a size
  ("capacity overflow"). -/
  | capacityOverflow
  /-- `Option::unwrap` on `None`. -/
  | unwrapNone
  /-- `unreachable!()`. -/
  | unreachable
  /-- arithmetic overflow (overflow checks enabled) or division by zero. -/
  | arith
  /-- slice index out of bounds. -/
  | index
  /-- an explicit `panic!`/`expect`/`assert!`. -/
  | explicit
deriving DecidableEq, Repr

/-- Outcome of a Rust function that may return `Ok`, `Err`, or panic. -/
inductive Out (ε : Type) (α : Type)
  | ok (a : α)
  | err (e : ε)
  | panic (p : Panic)
deriving DecidableEq, Repr

namespace Out

variable {ε ε' α β : Type}

/-- Sequencing, i.e. Rust's `?` (without error conversion). -/
def bind (x : Out ε α) (f : α → Out ε β) : Out ε β :=
  match x with
  | ok a => f a
  | err e => err e
  | panic p => panic p

instance : Monad (Out ε) where
  pure := ok
  bind := bind

instance : LawfulMonad (Out ε) := LawfulMonad.mk'
  (id_map := by intro α x; cases x <;> rfl)
  (pure_bind := by intros; rfl)
  (bind_assoc := by intro α β γ x f g; cases x <;> rfl)

/-- Error conversion, Rust's `From` conversion inside `?` or `map_err`. -/
def mapErr (f : ε → ε') (x : Out ε α) : Out ε' α :=
  match x with
  | ok a => ok a
  | err e => err (f e)
  | panic p => panic p

/-- `Option::ok_or`. -/
def ofOption (e : ε) : Option α → Out ε α
  | some a => ok a
  | none => err e

/-- The successful result, if any (Rust's `.ok()`). -/
def toOption : Out ε α → Option α
  | ok a => some a
  | _ => none

@[simp] theorem ok_bind (a : α) (f : α → Out ε β) : (ok a >>= f) = f a := rfl
@[simp] theorem err_bind (e : ε) (f : α → Out ε β) : (err e >>= f) = err e := rfl
@[simp] theorem panic_bind (p : Panic) (f : α → Out ε β) : (panic p >>= f) = panic p := rfl
@[simp] theorem pure_eq (a : α) : (pure a : Out ε α) = ok a := rfl
@[simp] theorem bind_eq (x : Out ε α) (f : α → Out ε β) : Out.bind x f = (x >>= f) := rfl
@[simp] theorem mapErr_ok (f : ε → ε') (a : α) : mapErr f (ok a) = ok a := rfl
@[simp] theorem mapErr_err (f : ε → ε') (e : ε) :
    mapErr f (err e : Out ε α) = err (f e) := rfl
@[simp] theorem mapErr_panic (f : ε → ε') (p : Panic) :
    mapErr f (panic p : Out ε α) = panic p := rfl
@[simp] theorem ofOption_some (e : ε) (a : α) : ofOption e (some a) = ok a := rfl
@[simp] theorem ofOption_none (e : ε) : (ofOption e none : Out ε α) = err e := rfl

theorem bind_eq_ok {x : Out ε α} {f : α → Out ε β} {b : β} :
    (x >>= f) = ok b ↔ ∃ a, x = ok a ∧ f a = ok b := by
  cases x <;> simp

theorem bind_eq_panic {x : Out ε α} {f : α → Out ε β} {p : Panic} :
    (x >>= f) = panic p ↔ x = panic p ∨ ∃ a, x = ok a ∧ f a = panic p := by
  cases x <;> simp

theorem mapErr_eq_ok {f : ε → ε'} {x : Out ε α} {a : α} : mapErr f x = ok a ↔ x = ok a := by
  cases x <;> simp

theorem mapErr_eq_panic {f : ε → ε'} {x : Out ε α} {p : Panic} :
    mapErr f x = panic p ↔ x = panic p := by
  cases x <;> simp

theorem ofOption_eq_ok {e : ε} {x : Option α} {a : α} : ofOption e x = ok a ↔ x = some a := by
  cases x <;> simp

theorem ofOption_ne_panic {e : ε} {x : Option α} {p : Panic} :
    ofOption e x ≠ panic p := by
  cases x <;> simp

end Out

end Souris
