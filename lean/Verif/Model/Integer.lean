import Verif.Model.Cursor
import Verif.Model.Bytes

/-!
# `Integer` (crates/sourisdb/src/types/integer.rs)

The `from_signed!`/`from_unsigned!` macros are instantiated for the six widths 1, 2, 4, 8, 8, 16
bytes (`isize`/`usize` are 8 bytes); here they are functions of the byte width `k`.
-/

namespace Souris

/-- integer.rs L22-27. -/
inductive SignedState
  | unsigned
  | signedPositive
  | signedNegative
deriving DecidableEq, Repr

/-- integer.rs L642-655. `IntegerParseError` keeps no payload (std's `ParseIntError`);
`SerdeCustom` belongs to the serde glue, which is not modelled. -/
inductive IntegerSerError
  | invalidSignedStateDiscriminant (b : UInt8)
  | notEnoughBytes
  | tooBigToFit
  | signError
  | integerParseError
deriving DecidableEq, Repr

namespace SignedState

/-- integer.rs L29-37: `From<SignedState> for u8`. -/
def toU8 : SignedState → UInt8
  | unsigned => 0
  | signedPositive => 1
  | signedNegative => 2

/-- integer.rs L38-49: `TryFrom<u8> for SignedState`. -/
def ofU8 (b : UInt8) : Out IntegerSerError SignedState :=
  if b = 0 then .ok unsigned
  else if b = 1 then .ok signedPositive
  else if b = 2 then .ok signedNegative
  else .err (.invalidSignedStateDiscriminant b)

end SignedState

/-- integer.rs L56: `INTEGER_MAX_SIZE = u128::BITS / 8`. -/
def integerMaxSize : Nat := 16

/-- integer.rs L59: `ONE_BYTE_MAX_SIZE = u8::MAX - 16`. -/
def oneByteMaxSize : Nat := 239

/-- integer.rs L69-74. `content` is a `[u8; 16]`. -/
structure Integer where
  signedState : SignedState
  content : List UInt8
  used : Nat
deriving DecidableEq, Repr

namespace Integer

/-- The loop of integer.rs L211-220 / L228-236: one more than the index of the last byte of `bs`
different from `fill` (0 if there is none). `i` is the loop index, `acc` the running variable. -/
def lastNe (fill : UInt8) : Nat → Nat → List UInt8 → Nat
  | _, acc, [] => acc
  | i, acc, b :: bs => lastNe fill (i + 1) (if b ≠ fill then i + 1 else acc) bs

/-- The loop of integer.rs L295-302: index of the last non-zero byte (0 if there is none). -/
def lastNonZeroIdx : Nat → Nat → List UInt8 → Nat
  | _, acc, [] => acc
  | i, acc, b :: bs => lastNonZeroIdx (i + 1) (if b ≠ 0 then i else acc) bs

/-- integer.rs L196-245: `From<$t> for Integer` for the signed type of `k` bytes. -/
def ofSigned (k : Nat) (n : Int) : Integer :=
  if n = 0 then ⟨.signedPositive, List.replicate integerMaxSize 0, 0⟩
  else if n = -1 then ⟨.signedNegative, List.replicate integerMaxSize 255, 1⟩
  else if n < 0 then
    ⟨.signedNegative, copyPrefix (List.replicate integerMaxSize 255) (leBytesS k n),
      lastNe 255 0 0 (leBytesS k n)⟩
  else
    ⟨.signedPositive, copyPrefix (List.replicate integerMaxSize 0) (leBytesS k n),
      lastNe 0 0 0 (leBytesS k n)⟩

/-- integer.rs L293-310: `From<$t> for Integer` for the unsigned type of `k` bytes. -/
def ofUnsigned (k : Nat) (n : Nat) : Integer :=
  ⟨.unsigned, copyPrefix (List.replicate integerMaxSize 0) (leBytes k n),
    lastNonZeroIdx 0 0 (leBytes k n) + 1⟩

/-- integer.rs L247-286: `TryFrom<Integer>` for the signed type of `k` bytes. -/
def toSigned (k : Nat) (i : Integer) : Out IntegerSerError Int :=
  if i.used > k then .err .tooBigToFit
  else
    let out :=
      if i.signedState = .signedNegative then
        copyPrefix (List.replicate k 255) (i.content.take i.used)
      else
        copyPrefix (List.replicate k 0) (i.content.take i.used)
    .ok (ofLeS out)

/-- integer.rs L311-336: `TryFrom<Integer>` for the unsigned type of `k` bytes. -/
def toUnsigned (k : Nat) (i : Integer) : Out IntegerSerError Nat :=
  if i.used > k then .err .tooBigToFit
  else if i.signedState = .signedNegative then .err .signError
  else .ok (ofLe (copyPrefix (List.replicate k 0) (i.content.take k)))

/-- integer.rs L110-112. -/
def isNegative (i : Integer) : Bool := i.signedState = .signedNegative

/-- integer.rs L116-118. -/
def isPositive (i : Integer) : Bool := i.signedState ≠ .signedNegative

/-- integer.rs L76-91: `PartialEq::eq`. -/
def eq (a b : Integer) : Bool :=
  if a.content.take a.used ≠ b.content.take b.used then false
  else
    match a.signedState with
    | .unsigned | .signedPositive => b.signedState ≠ .signedNegative
    | .signedNegative => b.signedState = .signedNegative

/-- What integer.rs L94-105 feeds to the hasher: the (normalised) sign, the used bytes (a slice hashes
its length and its bytes), and the number of used bytes. -/
def hashData (i : Integer) : SignedState × List UInt8 × Nat :=
  (if i.signedState = .signedNegative then .signedNegative else .signedPositive,
    i.content.take i.used, i.used)

/-- integer.rs L701-720: `ser`. The `u8` addition of L712 cannot overflow when `used ≤ 16`; it is
reduced modulo 256 here. -/
def ser (i : Integer) : SignedState × List UInt8 :=
  let first := i.content.headD 0
  if i.used ≤ 1 ∧ first.toNat ≤ oneByteMaxSize then (i.signedState, [first])
  else
    let size := UInt8.ofNat (oneByteMaxSize + i.used)
    (i.signedState, size :: (if i.used ≠ 0 then i.content.take i.used else []))

/-- The initial `content` array in integer.rs L735-739 and L756-760. -/
def fillArray (ss : SignedState) : List UInt8 :=
  if ss = .signedNegative then List.replicate integerMaxSize 255
  else List.replicate integerMaxSize 0

/-- integer.rs L726-770: `deser`. -/
def deser (ss : SignedState) : Parser IntegerSerError Integer := do
  let first ← Parser.next .notEnoughBytes
  if first.toNat ≤ oneByteMaxSize then
    return ⟨ss, copyPrefix (fillArray ss) [first],
      if ss = .signedNegative ∨ first ≠ 0 then 1 else 0⟩
  else
    let used := first.toNat - oneByteMaxSize
    let stored ← Parser.read .notEnoughBytes used
    return ⟨ss, copyPrefix (fillArray ss) stored, used⟩

/-! ### Arithmetic, integer.rs L470-507 -/

/-- The four operators given to `integer_trait_impl!`. -/
inductive Op
  | add | sub | mul | div
deriving DecidableEq, Repr

/-- Mathematical meaning of Rust's operator on integers (`/` truncates towards zero). -/
def Op.exact : Op → Int → Int → Int
  | .add, a, b => a + b
  | .sub, a, b => a - b
  | .mul, a, b => a * b
  | .div, a, b => a.tdiv b

/-- Rust's operator on `u128`: division by zero panics; an out-of-range result panics when overflow
checks are on and wraps otherwise. -/
def opU128 (checks : Bool) (op : Op) (a b : Nat) : Out IntegerSerError Nat :=
  if op = .div ∧ b = 0 then .panic .arith
  else
    let r := op.exact a b
    if 0 ≤ r ∧ r < 2 ^ 128 then .ok r.toNat
    else if checks then .panic .arith
    else .ok (toPattern 16 r)

/-- Rust's operator on `i128`: division by zero and `MIN / -1` always panic; otherwise an out-of-range
result panics when overflow checks are on and wraps otherwise. -/
def opI128 (checks : Bool) (op : Op) (a b : Int) : Out IntegerSerError Int :=
  if op = .div ∧ (b = 0 ∨ (a = -(2 ^ 127) ∧ b = -1)) then .panic .arith
  else
    let r := op.exact a b
    if -(2 ^ 127) ≤ r ∧ r < 2 ^ 127 then .ok r
    else if checks then .panic .arith
    else .ok (ofPattern 16 (toPattern 16 r))

/-- integer.rs L475-500: the operator on `Integer`s. `checks` says whether the build has overflow
checks. The `else panic!` branches are `expect`-style panics. -/
def arith (checks : Bool) (op : Op) (a b : Integer) : Out Empty Integer :=
  if a.signedState = .unsigned ∧ b.signedState = .unsigned then
    match a.toUnsigned 16, b.toUnsigned 16 with
    | .ok x, .ok y =>
      match opU128 checks op x y with
      | .ok r => .ok (ofUnsigned 16 r)
      | .err _ => .panic .explicit
      | .panic p => .panic p
    | _, _ => .panic .explicit
  else
    match a.toSigned 16, b.toSigned 16 with
    | .ok x, .ok y =>
      match opI128 checks op x y with
      | .ok r => .ok (ofSigned 16 r)
      | .err _ => .panic .explicit
      | .panic p => .panic p
    | _, _ => .panic .explicit

end Integer

end Souris
