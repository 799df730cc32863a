/-!
# Little-endian bytes

`to_le_bytes`/`from_le_bytes` of Rust's fixed-width integers, generic in the number `k` of bytes.
A `k`-byte unsigned integer is a `Nat` below `256^k`, a signed one an `Int` in
`-(256^k/2) .. 256^k/2 - 1`.
-/

namespace Souris

/-- `n.to_le_bytes()` for a `k`-byte unsigned integer: byte `i` is `n / 256^i mod 256`. -/
def leBytes : Nat → Nat → List UInt8
  | 0, _ => []
  | k + 1, n => UInt8.ofNat n :: leBytes k (n / 256)

/-- Unsigned `from_le_bytes`. -/
def ofLe : List UInt8 → Nat
  | [] => 0
  | b :: bs => b.toNat + 256 * ofLe bs

/-- Two's complement bit pattern of a `k`-byte signed integer, as an unsigned number. -/
def toPattern (k : Nat) (n : Int) : Nat := (n % (256 ^ k : Nat)).toNat

/-- The signed number with a given `k`-byte two's complement bit pattern. -/
def ofPattern (k : Nat) (m : Nat) : Int :=
  if 2 * m < 256 ^ k then (m : Int) else (m : Int) - (256 ^ k : Nat)

/-- Signed `n.to_le_bytes()`. -/
def leBytesS (k : Nat) (n : Int) : List UInt8 := leBytes k (toPattern k n)

/-- Signed `from_le_bytes`. -/
def ofLeS (bs : List UInt8) : Int := ofPattern bs.length (ofLe bs)

/-- `for (i, b) in bs.enumerate() { base[i] = b }`: overwrite a prefix of `base`.
(Every use in the code has `bs.length ≤ base.length`; out-of-range writes, which would panic in Rust,
are dropped here.) -/
def copyPrefix : List UInt8 → List UInt8 → List UInt8
  | base, [] => base
  | [], _ :: _ => []
  | _ :: base, b :: bs => b :: copyPrefix base bs

end Souris
