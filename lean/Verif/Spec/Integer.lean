import Verif.Model.Integer

/-!
# Specification of `Integer`: it denotes a mathematical integer

Nothing here refers to the conversion, equality or serialisation functions of the model.
-/

namespace Souris

/-- The number denoted by an `Integer`: its 16 content bytes, little-endian, read as two's complement
when the state is negative. -/
def Integer.value (i : Integer) : Int :=
  match i.signedState with
  | .signedNegative => (ofLe i.content : Int) - 2 ^ 128
  | _ => (ofLe i.content : Int)

/-- `n` is a value of the unsigned Rust type with `k` bytes. -/
def IsUnsigned (k : Nat) (n : Nat) : Prop := n < 2 ^ (8 * k)

/-- `n` is a value of the signed Rust type with `k` bytes. -/
def IsSigned (k : Nat) (n : Int) : Prop := -(2 ^ (8 * k - 1) : Int) ≤ n ∧ n < (2 ^ (8 * k - 1) : Int)

/-- Byte widths of Rust integer types: `u8/i8`, `u16/i16`, `u32/i32`, `u64/i64/usize/isize`,
`u128/i128`. -/
def Width (k : Nat) : Prop := k = 1 ∨ k = 2 ∨ k = 4 ∨ k = 8 ∨ k = 16

/-- `Integer`s obtained from a native Rust integer with `From`/`new`. -/
inductive Integer.Native : Integer → Prop
  | unsigned {k n : Nat} (hk : Width k) (hn : IsUnsigned k n) : Native (Integer.ofUnsigned k n)
  | signed {k : Nat} {n : Int} (hk : Width k) (hn : IsSigned k n) : Native (Integer.ofSigned k n)

/-- `Integer`s that exist at run time: built from a native integer, parsed from text (only the
literal `"0"` has its own representation), or deserialised from arbitrary bytes. -/
inductive Integer.Reachable : Integer → Prop
  | native {i : Integer} (h : i.Native) : Reachable i
  | zeroText : Reachable ⟨.unsigned, List.replicate 16 0, 0⟩
  | deser {ss : SignedState} {c c' : Cursor UInt8} {i : Integer}
      (h : Integer.deser ss c = .ok (i, c')) : Reachable i

end Souris
