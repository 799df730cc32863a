import Verif.Model.Cursor

/-! # Lemmas about cursors and parsers -/

namespace Souris

/-- A cursor that has already passed `pre` and has `rest` in front of it. -/
def Cursor.At (pre rest : List UInt8) : Cursor UInt8 := ⟨pre ++ rest, pre.length⟩

theorem Cursor.new_eq_At (bs : List UInt8) : Cursor.new bs = Cursor.At [] bs := rfl

/-- `Reads p bs x`: wherever the bytes `bs` are ahead in a slice (of addressable size), `p` returns
`x` and consumes exactly `bs`. -/
def Reads {ε α : Type} (p : Parser ε α) (bs : List UInt8) (x : α) : Prop :=
  ∀ pre tail, (pre ++ bs ++ tail).length < usizeMod →
    p (Cursor.At pre (bs ++ tail)) = .ok (x, Cursor.At (pre ++ bs) tail)

namespace Reads

variable {ε ε' α β : Type}

theorem pure (x : α) : Reads (Pure.pure x : Parser ε α) [] x := by
  intro pre tail _; simp

theorem bind {p : Parser ε α} {f : α → Parser ε β} {b1 b2 : List UInt8} {x : α} {y : β}
    (h1 : Reads p b1 x) (h2 : Reads (f x) b2 y) : Reads (p >>= f) (b1 ++ b2) y := by
  intro pre tail hlen
  rw [Parser.bind_apply, List.append_assoc, h1 pre (b2 ++ tail) (by simpa using hlen)]
  simp only [Out.ok_bind]
  rw [h2 (pre ++ b1) tail (by simpa using hlen)]
  simp

theorem bind' {p : Parser ε α} {f : α → Parser ε β} {b b1 b2 : List UInt8} {x : α} {y : β}
    (hb : b = b1 ++ b2) (h1 : Reads p b1 x) (h2 : Reads (f x) b2 y) : Reads (p >>= f) b y :=
  hb ▸ bind h1 h2

theorem mapErr {p : Parser ε α} {b : List UInt8} {x : α} (f : ε → ε') (h : Reads p b x) :
    Reads (p.mapErr f) b x := by
  intro pre tail hlen
  simp [h pre tail hlen]

theorem lift (x : α) : Reads (Parser.lift (.ok x) : Parser ε α) [] x := by
  intro pre tail _; simp

theorem next (e : ε) (b : UInt8) : Reads (Parser.next e) [b] b := by
  intro pre tail _
  simp [Parser.next, Cursor.next, Cursor.At]
  rw [if_neg (by omega)]

theorem read (e : ε) {n : Nat} {bs : List UInt8} (hn : bs.length = n) :
    Reads (Parser.read e n) bs bs := by
  intro pre tail hlen
  subst hn
  simp only [List.length_append] at hlen
  simp [Parser.read, Cursor.read, Cursor.At, checkedAdd, Cursor.slice,
    show pre.length + bs.length < usizeMod by omega]
  rw [if_neg (by omega)]

/-- A parser that reads something does so in particular from a fresh cursor on just those bytes. -/
theorem run {p : Parser ε α} {b : List UInt8} {x : α} (h : Reads p b x)
    (hb : b.length < usizeMod) : p (Cursor.new b) = .ok (x, ⟨b, b.length⟩) := by
  have := h [] [] (by simpa using hb)
  simpa [Cursor.At, Cursor.new] using this

end Reads

end Souris
