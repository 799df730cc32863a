import Verif.Spec.ImaginarySerde

/-! # Specification of complex numbers as JSON text -/

namespace Souris

/-- A member of an object: white space, a key in quotes, white space, a colon, white space, a value, white space. -/
structure MemberText where
  before : List Char
  keyText : List Char
  key : List Char
  middle : List Char
  inner : List Char
  value : List Char
  after : List Char

def MemberText.whole (m : MemberText) : List Char :=
  m.before ++ ('"' :: (m.keyText ++ '"' :: (m.middle ++ ':' :: (m.inner ++ (m.value ++ m.after)))))

/-- The white space is white, and the key is the string that is written. -/
def MemberText.Right (m : MemberText) : Prop :=
  JsonBlank m.before ∧ JsonChars m.keyText m.key ∧ JsonBlank m.middle ∧ JsonBlank m.inner ∧ JsonBlank m.after

/-- There is one member of this name, and its value is such. -/
def OneMember (ms : List MemberText) (k : List Char) (P : List Char → Prop) : Prop :=
  ∃ front x back, ms = front ++ x :: back ∧ x.key = k ∧ P x.value ∧ ∀ y ∈ front ++ back, y.key ≠ k

/-- The text of two parts: an object with one member for each, in any order, and whatever others, or an array of the
two. `N` says which texts are which parts and `S` which texts may be the values of other members. -/
inductive PairText {α : Type} (N : List Char → α → Prop) (S : List Char → Prop) (k k' : List Char) :
    List Char → α → α → Prop
  | object {ms : List MemberText} {a b : α} (hm : ∀ m ∈ ms, m.Right) (ha : OneMember ms k (N · a))
      (hb : OneMember ms k' (N · b)) (hs : ∀ m ∈ ms, m.key ≠ k → m.key ≠ k' → S m.value) :
      PairText N S k k' ('{' :: ([','].intercalate (ms.map MemberText.whole) ++ ['}'])) a b
  | array {w1 t w2 w3 t' w4 : List Char} {a b : α} (h1 : JsonBlank w1) (h2 : JsonBlank w2) (h3 : JsonBlank w3)
      (h4 : JsonBlank w4) (ha : N t a) (hb : N t' b) :
      PairText N S k k' ('[' :: (w1 ++ (t ++ (w2 ++ ',' :: (w3 ++ (t' ++ (w4 ++ [']']))))))) a b

/-- An object with one member of this name, with white space around. -/
def NamedText (name : List Char) (P : List Char → Prop) (s : List Char) : Prop :=
  ∃ (w : List Char) (m : MemberText) (w' : List Char), JsonBlank w ∧ JsonBlank w' ∧ m.Right ∧ m.key = name ∧ P m.value ∧
    s = w ++ ('{' :: (m.whole ++ '}' :: w'))

/-- A number that is written without fraction and exponent and fits 64 bits. -/
def IntegerPart (t : List Char) (i : Integer) : Prop :=
  i.Native ∧ ∃ n, JsonClose t n ∧ WholeNumber (.number n) i.value

/-- A number, and the float that is read for it. -/
def FloatPart (t : List Char) (b : UInt64) : Prop := ∃ n, JsonClose t n ∧ FloatNumber (.number n) b

/-- The text says this complex number. -/
inductive ComplexText (S : List Char → Prop) : List Char → Imaginary → Prop
  | cartesian {s : List Char} {re im : Integer}
      (h : NamedText "CartesianForm".toList (PairText IntegerPart S "real".toList "imaginary".toList · re im) s) :
      ComplexText S s (.cartesian re im)
  | polar {s : List Char} {md ar : UInt64}
      (h : NamedText "PolarForm".toList (PairText FloatPart S "modulus".toList "argument".toList · md ar) s) :
      ComplexText S s (.polar md ar)

end Souris
