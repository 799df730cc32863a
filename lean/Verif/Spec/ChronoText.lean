import Verif.Model.ChronoText
import Verif.Spec.Calendar
import Verif.Spec.IntegerConv
import Verif.Spec.Value

/-!
# Timestamps as text

The format `mouse` asks for, `%Y-%m-%dT%H:%M:%S%.f`, written as a grammar, with the freedom chrono leaves: white
space around the parts, and fewer digits.
-/

namespace Souris

/-- Characters that Unicode calls white space. -/
def whiteSpace : List Nat :=
  [0x9, 0xA, 0xB, 0xC, 0xD, 0x20, 0x85, 0xA0, 0x1680, 0x2000, 0x2001, 0x2002, 0x2003, 0x2004, 0x2005, 0x2006, 0x2007,
    0x2008, 0x2009, 0x200A, 0x2028, 0x2029, 0x202F, 0x205F, 0x3000]

/-- Nothing but white space. -/
def BlankText (s : List Char) : Prop := ∀ c ∈ s, c.toNat ∈ whiteSpace

/-- The number `n`, with `lo` to `hi` digits. -/
def DigitsText (lo hi n : Nat) (s : List Char) : Prop :=
  lo ≤ s.length ∧ s.length ≤ hi ∧ (∀ c ∈ s, c ∈ decimalDigits) ∧ digitsValue s = n

/-- A year: one to four digits, or a sign and any number of digits. -/
inductive YearText : Int → List Char → Prop
  | plain {n : Nat} {s : List Char} (h : DigitsText 1 4 n s) : YearText n s
  | plus {n : Nat} {s : List Char} (h : DigitsText 1 s.length n s) : YearText n ('+' :: s)
  | minus {n : Nat} {s : List Char} (h : DigitsText 1 s.length n s) : YearText (-(n : Int)) ('-' :: s)

/-- A fraction of a second in nanoseconds: nothing, or a point and digits, of which more than nine are cut off. -/
inductive FractionText : Nat → List Char → Prop
  | none : FractionText 0 []
  | some {v : Nat} {s : List Char} (h : DigitsText 1 s.length v s) :
      FractionText (v * 10 ^ 9 / 10 ^ s.length) ('.' :: s)

/-- The seconds and nanoseconds of a second that is written as `s` and a fraction `f`: 60 is the leap second behind
59. -/
inductive SecondIs : Nat → Nat → Nat → Nat → Prop
  | plain {s f : Nat} (h : s < 60) : SecondIs s f s f
  | leap (f : Nat) : SecondIs 60 f 59 (1000000000 + f)

/-- A date. `w1` to `w5` are white space. -/
structure DateText (y : Int) (m d : Nat) (s : List Char) : Prop where
  parts : ∃ w0 yt w1 w2 mt w3 w4 dt, s = w0 ++ yt ++ w1 ++ '-' :: (w2 ++ mt ++ w3 ++ '-' :: (w4 ++ dt)) ∧
    BlankText w0 ∧ BlankText w1 ∧ BlankText w2 ∧ BlankText w3 ∧ BlankText w4 ∧
    YearText y yt ∧ DigitsText 1 2 m mt ∧ DigitsText 1 2 d dt
  exists_ : IsDate y m d

/-- A time of day. -/
structure TimeText (h m s n : Nat) (t : List Char) : Prop where
  parts : ∃ w0 ht w1 w2 mt w3 w4 st sec fr frac w5,
    t = w0 ++ ht ++ w1 ++ ':' :: (w2 ++ mt ++ w3 ++ ':' :: (w4 ++ st ++ fr ++ w5)) ∧
    BlankText w0 ∧ BlankText w1 ∧ BlankText w2 ∧ BlankText w3 ∧ BlankText w4 ∧ BlankText w5 ∧
    DigitsText 1 2 h ht ∧ DigitsText 1 2 m mt ∧ DigitsText 1 2 sec st ∧ FractionText frac fr ∧ SecondIs sec frac s n
  exists_ : IsTime h m s n

/-- A timestamp: a date, white space, a `T` and a time. -/
def StampText (t : Timestamp) (s : List Char) : Prop :=
  ∃ a w b, s = a ++ w ++ 'T' :: b ∧ DateText t.year t.month t.day a ∧ BlankText w ∧
    TimeText t.hour t.minute t.sec t.nano b

/-- How chrono prints a year: four digits or, if they are not enough, more, and a sign in front of years that are
negative or have more than four digits. -/
structure PrintedYear (y : Int) (s : List Char) : Prop where
  parts : ∃ ds, s = (if y < 0 then ['-'] else if y ≤ 9999 then [] else ['+']) ++ ds ∧
    DigitsText 4 ds.length y.natAbs ds ∧ (ds.length = 4 ∨ ds.head? ≠ some '0')

/-- How chrono prints a date: nothing is left out and there is no white space. -/
structure PrintedDate (y : Int) (m d : Nat) (s : List Char) : Prop where
  parts : ∃ yt mt dt, s = yt ++ '-' :: (mt ++ '-' :: dt) ∧ PrintedYear y yt ∧ DigitsText 2 2 m mt ∧ DigitsText 2 2 d dt

/-- How chrono prints a fraction: with no, three, six or nine digits, whichever is shortest. -/
structure PrintedFraction (n : Nat) (s : List Char) : Prop where
  value : FractionText n s
  digits : s.length ∈ [0, 4, 7, 10]
  shortest : ∀ s', FractionText n s' → s'.length ∈ [0, 4, 7, 10] → s.length ≤ s'.length

/-- How chrono prints a time. -/
structure PrintedTime (h m s n : Nat) (t : List Char) : Prop where
  parts : ∃ ht mt st sec fr frac, t = ht ++ ':' :: (mt ++ ':' :: (st ++ fr)) ∧ DigitsText 2 2 h ht ∧
    DigitsText 2 2 m mt ∧ DigitsText 2 2 sec st ∧ PrintedFraction frac fr ∧ SecondIs sec frac s n

/-- How chrono prints a timestamp. -/
def PrintedStamp (t : Timestamp) (s : List Char) : Prop :=
  ∃ a b, s = a ++ ' ' :: b ∧ PrintedDate t.year t.month t.day a ∧ PrintedTime t.hour t.minute t.sec t.nano b

end Souris
