import Verif.Spec.JsonText

/-! # Specification of floats and IP addresses as text -/

namespace Souris

/-! ## Floats -/

/-- A kind of floats, by their bits as a number: the place of the sign, the bits of infinity, the values of the
bits below, and the number from which on numbers are too large. -/
structure FloatKind where
  sign : Nat
  inf : Nat
  value : Nat → ℚ
  limit : ℚ

/-- `f64`. A number is too large from halfway between the largest float and the next power of two on. -/
def kind64 : FloatKind := ⟨2 ^ 63, 0x7FF0000000000000, fun b => f64Value (UInt64.ofNat b), 2 ^ 1024 - 2 ^ 970⟩

/-- `f32`. -/
def kind32 : FloatKind := ⟨2 ^ 31, 0x7F800000, fun b => f32Value (UInt32.ofNat b), 2 ^ 128 - 2 ^ 103⟩

namespace FloatKind

variable (K : FloatKind)

/-- Rounding the number `q`, which is not negative: the nearest float, an even one if two are as near, or
infinity. -/
def Rounds (b : Nat) (q : ℚ) : Prop :=
  (q < K.limit ∧ b < K.inf ∧ ∀ c, c < K.inf → |K.value b - q| ≤ |K.value c - q| ∧
    (|K.value b - q| = |K.value c - q| → c = b ∨ b % 2 = 0)) ∨
  (K.limit ≤ q ∧ b = K.inf)

end FloatKind

/-- A decimal with `n` significant digits. -/
def HasDigits (q : ℚ) (n : Nat) : Prop := ∃ (d : Nat) (k : Int), 0 < n ∧ d < 10 ^ n ∧ q = d * 10 ^ k

/-- `q` has the fewest digits of all decimals that are rounded to the float; of those that have as few it is
the nearest to the float, and the larger one if two are. -/
def FloatKind.Shortest (K : FloatKind) (b : Nat) (q : ℚ) : Prop :=
  K.Rounds b q ∧ ∃ n, HasDigits q n ∧ ∀ m q', HasDigits q' m → K.Rounds b q' →
    n ≤ m ∧ (m = n → |q - K.value b| ≤ |q' - K.value b| ∧ (|q - K.value b| = |q' - K.value b| → q' ≤ q))

/-- `t` is the number `q` without an exponent and without zeros that could be left out. -/
def PlainDecimal (t : List Char) (q : ℚ) : Prop :=
  ∃ int frac, JsonWhole int ∧ (∀ c ∈ frac, c ∈ decimalDigits) ∧ frac.getLast? ≠ some '0' ∧
    t = int ++ (if frac = [] then [] else '.' :: frac) ∧ q = realValue int frac 0

/-- How the float with the bits `x` is printed. -/
inductive FloatKind.Printed (K : FloatKind) : Nat → List Char → Prop
  | nan {x : Nat} (h : K.inf < x % K.sign) : K.Printed x ['N', 'a', 'N']
  | infinite : K.Printed K.inf ['i', 'n', 'f']
  | negInfinite : K.Printed (K.sign + K.inf) ['-', 'i', 'n', 'f']
  | zero : K.Printed 0 ['0']
  | negZero : K.Printed K.sign ['-', '0']
  | positive {b : Nat} {t : List Char} {q : ℚ} (h0 : 0 < b) (hb : b < K.inf) (hs : K.Shortest b q) (ht : PlainDecimal t q) :
      K.Printed b t
  | negative {b : Nat} {t : List Char} {q : ℚ} (h0 : 0 < b) (hb : b < K.inf) (hs : K.Shortest b q) (ht : PlainDecimal t q) :
      K.Printed (K.sign + b) ('-' :: t)

/-- A number as it may be typed: digits, perhaps a point among them, before or behind them, and perhaps an
exponent. -/
def StdReal (t int frac : List Char) (e : Int) : Prop :=
  ∃ fr ex, t = int ++ fr ++ ex ∧ JsonDigits (int ++ frac) ∧ (fr = [] ∧ frac = [] ∨ fr = '.' :: frac) ∧ JsonExponent ex e

/-- A word in small or capital letters. -/
def Spelled (t : List Char) (word : List (Char × Char)) : Prop := List.Forall₂ (fun c l => c = l.1 ∨ c = l.2) t word

def infWord : List (Char × Char) := [('i', 'I'), ('n', 'N'), ('f', 'F')]
def infinityWord : List (Char × Char) := infWord ++ [('i', 'I'), ('n', 'N'), ('i', 'I'), ('t', 'T'), ('y', 'Y')]
def nanWord : List (Char × Char) := [('n', 'N'), ('a', 'A'), ('n', 'N')]

/-- What a text without sign means as an `f64`. -/
inductive Means64 : List Char → Nat → Prop
  | number {t int frac : List Char} {e : Int} {b : Nat} (h : StdReal t int frac e)
      (hr : kind64.Rounds b (realValue int frac e)) : Means64 t b
  | infinite {t : List Char} (h : Spelled t infWord ∨ Spelled t infinityWord) : Means64 t 0x7FF0000000000000
  | nan {t : List Char} (h : Spelled t nanWord) : Means64 t 0x7FF8000000000000

/-- What a text means as an `f64`. -/
inductive Typed64 : List Char → UInt64 → Prop
  | plain {t : List Char} {b : Nat} (h : Means64 t b) : Typed64 t (UInt64.ofNat b)
  | plus {t : List Char} {b : Nat} (h : Means64 t b) : Typed64 ('+' :: t) (UInt64.ofNat b)
  | minus {t : List Char} {b : Nat} (h : Means64 t b) : Typed64 ('-' :: t) (UInt64.ofNat (2 ^ 63 + b))

/-! ## Addresses -/

/-- A number from 0 to 255 without superfluous zeros. -/
def OctetText (t : List Char) (n : UInt8) : Prop := JsonWhole t ∧ digitsValue t = n.toNat

/-- Four numbers with points in between. -/
def DottedText (t : List Char) (a b c d : UInt8) : Prop :=
  ∃ ta tb tc td, OctetText ta a ∧ OctetText tb b ∧ OctetText tc c ∧ OctetText td d ∧
    t = ta ++ '.' :: (tb ++ '.' :: (tc ++ '.' :: td))

/-- The number of hexadecimal digits. -/
inductive HexNumber : List Char → Nat → Prop
  | nil : HexNumber [] 0
  | digit {ds : List Char} {n x : Nat} {c : Char} (h : HexNumber ds n) (hc : (c, x) ∈ hexTable) :
      HexNumber (ds ++ [c]) (n * 16 + x)

/-- One to four hexadecimal digits. -/
def GroupText (t : List Char) (g : UInt16) : Prop := t ≠ [] ∧ t.length ≤ 4 ∧ HexNumber t g.toNat

/-- Groups with colons in between. The last two may be written as an IPv4 address. -/
inductive GroupsText (dotted : Bool) : List Char → List UInt16 → Prop
  | one {t : List Char} {g : UInt16} (h : GroupText t g) : GroupsText dotted t [g]
  | ipv4 {t : List Char} {a b c d : UInt8} (hd : dotted = true) (h : DottedText t a b c d) :
      GroupsText dotted t [a.toUInt16 * 256 + b.toUInt16, c.toUInt16 * 256 + d.toUInt16]
  | more {t t' : List Char} {g : UInt16} {gs : List UInt16} (h : GroupText t g) (hs : GroupsText dotted t' gs) :
      GroupsText dotted (t ++ ':' :: t') (g :: gs)

/-- No groups, or some. -/
def SideText (dotted : Bool) (t : List Char) (gs : List UInt16) : Prop := (t = [] ∧ gs = []) ∨ GroupsText dotted t gs

/-- RFC 4291: eight groups, or fewer of them with `::` for the zeros that are left out, of which there is one
at least. -/
inductive Ip6Written : List Char → List UInt16 → Prop
  | full {t : List Char} {gs : List UInt16} (h : GroupsText true t gs) (hl : gs.length = 8) : Ip6Written t gs
  | short {t t' : List Char} {gs gs' : List UInt16} {n : Nat} (h : SideText false t gs) (h' : SideText true t' gs') (hn : 0 < n)
      (hl : gs.length + n + gs'.length = 8) : Ip6Written (t ++ ':' :: ':' :: t') (gs ++ List.replicate n 0 ++ gs')

/-- Groups in lower case without superfluous zeros. -/
def GroupsPlain (t : List Char) (gs : List UInt16) : Prop :=
  (t = [] ∧ gs = []) ∨ (GroupsText false t gs ∧ (∀ c ∈ t, c ∉ ['A', 'B', 'C', 'D', 'E', 'F']) ∧
    ∀ a b, t = a ++ '0' :: b → (a = [] ∨ a.getLast? = some ':') → (b = [] ∨ b.head? = some ':'))

/-- RFC 5952: how an address is printed. Addresses that stand for IPv4 addresses show them; otherwise the first
one of the longest runs of zeros is left out, unless it is a single zero. -/
inductive Ip6Printed : List Char → List UInt16 → Prop
  | mapped {t : List Char} {a b c d : UInt8} (h : DottedText t a b c d) :
      Ip6Printed ([':', ':', 'f', 'f', 'f', 'f', ':'] ++ t)
        [0, 0, 0, 0, 0, 0xFFFF, a.toUInt16 * 256 + b.toUInt16, c.toUInt16 * 256 + d.toUInt16]
  | full {t : List Char} {gs : List UInt16} (hm : gs.take 6 ≠ [0, 0, 0, 0, 0, 0xFFFF]) (hl : gs.length = 8) (h : GroupsPlain t gs)
      (hz : ∀ i, gs[i]? = some (0 : UInt16) → gs[i + 1]? ≠ some (0 : UInt16)) : Ip6Printed t gs
  | short {t t' : List Char} {gs gs' : List UInt16} {n : Nat} (hm : (gs ++ List.replicate n 0 ++ gs').take 6 ≠ [0, 0, 0, 0, 0, 0xFFFF])
      (hn : 2 ≤ n) (hl : gs.length + n + gs'.length = 8) (h : GroupsPlain t gs) (h' : GroupsPlain t' gs')
      (hz : ∀ i m, (∀ j, i ≤ j → j < i + m → (gs ++ List.replicate n 0 ++ gs')[j]? = some (0 : UInt16)) →
        m ≤ n ∧ (m = n → gs.length ≤ i)) :
      Ip6Printed (t ++ ':' :: ':' :: t') (gs ++ List.replicate n 0 ++ gs')

end Souris
