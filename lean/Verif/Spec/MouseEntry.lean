import Verif.Model.MouseEntry
import Verif.Spec.Calendar
import Verif.Spec.IntegerConv

/-!
# How a value is typed into `mouse`

`Spells v as`: the answers `as` are one way to enter the value `v`. It is written from the prompts a user
sees, not from the program.
-/

namespace Souris

/-- Lines that the prompt does not take, then one that it reads as `a`. -/
def Typed {α : Type} (Reads : List Char → α → Prop) (a : α) (as : List Answer) : Prop :=
  ∃ (bad : List (List Char)) (s : List Char), as = bad.map Answer.line ++ [.line s] ∧
    (∀ t ∈ bad, t = [] ∨ ∀ b, ¬ Reads t b) ∧ s ≠ [] ∧ Reads s a

namespace Reads

/-- One character. -/
def char (s : List Char) (c : Char) : Prop := s = [c]

/-- Any text. -/
def text (s t : List Char) : Prop := s = t

/-- A decimal number without a minus, up to `max`. -/
def nat (max : Nat) (s : List Char) (n : Nat) : Prop := Numeral s n ∧ s.head? ≠ some '-' ∧ n ≤ max

/-- A decimal number that fits into 32 bits. -/
def i32 (s : List Char) (n : Int) : Prop := Numeral s n ∧ -(2 ^ 31) ≤ n ∧ n < 2 ^ 31

/-- What C08 says of texts and integers. -/
def integer (s : List Char) (i : Integer) : Prop := Integer.fromStr s = .ok i

/-- By a `FromStr` that is not modelled. -/
def external {α : Type} (parse : List Char → Option α) (s : List Char) (a : α) : Prop := parse s = some a

end Reads

/-- Year, month and day. -/
def TypedDate (y : Int) (m d : Nat) (as : List Answer) : Prop :=
  ∃ a1 a2 a3, as = a1 ++ a2 ++ a3 ∧ Typed Reads.i32 y a1 ∧ Typed (Reads.nat (2 ^ 32 - 1)) m a2 ∧
    Typed (Reads.nat (2 ^ 32 - 1)) d a3

/-- Hours, minutes, seconds and milliseconds. -/
def TypedTime (h m s ms : Nat) (as : List Answer) : Prop :=
  ∃ a1 a2 a3 a4, as = a1 ++ a2 ++ a3 ++ a4 ∧ Typed (Reads.nat (2 ^ 32 - 1)) h a1 ∧
    Typed (Reads.nat (2 ^ 32 - 1)) m a2 ∧ Typed (Reads.nat (2 ^ 32 - 1)) s a3 ∧ Typed (Reads.nat (2 ^ 32 - 1)) ms a4

/-- A point in time: now, or in chrono's format, or by its parts, where what is not a date or a time has to be
typed again. -/
inductive SpellsTimestamp (env : Env) (T : Term) : Timestamp → List Answer → Prop
  | now : SpellsTimestamp env T T.now [.confirm true]
  | format {t : Timestamp} {as : List Answer} (h : Typed (Reads.external env.tsParse) t as) :
      SpellsTimestamp env T t (.confirm false :: .confirm true :: as)
  | parts {y : Int} {mo d h mi s ms : Nat} {wrongDates wrongTimes : List (List Answer)} {da ta : List Answer}
      (hwd : ∀ w ∈ wrongDates, ∃ y m d, TypedDate y m d w ∧ ¬ IsDate y m d)
      (hd : TypedDate y mo d da) (hdv : IsDate y mo d)
      (hwt : ∀ w ∈ wrongTimes, ∃ h m s ms, TypedTime h m s ms w ∧ ¬ IsTime h m s (ms * 1000000))
      (ht : TypedTime h mi s ms ta) (htv : IsTime h mi s (ms * 1000000)) :
      SpellsTimestamp env T ⟨y, mo, d, h, mi, s, ms * 1000000⟩
        (.confirm false :: .confirm false :: (wrongDates.flatten ++ da ++ (wrongTimes.flatten ++ ta)))

/-- A complex number, in polar or in Cartesian form. -/
inductive SpellsImaginary (T : Term) : Imaginary → List Answer → Prop
  | polar {m a : UInt64} {as bs : List Answer} (hm : Typed (Reads.external T.f64) m as) (ha : Typed (Reads.external T.f64) a bs) :
      SpellsImaginary T (.polar m a) (.pick 0 :: (as ++ bs))
  | cartesian {re im : Integer} {as bs : List Answer} (hr : Typed Reads.integer re as) (hi : Typed Reads.integer im bs) :
      SpellsImaginary T (.cartesian re im) (.pick 1 :: (as ++ bs))

/-- The name of a file with contents `b`, after any number of others that will not do and of prompts that
failed. -/
def SpellsFile (T : Term) (b : List UInt8) (as : List Answer) : Prop :=
  ∃ wrong path, as = wrong ++ [.line path] ∧ path ≠ [] ∧ T.files path = .file b ∧
    ∀ a ∈ wrong, ∀ s, a = .line s → s = [] ∨ T.files s = .missing ∨ T.files s = .directory

/-- The map that holds of every key the value given last. -/
def lastOfEach (ps : List (List Char × Value)) : List (List Char × Value) :=
  ps.foldl (fun m p => AMap.insert p.1 p.2 m) []

/-- A value, after the number of its type in the menu. -/
inductive Spells (env : Env) (T : Term) : Value → List Answer → Prop
  | character {c : Char} {as : List Answer} (h : Typed Reads.char c as) : Spells env T (.character c) (.pick 0 :: as)
  | string {s : List Char} {as : List Answer} (h : Typed Reads.text s as) : Spells env T (.string s) (.pick 1 :: as)
  | binary {b : List UInt8} {as : List Answer} (h : SpellsFile T b as) : Spells env T (.binary b) (.pick 2 :: as)
  | false : Spells env T (.boolean .false) [.pick 3, .pick 0]
  | true : Spells env T (.boolean .true) [.pick 3, .pick 1]
  | integer {i : Integer} {as : List Answer} (h : Typed Reads.integer i as) : Spells env T (.integer i) (.pick 4 :: as)
  | imaginary {z : Imaginary} {as : List Answer} (h : SpellsImaginary T z as) :
      Spells env T (.imaginary z) (.pick 5 :: as)
  | timestamp {t : Timestamp} {as : List Answer} (h : SpellsTimestamp env T t as) :
      Spells env T (.timestamp t) (.pick 6 :: as)
  | json {j : SJValue} {as : List Answer} (h : Typed (Reads.external env.jsonParse) j as) :
      Spells env T (.json j) (.pick 7 :: as)
  | null : Spells env T .null [.pick 8]
  | double {f : UInt64} {as : List Answer} (h : Typed (Reads.external T.f64) f as) :
      Spells env T (.double f) (.pick 9 :: as)
  /-- an array of a length given beforehand -/
  | array {as : List Answer} (items : List (Value × List Answer))
      (hn : Typed (Reads.nat (2 ^ 64 - 1)) items.length as) (h : ∀ p ∈ items, Spells env T p.1 p.2) :
      Spells env T (.array (items.map Prod.fst)) (.pick 10 :: .confirm .true :: (as ++ (items.map Prod.snd).flatten))
  /-- an array whose end is announced -/
  | openArray (items : List (Value × List Answer)) (last : Value × List Answer)
      (h : ∀ p ∈ items, Spells env T p.1 p.2) (hl : Spells env T last.1 last.2) :
      Spells env T (.array (items.map Prod.fst ++ [last.1])) (.pick 10 :: .confirm .false ::
        (items.flatMap (fun p => p.2 ++ [.confirm .false]) ++ (last.2 ++ [.confirm .true])))
  /-- a map of a number of keys given beforehand -/
  | map {as : List Answer} (items : List ((List Char × List Answer) × (Value × List Answer)))
      (hn : Typed (Reads.nat (2 ^ 64 - 1)) items.length as) (hk : ∀ p ∈ items, Typed Reads.text p.1.1 p.1.2)
      (h : ∀ p ∈ items, Spells env T p.2.1 p.2.2) :
      Spells env T (.map (lastOfEach (items.map fun p => (p.1.1, p.2.1)))) (.pick 11 :: .confirm .true ::
        (as ++ items.flatMap fun p => p.1.2 ++ p.2.2))
  /-- a map whose end is announced -/
  | openMap (items : List ((List Char × List Answer) × (Value × List Answer)))
      (hk : ∀ p ∈ items, Typed Reads.text p.1.1 p.1.2) (h : ∀ p ∈ items, Spells env T p.2.1 p.2.2) :
      Spells env T (.map (lastOfEach (items.map fun p => (p.1.1, p.2.1)))) (.pick 11 :: .confirm .false ::
        (items.flatMap (fun p => .confirm .false :: (p.1.2 ++ p.2.2)) ++ [.confirm .true]))
  | timezone {i : Nat} {z : List Char} (h : env.tzNames[i]? = some z) : Spells env T (.timezone z) [.pick 12, .pick i]
  | ipv4 {a b c d : UInt8} {as : List Answer} (h : Typed (Reads.external T.ip4) (a, b, c, d) as) :
      Spells env T (.ipv4 a b c d) (.pick 13 :: as)
  | ipv6 {a b c d e f g h : UInt16} {as : List Answer} (hr : Typed (Reads.external T.ip6) (a, b, c, d, e, f, g, h) as) :
      Spells env T (.ipv6 a b c d e f g h) (.pick 14 :: as)
  /-- what the menu calls `SingleFloat` -/
  | single {f : UInt64} {as : List Answer} (h : Typed (Reads.external T.f64) f as) :
      Spells env T (.double f) (.pick 15 :: as)

end Souris
