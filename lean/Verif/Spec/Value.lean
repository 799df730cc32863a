import Verif.Model.Value
import Verif.Spec.Calendar
import Verif.Spec.Imaginary
import Verif.Spec.Huffman
import Verif.Spec.Binary
import Verif.Spec.BitsLength

/-! # Specification vocabulary for values -/

namespace Souris

/-- Timestamps that exist: a calendar date in chrono's range and a time of day; the fraction may be a
second or more (a leap second). -/
def Timestamp.Valid (t : Timestamp) : Prop :=
  IsDate t.year t.month t.day ∧
  t.hour < 24 ∧ t.minute < 60 ∧ t.sec < 60 ∧ t.nano < 2000000000

/-- Leap-second fractions occur only in second 59. -/
def Timestamp.LeapAt59 (t : Timestamp) : Prop := 1000000000 ≤ t.nano → t.sec = 59

namespace Value

/-- Two values with the same contents: the same structure; integers of the same signedness and value;
floats bit for bit; a map's entries in any order. -/
inductive SameAs : Value → Value → Prop
  | character (c : Char) : SameAs (.character c) (.character c)
  | string (s : List Char) : SameAs (.string s) (.string s)
  | binary (b : List UInt8) : SameAs (.binary b) (.binary b)
  | boolean (b : Bool) : SameAs (.boolean b) (.boolean b)
  | integer {i j : Integer} (h : i.SameAs j) : SameAs (.integer i) (.integer j)
  | imaginary {z w : Imaginary} (h : z.SameAs w) : SameAs (.imaginary z) (.imaginary w)
  | timestamp (t : Timestamp) : SameAs (.timestamp t) (.timestamp t)
  | json (j : SJValue) : SameAs (.json j) (.json j)
  | null : SameAs .null .null
  | single (x : UInt32) : SameAs (.single x) (.single x)
  | double (x : UInt64) : SameAs (.double x) (.double x)
  | array {a a' : List Value} (hl : a.length = a'.length)
      (h : ∀ (i : Nat) (v v' : Value), a[i]? = some v → a'[i]? = some v' → SameAs v v') :
      SameAs (.array a) (.array a')
  | map {m m' : List (List Char × Value)} (hl : m.length = m'.length)
      (hk : ∀ k, (∃ v, (k, v) ∈ m) ↔ ∃ v', (k, v') ∈ m')
      (h : ∀ k v v', (k, v) ∈ m → (k, v') ∈ m' → SameAs v v') :
      SameAs (.map m) (.map m')
  | timezone (n : List Char) : SameAs (.timezone n) (.timezone n)
  | ipv4 (a b c d : UInt8) : SameAs (.ipv4 a b c d) (.ipv4 a b c d)
  | ipv6 (a b c d e f g i : UInt16) : SameAs (.ipv6 a b c d e f g i) (.ipv6 a b c d e f g i)

/-- Codes of this length are read back: the `f32` nearest to the number of bits fills as many bytes. All
lengths up to 2^24 are such, see `C15_lengths`. -/
def KeptLength (n : Nat) : Prop := n < 2 ^ 64 ∧ ∀ m, NearestSingle n m → (m + 7) / 8 = (n + 7) / 8

/-- Binary data that comes back: if it is stored under a tree, its code has such a length. All data of up
to 2 MiB is such. -/
def BinaryKept (env : Env) (b : List UInt8) : Prop :=
  b.length ≤ 2 ^ 60 ∧ (TwoSymbols b → (∃ x, Binary.ser env.lz env.byteOrd b = .ok (.huffman, x)) →
    ∀ h bits, Huffman.newAndEncode env.byteOrd b = .ok (h, bits) → KeptLength bits.len)

/-- Strings that the writer and the reader of a value agree on: of addressable size and, when there is a
coder, one with at least two symbols whose code for the string is of a length that is read back. -/
def StringStorable (h : Option (Huffman Char)) (s : List Char) : Prop :=
  (utf8 s).length < 2 ^ 64 ∧
  ∀ coder, h = some coder → (∃ l r, coder = Huffman.ofRoot (.branch l r)) ∧
    ∀ bits, coder.encode s = .ok bits → KeptLength bits.len

/-- Values without maps, empty arrays, timestamps with a leap-second fraction outside second 59 and codes of
lengths that are lost, in which all JSON meets a condition. -/
inductive StorableWith (J : SJValue → Prop) (env : Env) (h : Option (Huffman Char)) : Value → Prop
  | character (c : Char) : StorableWith J env h (.character c)
  | string {s : List Char} (hs : StringStorable h s) : StorableWith J env h (.string s)
  | binary {b : List UInt8} (hb : BinaryKept env b) : StorableWith J env h (.binary b)
  | boolean (b : Bool) : StorableWith J env h (.boolean b)
  | integer {i : Integer} (hi : i.Reachable) : StorableWith J env h (.integer i)
  | imaginary {z : Imaginary} (hz : z.Reachable) : StorableWith J env h (.imaginary z)
  | timestamp {t : Timestamp} (hv : t.Valid) (hl : t.LeapAt59) : StorableWith J env h (.timestamp t)
  | json {j : SJValue} (hs : StringStorable h (env.jsonPrint j))
      (hj : J j) : StorableWith J env h (.json j)
  | null : StorableWith J env h .null
  | single (x : UInt32) : StorableWith J env h (.single x)
  | double (x : UInt64) : StorableWith J env h (.double x)
  | array {a : List Value} (hne : a ≠ []) (hl : a.length < 2 ^ 64) (hc : a.length ≤ env.arrayCapMax)
      (ha : ∀ v ∈ a, StorableWith J env h v) : StorableWith J env h (.array a)
  | timezone {n : List Char} (hs : StringStorable h n) (hn : n ∈ env.tzNames) :
      StorableWith J env h (.timezone n)
  | ipv4 (a b c d : UInt8) : StorableWith J env h (.ipv4 a b c d)
  | ipv6 (a b c d e f g i : UInt16) : StorableWith J env h (.ipv6 a b c d e f g i)

/-- Values for which the round trip through bytes is proved. Excluded: maps, empty arrays, timestamps
with a leap-second fraction outside second 59, JSON that its printer and parser do not preserve,
and codes of lengths that are lost. -/
abbrev Storable (env : Env) (h : Option (Huffman Char)) : Value → Prop :=
  StorableWith (fun j => env.jsonParse (env.jsonPrint j) = some j) env h

/-- Values that exist, whose text is of addressable size and suits the coder, whose binary data is kept, and
whose JSON meets a condition. Arrays and maps of any size and contents, and all timestamps, are allowed. -/
inductive FaithfulWith (J : SJValue → Prop) (env : Env) (h : Option (Huffman Char)) : Value → Prop
  | character (c : Char) : FaithfulWith J env h (.character c)
  | string {s : List Char} (hs : StringStorable h s) : FaithfulWith J env h (.string s)
  | binary {b : List UInt8} (hb : BinaryKept env b) : FaithfulWith J env h (.binary b)
  | boolean (b : Bool) : FaithfulWith J env h (.boolean b)
  | integer {i : Integer} (hi : i.Reachable) : FaithfulWith J env h (.integer i)
  | imaginary {z : Imaginary} (hz : z.Reachable) : FaithfulWith J env h (.imaginary z)
  | timestamp {t : Timestamp} (hv : t.Valid) : FaithfulWith J env h (.timestamp t)
  | json {j : SJValue} (hs : StringStorable h (env.jsonPrint j))
      (hj : J j) : FaithfulWith J env h (.json j)
  | null : FaithfulWith J env h .null
  | single (x : UInt32) : FaithfulWith J env h (.single x)
  | double (x : UInt64) : FaithfulWith J env h (.double x)
  | array {a : List Value} (ha : ∀ v ∈ a, FaithfulWith J env h v) : FaithfulWith J env h (.array a)
  | map (m : List (List Char × Value)) : FaithfulWith J env h (.map m)
  | timezone {n : List Char} (hs : StringStorable h n) (hn : n ∈ env.tzNames) :
      FaithfulWith J env h (.timezone n)
  | ipv4 (a b c d : UInt8) : FaithfulWith J env h (.ipv4 a b c d)
  | ipv6 (a b c d e f g i : UInt16) : FaithfulWith J env h (.ipv6 a b c d e f g i)

/-- Values that exist, whose text is of addressable size and suits the coder, whose JSON survives its own
text form, and whose binary data is kept. Arrays and maps of any size and contents, and all
timestamps, are allowed. -/
abbrev Faithful (env : Env) (h : Option (Huffman Char)) : Value → Prop :=
  FaithfulWith (fun j => env.jsonParse (env.jsonPrint j) = some j) env h

/-- A map occurs somewhere in the value. -/
inductive HasMap : Value → Prop
  | map (m : List (List Char × Value)) : HasMap (.map m)
  | array {a : List Value} {v : Value} (hv : v ∈ a) (h : HasMap v) : HasMap (.array a)

/-- An empty array occurs somewhere in the value. -/
inductive HasEmptyArray : Value → Prop
  | nil : HasEmptyArray (.array [])
  | array {a : List Value} {v : Value} (hv : v ∈ a) (h : HasEmptyArray v) : HasEmptyArray (.array a)
  | map {m : List (List Char × Value)} {k : List Char} {v : Value} (hv : (k, v) ∈ m)
      (h : HasEmptyArray v) : HasEmptyArray (.map m)

/-- The number of iterations `n` of the deserialisation loop from a stack and a cursor to its
outcome. -/
inductive Loops (env : Env) (h : Option (Huffman Char)) :
    Nat → List DState → Cursor UInt8 → Out ValueSerError (Value × Cursor UInt8) → Prop
  | empty (c : Cursor UInt8) : Loops env h 1 [] c (.err (.invalidDeserialisation .emptyStack))
  | done {st : DState} {stack : List DState} {c c' : Cursor UInt8} {v : Value}
      (e : step env h st stack c = .ok (.inl v, c')) : Loops env h 1 (st :: stack) c (.ok (v, c'))
  | err {st : DState} {stack : List DState} {c : Cursor UInt8} {e : ValueSerError}
      (he : step env h st stack c = .err e) : Loops env h 1 (st :: stack) c (.err e)
  | panic {st : DState} {stack : List DState} {c : Cursor UInt8} {p : Panic}
      (hp : step env h st stack c = .panic p) : Loops env h 1 (st :: stack) c (.panic p)
  | more {n : Nat} {st : DState} {stack stack' : List DState} {c c' : Cursor UInt8}
      {o : Out ValueSerError (Value × Cursor UInt8)}
      (e : step env h st stack c = .ok (.inr stack', c')) (hn : Loops env h n stack' c' o) :
      Loops env h (n + 1) (st :: stack) c o

end Value

end Souris
