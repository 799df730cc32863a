import Verif.Spec.Value

/-! # The byte format

A description of the bytes of values and of database files that does not mention the functions that write and read
them. `strict` is the format as it is written; without it, the format as it is understood, which is laxer: bits without
meaning may be set, lengths need not be in their shortest form, and a few words have a meaning that was hardly
intended, which are marked below. -/

namespace Souris

namespace Wire

/-- The number that bytes make, of which the first counts ones, the second 256s, the third 65536s and so on. -/
def number (bs : List UInt8) : Nat := (bs.mapIdx fun i b => b.toNat * 256 ^ i).sum

/-- The number that bytes make for a sign: a negative number is 256^k less, for k bytes. -/
def signed (ss : SignedState) (bs : List UInt8) : Int :=
  (number bs : Int) - (if ss = .signedNegative then (256 : Int) ^ bs.length else 0)

/-- An integer of at most `w` bytes: one byte up to 239, or 239 more than the number of bytes, and the bytes. The sign
is not among them. -/
inductive IntWord (w : Nat) (ss : SignedState) : Int → List UInt8 → Prop
  | short {b : UInt8} (h : b.toNat ≤ 239) : IntWord w ss (signed ss [b]) [b]
  | long {b : UInt8} {bs : List UInt8} (hb : b.toNat = 239 + bs.length) (h1 : 1 ≤ bs.length) (hw : bs.length ≤ w) :
      IntWord w ss (signed ss bs) (b :: bs)

/-- A natural number of at most `w` bytes. -/
def NatWord (w n : Nat) (bs : List UInt8) : Prop := IntWord w .unsigned n bs

/-- The numbers by which signs are told apart. -/
def signCode : SignedState → Nat
  | .unsigned => 0
  | .signedPositive => 1
  | .signedNegative => 2

/-- Bit `i` of some bytes: bytes in order, the lowest bit of a byte first. -/
def bitAt (bytes : List UInt8) (i : Nat) : Bool := (bytes.getD (i / 8) 0).toNat.testBit (i % 8)

/-- A bit is set behind the first `n`. -/
def Padded (bytes : List UInt8) (n : Nat) : Prop := ∃ j, n ≤ j ∧ bitAt bytes j = true

/-- Bits: their number, and as many bytes as they take. The bits left over are not set when written; when set, they
are understood to set the first bit of their byte (hardly intended). -/
inductive BitWord (strict : Bool) : List Bool → List UInt8 → Prop
  | mk {l : List Bool} {len bytes : List UInt8} (hl : NatWord 8 l.length len) (hb : bytes.length = (l.length + 7) / 8)
      (hp : strict = true → ¬ Padded bytes l.length)
      (hs : ∀ i < l.length, l[i]? = some true ↔
        bitAt bytes i = true ∨ i % 8 = 0 ∧ l.length < i + 8 ∧ Padded bytes l.length) :
      BitWord strict l (len ++ bytes)

/-- The way from the root of a tree to a leaf: a set bit to go left, a clear bit to go right. -/
inductive Path {T : Type} : Node T → T → List Bool → Prop
  | leaf (x : T) : Path (.leaf x) x []
  | left {l r : Node T} {x : T} {p : List Bool} (h : Path l x p) : Path (.branch l r) x (true :: p)
  | right {l r : Node T} {x : T} {p : List Bool} (h : Path r x p) : Path (.branch l r) x (false :: p)

/-- Symbols as the ways to them, one after the other. -/
inductive Coded {T : Type} (root : Node T) : List T → List Bool → Prop
  | nil : Coded root [] []
  | cons {x : T} {xs : List T} {p ps : List Bool} (h : Path root x p) (hs : Coded root xs ps) :
      Coded root (x :: xs) (p ++ ps)

/-- A tree of bytes: 1 and the byte, or 0 and both subtrees. -/
inductive ByteTree : Node UInt8 → List UInt8 → Prop
  | leaf (b : UInt8) : ByteTree (.leaf b) [1, b]
  | branch {l r : Node UInt8} {wl wr : List UInt8} (hl : ByteTree l wl) (hr : ByteTree r wr) :
      ByteTree (.branch l r) (0 :: (wl ++ wr))

/-- A tree of characters: one more than the character's number, or 0 and both subtrees. -/
inductive CharTree : Node Char → List UInt8 → Prop
  | leaf {c : Char} {w : List UInt8} (h : NatWord 4 (c.toNat + 1) w) : CharTree (.leaf c) w
  | branch {l r : Node Char} {wl wr : List UInt8} (hl : CharTree l wl) (hr : CharTree r wr) :
      CharTree (.branch l r) (0 :: (wl ++ wr))

/-- Runs: a count and the byte that is repeated. A byte left over has no meaning. -/
inductive Runs (strict : Bool) : List UInt8 → List UInt8 → Prop
  | nil : Runs strict [] []
  | rest (h : strict = false) (b : UInt8) : Runs strict [] [b]
  | run {count b : UInt8} {data bytes : List UInt8} (hc : strict = true → count ≠ 0) (h : Runs strict data bytes) :
      Runs strict (List.replicate count.toNat b ++ data) (count :: b :: bytes)

/-- Bytes in the four forms that are told apart by a number. `Block n block data` says that `block` is the compressed
form of `data`, announced with the length `n`. -/
inductive BinWord (strict : Bool) (Block : Nat → List UInt8 → List UInt8 → Prop) : Nat → List UInt8 → List UInt8 → Prop
  | plain {data len : List UInt8} (hl : NatWord 8 data.length len) : BinWord strict Block 0 data (len ++ data)
  | runs {data len runs : List UInt8} (hl : NatWord 8 runs.length len) (hr : Runs strict data runs) :
      BinWord strict Block 1 data (len ++ runs)
  | lzNil {len : List UInt8} (hl : NatWord 8 0 len) : BinWord strict Block 2 [] len
  | lz {n : Nat} {data len len' block : List UInt8} (hn : n ≠ 0) (hl : NatWord 8 n len)
      (hl' : NatWord 8 block.length len') (hb : Block n block data) :
      BinWord strict Block 2 data (len ++ (len' ++ block))
  | treeNil : BinWord strict Block 3 [] [0]
  | treeOne {n : Nat} {len : List UInt8} (hn : n ≤ isizeMax) (hl : NatWord 8 n len) (x : UInt8) :
      BinWord strict Block 3 (List.replicate n x) (1 :: (len ++ [x]))
  | tree {first : UInt8} {root : Node UInt8} {data t w : List UInt8} {bits : List Bool} (hf : 2 ≤ first.toNat)
      (hs : strict = true → first.toNat = 2) (ht : ByteTree root t) (hb : BitWord strict bits w)
      (hc : Coded root data bits) (hr : (∃ l r, root = .branch l r) ∨ data = []) :
      BinWord strict Block 3 data (first :: (t ++ w))

/-- A type byte: the number of the type in its upper half, and in the lower half what is told apart by its remainder
modulo `m`. -/
def Tag (strict : Bool) (code m flags : Nat) (b : UInt8) : Prop :=
  b.toNat / 16 = code ∧ b.toNat % m = flags ∧ (strict = true → b.toNat % 16 = flags)

/-- A string: its UTF-8 bytes behind their number, or by the ways in a tree. -/
inductive StrWord (strict : Bool) (coder : Option (Node Char)) : List Char → List UInt8 → Prop
  | plain {s : List Char} {f : UInt8} {len : List UInt8} (hf : Tag strict 1 2 0 f)
      (hl : NatWord 8 (s.flatMap String.utf8EncodeChar).length len) :
      StrWord strict coder s (f :: (len ++ s.flatMap String.utf8EncodeChar))
  | coded {s : List Char} {f : UInt8} {root : Node Char} {bits : List Bool} {w : List UInt8} (hf : Tag strict 1 2 1 f)
      (hr : coder = some root) (hc : Coded root s bits) (hb : BitWord strict bits w) :
      StrWord strict coder s (f :: w)

/-- The head of an array or a map: the number of elements within the type byte, or behind it. -/
inductive LenWord (strict : Bool) (code n : Nat) : List UInt8 → Prop
  | short {f : UInt8} (hf : f.toNat / 16 = code) (hn : f.toNat % 16 = 2 * n) (hs : strict = true → n < 7) :
      LenWord strict code n [f]
  | long {f : UInt8} {len : List UInt8} (hf : Tag strict code 2 1 f) (hs : strict = true → 7 ≤ n) (hl : NatWord 8 n len) :
      LenWord strict code n (f :: len)

open SignedState in
/-- The numbers by which the signs of the two parts of an imaginary number are told apart. 0 is the polar form. -/
inductive SignPair : SignedState → SignedState → Nat → Prop
  | uu : SignPair unsigned unsigned 1
  | up : SignPair unsigned signedPositive 2
  | pu : SignPair signedPositive unsigned 3
  | un : SignPair unsigned signedNegative 4
  | nu : SignPair signedNegative unsigned 5
  | pp : SignPair signedPositive signedPositive 6
  | pn : SignPair signedPositive signedNegative 7
  | np : SignPair signedNegative signedPositive 8
  | nn : SignPair signedNegative signedNegative 9

/-- `k` bytes of a number, lowest first. -/
def FixedWord (k n : Nat) (bs : List UInt8) : Prop := bs.length = k ∧ number bs = n

/-- The bytes of a value. -/
inductive Word (strict : Bool) (Block : Nat → List UInt8 → List UInt8 → Prop) (env : Env) (coder : Option (Node Char)) :
    Value → List UInt8 → Prop
  | character {c : Char} {f : UInt8} {w : List UInt8} (hf : Tag strict 0 1 0 f) (h : NatWord 4 c.toNat w) :
      Word strict Block env coder (.character c) (f :: w)
  | string {s : List Char} {w : List UInt8} (h : StrWord strict coder s w) : Word strict Block env coder (.string s) w
  | binary {b : List UInt8} {f : UInt8} {ct : Nat} {w : List UInt8} (hf : Tag strict 2 16 ct f)
      (h : BinWord strict Block ct b w) : Word strict Block env coder (.binary b) (f :: w)
  | boolean {b : Bool} {f : UInt8} (hf : Tag strict 3 2 b.toNat f) : Word strict Block env coder (.boolean b) [f]
  | integer {i : Integer} {f : UInt8} {w : List UInt8} (hf : Tag strict 4 4 (signCode i.signedState) f)
      (h : IntWord 16 i.signedState i.value w) : Word strict Block env coder (.integer i) (f :: w)
  | cartesian {a b : Integer} {m : Nat} {f : UInt8} {wa wb : List UInt8} (hf : Tag strict 5 16 m f)
      (hm : SignPair a.signedState b.signedState m) (ha : IntWord 16 a.signedState a.value wa)
      (hb : IntWord 16 b.signedState b.value wb) :
      Word strict Block env coder (.imaginary (.cartesian a b)) (f :: (wa ++ wb))
  | polar {m a : UInt64} {f : UInt8} {wm wa : List UInt8} (hf : Tag strict 5 16 0 f) (hm : FixedWord 8 m.toNat wm)
      (ha : FixedWord 8 a.toNat wa) : Word strict Block env coder (.imaginary (.polar m a)) (f :: (wm ++ wa))
  /-- A year that does not fit is understood modulo 2^32 (hardly intended). -/
  | timestamp {t : Timestamp} {f : UInt8} {ss : SignedState} {y : Int} {wy wmo wd wh wmi ws wn : List UInt8}
      (hf : Tag strict 6 4 (signCode ss) f) (hy : IntWord 4 ss y wy) (hm : (y - t.year) % 2 ^ 32 = 0)
      (hs : strict = true → y = t.year ∧ (ss = .signedNegative ↔ t.year < 0) ∧ ss ≠ .unsigned)
      (hmo : NatWord 4 t.month wmo) (hd : NatWord 4 t.day wd) (hh : NatWord 4 t.hour wh) (hmi : NatWord 4 t.minute wmi)
      (hse : NatWord 4 t.sec ws) (hn : NatWord 4 t.nano wn) (hv : strict = false → t.Valid ∧ t.LeapAt59) :
      Word strict Block env coder (.timestamp t)
        (f :: (wy ++ (wmo ++ (wd ++ (wh ++ (wmi ++ (ws ++ wn)))))))
  | json {j : SJValue} {s : List Char} {f : UInt8} {w : List UInt8} (hf : Tag strict 7 1 0 f)
      (hj : if strict then s = env.jsonPrint j else env.jsonParse s = some j) (h : StrWord strict coder s w) :
      Word strict Block env coder (.json j) (f :: w)
  | map {m : List (List Char × Value)} {head : List UInt8} {parts : List (List UInt8 × List UInt8)}
      (hh : LenWord strict 8 m.length head) (hl : parts.length = m.length)
      (hk : ∀ (i : Nat) (k : List Char) (v : Value) (p : List UInt8 × List UInt8), m[i]? = some (k, v) → parts[i]? = some p → StrWord strict coder k p.1)
      (h : ∀ (i : Nat) (k : List Char) (v : Value) (p : List UInt8 × List UInt8), m[i]? = some (k, v) → parts[i]? = some p → Word strict Block env coder v p.2) :
      Word strict Block env coder (.map m) (head ++ parts.flatMap fun p => p.1 ++ p.2)
  | null {f : UInt8} (hf : Tag strict 9 1 0 f) : Word strict Block env coder .null [f]
  | double {x : UInt64} {f : UInt8} {w : List UInt8} (hf : Tag strict 10 1 0 f) (h : FixedWord 8 x.toNat w) :
      Word strict Block env coder (.double x) (f :: w)
  /-- A single element behind the length 0 is understood (hardly intended). -/
  | array {a : List Value} {n : Nat} {head : List UInt8} {parts : List (List UInt8)} (hh : LenWord strict 11 n head)
      (hn : n = a.length ∨ strict = false ∧ n = 0 ∧ a.length = 1) (hl : parts.length = a.length)
      (h : ∀ (i : Nat) (v : Value) (p : List UInt8), a[i]? = some v → parts[i]? = some p → Word strict Block env coder v p) :
      Word strict Block env coder (.array a) (head ++ parts.flatten)
  | timezone {n : List Char} {f : UInt8} {w : List UInt8} (hf : Tag strict 12 1 0 f)
      (hn : strict = false → n ∈ env.tzNames) (h : StrWord strict coder n w) :
      Word strict Block env coder (.timezone n) (f :: w)
  | ipv4 {a b c d f : UInt8} (hf : Tag strict 13 1 0 f) : Word strict Block env coder (.ipv4 a b c d) [f, a, b, c, d]
  | ipv6 {a b c d e g h i : UInt16} {f : UInt8} {wa wb wc wd we wg wh wi : List UInt8} (hf : Tag strict 14 1 0 f)
      (ha : FixedWord 2 a.toNat wa) (hb : FixedWord 2 b.toNat wb) (hc : FixedWord 2 c.toNat wc) (hd : FixedWord 2 d.toNat wd)
      (he : FixedWord 2 e.toNat we) (hg : FixedWord 2 g.toNat wg) (hh : FixedWord 2 h.toNat wh) (hi : FixedWord 2 i.toNat wi) :
      Word strict Block env coder (.ipv6 a b c d e g h i)
        (f :: (wa ++ (wb ++ (wc ++ (wd ++ (we ++ (wg ++ (wh ++ wi))))))))
  | single {x : UInt32} {f : UInt8} {w : List UInt8} (hf : Tag strict 15 1 0 f) (h : FixedWord 4 x.toNat w) :
      Word strict Block env coder (.single x) (f :: w)

/-- The letters SOURISDB. -/
def letters : List UInt8 := ['S', 'O', 'U', 'R', 'I', 'S', 'D', 'B'].map fun c => UInt8.ofNat c.toNat

/-- The bytes of a database file: the letters SOURISDB, a byte that says whether there is a tree and in which form the
rest is, and the rest: the tree and the map of all entries. -/
inductive FileWord (Block : Nat → List UInt8 → List UInt8 → Prop) (env : Env) :
    List (List Char × Value) → List UInt8 → Prop
  | bare {m : List (List Char × Value)} {ct : Nat} {flag : UInt8} {data w : List UInt8} (hf : flag.toNat = ct)
      (hb : BinWord true Block ct data w) (h : Word true Block env none (.map m) data) :
      FileWord Block env m (letters ++ flag :: w)
  | coded {m : List (List Char × Value)} {ct : Nat} {flag : UInt8} {root : Node Char} {t data w : List UInt8}
      (hf : flag.toNat = 128 + ct) (ht : CharTree root t) (hb : BinWord true Block ct (t ++ data) w)
      (h : Word true Block env (some root) (.map m) data) :
      FileWord Block env m (letters ++ flag :: w)

end Wire

end Souris
