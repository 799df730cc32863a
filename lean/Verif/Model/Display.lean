import Verif.Model.Value

/-!
# Printing values: `Display` of `Value`, `Imaginary`, `BinaryData` and `Store`

crates/sourisdb/src/values.rs, types/imaginary.rs, types/binary.rs, store.rs and lib.rs. The texts of
floats, of IPv6 addresses and of tables are made by std and comfy_table and are parameters, as is the set
of characters that std prints as themselves; timestamps and JSON use `Env`. The table is the variant with
the feature `std`, which the daemon and the command line use.
-/

namespace Souris

/-- Text made by external code. -/
structure Shows where
  /-- `char::escape_debug` leaves the character as it is: printable and not a grapheme extender -/
  plain : Char → Bool
  f32 : UInt32 → List Char
  f64 : UInt64 → List Char
  ipv6 : List UInt16 → List Char
  /-- comfy_table: the table with these rows below the header `Key`, `Value` -/
  table : List (List Char × List Char) → List Char

/-- std: the digit of `n < 16`, `{:x}`. -/
def hexLower (n : Nat) : Char := if n < 10 then Char.ofNat (48 + n) else Char.ofNat (87 + n)

/-- std: the digit of `n < 16`, `{:X}`. -/
def hexUpper (n : Nat) : Char := if n < 10 then Char.ofNat (48 + n) else Char.ofNat (55 + n)

/-- std: hexadecimal digits without leading zeros. -/
def hexText (n : Nat) : List Char :=
  if n < 16 then [hexLower n] else hexText (n / 16) ++ [hexLower (n % 16)]

/-- std: `format!("{:#X}", b)` for a `u8`. -/
def hexByte (b : UInt8) : List Char :=
  '0' :: 'x' :: (if b.toNat < 16 then [hexUpper b.toNat] else [hexUpper (b.toNat / 16), hexUpper (b.toNat % 16)])

/-- lib.rs L46-49: the loop and the closing bracket. -/
def hexTail : List UInt8 → List Char
  | [] => [']']
  | b :: bs => ',' :: ' ' :: (hexByte b ++ hexTail bs)

/-- lib.rs L39-53: `display_bytes_as_hex_array`; also `Display for BinaryData` (binary.rs L147-151). -/
def displayBytes : List UInt8 → List Char
  | [] => ['[', ']']
  | b :: bs => '[' :: (hexByte b ++ hexTail bs)

namespace Shows

/-- std: `char::escape_debug` inside a literal with the quote `q`; the other quote is not escaped. -/
def escape (sh : Shows) (q c : Char) : List Char :=
  if c = Char.ofNat 0 then ['\\', '0']
  else if c = '\t' then ['\\', 't']
  else if c = '\r' then ['\\', 'r']
  else if c = '\n' then ['\\', 'n']
  else if c = '\\' then ['\\', '\\']
  else if c = q then ['\\', q]
  else if sh.plain c then [c]
  else '\\' :: 'u' :: '{' :: (hexText c.toNat ++ ['}'])

/-- std: `{:?}` of a `char`. -/
def charLiteral (sh : Shows) (c : Char) : List Char := '\'' :: (sh.escape '\'' c ++ ['\''])

/-- std: `{:?}` of a `str`. -/
def strLiteral (sh : Shows) (s : List Char) : List Char := '"' :: (s.flatMap (sh.escape '"') ++ ['"'])

end Shows

/-- imaginary.rs L72-87: `Display for Imaginary`. -/
def Imaginary.display (sh : Shows) : Imaginary → List Char
  | cartesian re im =>
    if im.isNegative then re.display ++ (im.display ++ ['i'])
    else re.display ++ ('+' :: (im.display ++ ['i']))
  | polar m a => sh.f64 m ++ ([' ', 'e', '^', '('] ++ (sh.f64 a ++ ['i', ')']))

namespace Value

mutual
/-- values.rs L302-371: `Display for Value`. -/
def display (env : Env) (sh : Shows) : Value → List Char
  | character c => sh.charLiteral c
  | string s => sh.strLiteral s
  | binary b => displayBytes b
  | boolean b => if b then ['t', 'r', 'u', 'e'] else ['f', 'a', 'l', 's', 'e']
  | integer i => i.display
  | imaginary z => z.display sh
  | timestamp t => env.tsPrint t
  | json j => env.jsonPrint j
  | null => ['n', 'u', 'l', 'l']
  | single x => sh.f32 x
  | double x => sh.f64 x
  | array a => '[' :: displayItems env sh a
  | map m => '\n' :: sh.table (displayRows env sh m)
  | timezone name => name
  | ipv4 a b c d => natText a.toNat ++ ('.' :: (natText b.toNat ++ ('.' :: (natText c.toNat ++ ('.' :: natText d.toNat)))))
  | ipv6 a b c d e f g i => sh.ipv6 [a, b, c, d, e, f, g, i]

/-- values.rs L349-360: the first element and what follows. -/
def displayItems (env : Env) (sh : Shows) : List Value → List Char
  | [] => [']']
  | v :: vs => display env sh v ++ displayTail env sh vs

/-- values.rs L355-360: further elements. -/
def displayTail (env : Env) (sh : Shows) : List Value → List Char
  | [] => [']']
  | v :: vs => ',' :: ' ' :: (display env sh v ++ displayTail env sh vs)

/-- values.rs L325-327: the rows of the table. -/
def displayRows (env : Env) (sh : Shows) : List (List Char × Value) → List (List Char × List Char)
  | [] => []
  | (k, v) :: m => (k, display env sh v) :: displayRows env sh m
end

end Value

/-- store.rs L217-221: `Display for Store`. -/
def Store.display (env : Env) (sh : Shows) (s : List (List Char × Value)) : List Char :=
  Value.display env sh (.map s)

end Souris
