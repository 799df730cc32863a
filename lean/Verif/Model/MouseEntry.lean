import Verif.Model.Client

/-!
# Typing a value into `mouse` (crates/mouse/src/value_utils.rs)

`mouse` talks to its user through dialoguer, which is taken to work as documented. A session's script is the
list of what the user does at one prompt after the other; after its end the terminal is gone and every prompt
fails. An `Input` asks again on an empty line (`allow_empty` is off) and on a line that does not parse.
-/

namespace Souris

/-- What the user does at a prompt. -/
inductive Answer
  /-- a line typed at an `Input` -/
  | line (s : List Char)
  /-- the answer to a `Confirm` -/
  | confirm (b : Bool)
  /-- an item of a `FuzzySelect` -/
  | pick (i : Nat)
  /-- the terminal fails, or the user leaves the prompt -/
  | broken
deriving DecidableEq, Repr

/-- main.rs L62-71: `Error`. `Value` is never constructed. -/
inductive MouseError
  | io
  | dialoguer
  | serdeJson
  | store
  | noDatabasesFound
  | client (e : ClientError)
deriving DecidableEq, Repr

/-- Why a run of `mouse` stops early: an error, or it never gets any further. -/
inductive Stop
  | error (e : MouseError)
  | hang
deriving DecidableEq, Repr

/-- What is at a path. -/
inductive FileAt
  | missing
  | directory
  /-- it exists, but opening or reading it fails -/
  | unreadable
  | file (contents : List UInt8)
deriving DecidableEq, Repr

/-- The surroundings of a run: files, the clock, and the `FromStr` of types that are not modelled. -/
structure Term where
  files : List Char → FileAt
  /-- `Local::now().naive_local()` -/
  now : Timestamp
  /-- `f64::from_str` -/
  f64 : List Char → Option UInt64
  /-- `Ipv4Addr::from_str` -/
  ip4 : List Char → Option (UInt8 × UInt8 × UInt8 × UInt8)
  /-- `Ipv6Addr::from_str` -/
  ip6 : List Char → Option (UInt16 × UInt16 × UInt16 × UInt16 × UInt16 × UInt16 × UInt16 × UInt16)
  /-- what becomes of the daemon's attempt to delete a database's file -/
  unlink : IoResult

/-- A dialog: what it returns and what is left of the script. -/
abbrev Entry (α : Type) : Type := List Answer → Out Stop (α × List Answer)

namespace Mouse

/-- A prompt that failed. -/
def failed {α : Type} : Out Stop α := .err (.error .dialoguer)

/-- dialoguer's `Input::interact`. -/
def input {α : Type} (parse : List Char → Option α) : Entry α
  | .line s :: rest =>
    match (if s = [] then none else parse s) with
    | some a => .ok (a, rest)
    | none => input parse rest
  | _ => failed

/-- dialoguer's `Confirm::interact`. -/
def confirm : Entry Bool
  | .confirm b :: rest => .ok (b, rest)
  | _ => failed

/-- dialoguer's `FuzzySelect::interact` over `n` items. -/
def select (n : Nat) : Entry Nat
  | .pick i :: rest => if i < n then .ok (i, rest) else failed
  | _ => failed

/-- std: `char::from_str`. -/
def charOf : List Char → Option Char
  | [c] => some c
  | _ => none

/-- std: `String::from_str`. -/
def stringOf (s : List Char) : Option (List Char) := some s

/-- std: `u32::from_str` and `usize::from_str`. -/
def natOf (max : Nat) : List Char → Option Nat
  | '+' :: cs => parseMagnitude max cs
  | cs => parseMagnitude max cs

/-- std: `i32::from_str`. -/
def i32Of : List Char → Option Int
  | '-' :: cs => (parseMagnitude (2 ^ 31) cs).map fun n : Nat => -(n : Int)
  | '+' :: cs => (parseMagnitude (2 ^ 31 - 1) cs).map fun n : Nat => (n : Int)
  | cs => (parseMagnitude (2 ^ 31 - 1) cs).map fun n : Nat => (n : Int)

def u32Max : Nat := 2 ^ 32 - 1
def usizeMax : Nat := 2 ^ 64 - 1

/-- value_utils.rs L100-123: `ValidFile` and the loop around its prompt, which tries again when the prompt
fails. With the terminal gone it tries forever. -/
def validFile (T : Term) : Entry (List Char)
  | [] => .err .hang
  | .line s :: rest =>
    if s = [] then validFile T rest
    else match T.files s with
      | .missing | .directory => validFile T rest
      | _ => .ok (s, rest)
  | _ :: rest => validFile T rest

/-- value_utils.rs L125-133, and main.rs L167-177. -/
def readFile (T : Term) (path : List Char) : Out Stop (List UInt8) :=
  match T.files path with
  | .file b => .ok b
  | _ => .err (.error .io)

/-- value_utils.rs L186-195: ask for a date until it is one. The first argument bounds the number of
attempts; each takes an answer, so the length of the script is enough. -/
def date : Nat → Entry (Int × Nat × Nat)
  | 0, _ => failed
  | n + 1, s => do
    let (y, s) ← input i32Of s
    let (m, s) ← input (natOf u32Max) s
    let (d, s) ← input (natOf u32Max) s
    if Timestamp.dateOk y m d then .ok ((y, m, d), s) else date n s

/-- value_utils.rs L197-213: ask for a time until it is one; likewise. -/
def time : Nat → Entry (Nat × Nat × Nat × Nat)
  | 0, _ => failed
  | n + 1, s => do
    let (h, s) ← input (natOf u32Max) s
    let (m, s) ← input (natOf u32Max) s
    let (sec, s) ← input (natOf u32Max) s
    let (ms, s) ← input (natOf u32Max) s
    if Timestamp.timeOk h m sec (ms * 1000000) then .ok ((h, m, sec, ms * 1000000), s) else time n s

/-- value_utils.rs L176-216. -/
def timestamp (env : Env) (T : Term) : Entry Timestamp := fun s => do
  let (now, s) ← confirm s
  if now then return (T.now, s)
  let (fmt, s) ← confirm s
  if fmt then input env.tsParse s
  else do
    let ((y, mo, d), s) ← date (s.length + 1) s
    let ((h, mi, sec, n), s) ← time (s.length + 1) s
    return (⟨y, mo, d, h, mi, sec, n⟩, s)

/-- value_utils.rs L150-173. -/
def imaginary (T : Term) : Entry Imaginary := fun s => do
  let (form, s) ← select 2 s
  if form = 0 then do
    let (modulus, s) ← input T.f64 s
    let (argument, s) ← input T.f64 s
    return (.polar modulus argument, s)
  else do
    let (re, s) ← input (fun t => (Integer.fromStr t).toOption) s
    let (im, s) ← input (fun t => (Integer.fromStr t).toOption) s
    return (.cartesian re im, s)

/-- value_utils.rs L233-235: `length` items. -/
def items (item : Entry Value) : Nat → Entry (List Value)
  | 0, s => .ok ([], s)
  | n + 1, s => do
    let (v, s) ← item s
    let (vs, s) ← items item n s
    return (v :: vs, s)

/-- value_utils.rs L237-251: items until the user says that it is everything. The number bounds the
iterations; each takes an answer. -/
def itemsUntil (item : Entry Value) : Nat → Entry (List Value)
  | 0, _ => failed
  | n + 1, s => do
    let (v, s) ← item s
    let (all, s) ← confirm s
    if all then return ([v], s)
    let (vs, s) ← itemsUntil item n s
    return (v :: vs, s)

/-- value_utils.rs L265-274: `length` keys with their values. -/
def pairs (item : Entry Value) : Nat → List (List Char × Value) → Entry (List (List Char × Value))
  | 0, m, s => .ok (m, s)
  | n + 1, m, s => do
    let (k, s) ← input stringOf s
    let (v, s) ← item s
    pairs item n (AMap.insert k v m) s

/-- value_utils.rs L276-292: keys and values until the user says that it is all. The number bounds the
iterations; each takes an answer. -/
def pairsUntil (item : Entry Value) : Nat → List (List Char × Value) → Entry (List (List Char × Value))
  | 0, _, _ => failed
  | n + 1, m, s => do
    let (all, s) ← confirm s
    if all then return (m, s)
    let (k, s) ← input stringOf s
    let (v, s) ← item s
    pairsUntil item n (AMap.insert k v m) s

/-- value_utils.rs L42-59: the menu of types. -/
def tys : List ValueTy :=
  [.character, .string, .binary, .boolean, .integer, .imaginary, .timestamp, .json, .null, .doubleFloat, .array,
    .map, .timezone, .ipv4Addr, .ipv6Addr, .singleFloat]

/-- value_utils.rs L39-326: `get_value_from_stdin`. The number bounds the nesting; each level takes an
answer. -/
def valueN (env : Env) (T : Term) : Nat → Entry Value
  | 0, _ => failed
  | n + 1, s => do
    let (i, s) ← select tys.length s
    match tys[i]? with
    | none => .panic .index
    | some .character => do let (c, s) ← input charOf s; return (.character c, s)
    | some .string => do let (t, s) ← input stringOf s; return (.string t, s)
    | some .binary => do
      let (path, s) ← validFile T s
      let b ← readFile T path
      return (.binary b, s)
    | some .boolean => do let (b, s) ← select 2 s; return (.boolean (decide (b ≠ 0)), s)
    | some .integer => do let (i, s) ← input (fun t => (Integer.fromStr t).toOption) s; return (.integer i, s)
    | some .imaginary => do let (z, s) ← imaginary T s; return (.imaginary z, s)
    | some .timestamp => do let (t, s) ← timestamp env T s; return (.timestamp t, s)
    | some .json => do let (j, s) ← input env.jsonParse s; return (.json j, s)
    | some .array => do
      let (known, s) ← confirm s
      if known then do
        let (k, s) ← input (natOf usizeMax) s
        let (vs, s) ← items (valueN env T n) k s
        return (.array vs, s)
      else do
        let (vs, s) ← itemsUntil (valueN env T n) (s.length + 1) s
        return (.array vs, s)
    | some .map => do
      let (known, s) ← confirm s
      if known then do
        let (k, s) ← input (natOf usizeMax) s
        let (m, s) ← pairs (valueN env T n) k [] s
        return (.map m, s)
      else do
        let (m, s) ← pairsUntil (valueN env T n) (s.length + 1) [] s
        return (.map m, s)
    | some .null => return (.null, s)
    | some .doubleFloat => do let (f, s) ← input T.f64 s; return (.double f, s)
    | some .singleFloat => do let (f, s) ← input T.f64 s; return (.double f, s)
    | some .timezone => do
      let (i, s) ← select env.tzNames.length s
      match env.tzNames[i]? with
      | none => .panic .index
      | some z => return (.timezone z, s)
    | some .ipv4Addr => do let ((a, b, c, d), s) ← input T.ip4 s; return (.ipv4 a b c d, s)
    | some .ipv6Addr => do
      let ((a, b, c, d, e, f, g, h), s) ← input T.ip6 s
      return (.ipv6 a b c d e f g h, s)

/-- `get_value_from_stdin` with a bound that is never reached. -/
def value (env : Env) (T : Term) : Entry Value := fun s => valueN env T (s.length + 1) s

end Mouse

end Souris
