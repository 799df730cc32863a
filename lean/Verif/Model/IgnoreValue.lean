import Verif.Model.JsonText

/-!
# Values that are skipped

External code: serde_json 1.0.129, `ignore_value`, modelled from its source. It is called for the members of objects
that a derived `Deserialize` does not know, such as the one of `Imaginary` (imaginary.rs L18-36). There is no limit to
the depth, numbers need not fit anything, and escaped code units need not make up characters.
-/

namespace Souris.SerdeJson

/-- `de.rs`, `ignore_exponent`, behind the `e`. -/
def ignoreExponent (cs : List Char) : Option (List Char) :=
  let cs := if cs.head? = some '+' ∨ cs.head? = some '-' then cs.tail else cs
  match cs with
  | [] => none
  | c :: rest => if (digitOf c).isSome then some (eatDigits rest) else none

/-- `de.rs`, `ignore_decimal`, behind the point. -/
def ignoreDecimal (cs : List Char) : Option (List Char) :=
  match cs with
  | [] => none
  | c :: rest =>
    if (digitOf c).isSome then
      match eatDigits rest with
      | [] => some []
      | c :: rest => if c = 'e' ∨ c = 'E' then ignoreExponent rest else some (c :: rest)
    else none

/-- `de.rs`, the end of `ignore_integer`. -/
def ignoreNumberEnd (cs : List Char) : Option (List Char) :=
  match cs with
  | [] => some []
  | c :: rest =>
    if c = '.' then ignoreDecimal rest
    else if c = 'e' ∨ c = 'E' then ignoreExponent rest
    else some (c :: rest)

/-- `de.rs`, `ignore_integer`. -/
def ignoreInteger (cs : List Char) : Option (List Char) :=
  match cs with
  | [] => none
  | c :: rest =>
    match digitOf c with
    | none => none
    | some 0 =>
      match rest with
      | [] => ignoreNumberEnd []
      | c' :: rest' => if (digitOf c').isSome then none else ignoreNumberEnd (c' :: rest')
    | some (_ + 1) => ignoreNumberEnd (eatDigits rest)

/-- `read.rs`, `ignore_escape`, behind the backslash. -/
def ignoreEscape : List Char → Option (List Char)
  | [] => none
  | c :: rest =>
    if c ∈ ['"', '\\', '/', 'b', 'f', 'n', 'r', 't'] then some rest
    else if c = 'u' then (hex4 rest).map (·.2)
    else none

/-- `read.rs`, `SliceRead::ignore_str`, behind the opening quote. Every round reads at least one character, so fuel of
more than the length suffices. -/
def ignoreStr : Nat → List Char → Option (List Char)
  | 0, _ => none
  | _ + 1, [] => none
  | fuel + 1, c :: rest =>
    if c = '"' then some rest
    else if c = '\\' then
      match ignoreEscape rest with
      | none => none
      | some rest => ignoreStr fuel rest
    else if c.toNat < 32 then none
    else ignoreStr fuel rest

/-- `de.rs`, `ignore_value`: what is between a comma or an opening brace and the value of a member. In arrays there is
nothing. -/
def ignoreKey (frame : Char) (cs : List Char) : Option (List Char) :=
  if frame = '{' then
    match skip cs with
    | [] => none
    | c :: rest =>
      if c = '"' then
        match ignoreStr (rest.length + 1) rest with
        | none => none
        | some rest => colon rest
      else none
  else some cs

mutual
/-- `de.rs`, `ignore_value`: the outer loop. The stack is `enclosing` on top of `scratch`: the brackets that are
open. -/
def ignoreLoop : Nat → List Char → List Char → Option (List Char)
  | 0, _, _ => none
  | fuel + 1, stack, cs =>
    match skip cs with
    | [] => none
    | c :: rest =>
      if c = 'n' then (ident ['u', 'l', 'l'] rest).bind (ignoreAfter fuel true stack)
      else if c = 't' then (ident ['r', 'u', 'e'] rest).bind (ignoreAfter fuel true stack)
      else if c = 'f' then (ident ['a', 'l', 's', 'e'] rest).bind (ignoreAfter fuel true stack)
      else if c = '-' then (ignoreInteger rest).bind (ignoreAfter fuel true stack)
      else if (digitOf c).isSome then (ignoreInteger (c :: rest)).bind (ignoreAfter fuel true stack)
      else if c = '"' then (ignoreStr (rest.length + 1) rest).bind (ignoreAfter fuel true stack)
      else if c = '[' ∨ c = '{' then ignoreAfter fuel false (c :: stack) rest
      else none

/-- `de.rs`, `ignore_value`: the inner loop, with the flag `accept_comma`; `scratch` is the stack below the bracket in
`frame`. -/
def ignoreAfter : Nat → Bool → List Char → List Char → Option (List Char)
  | 0, _, _, _ => none
  | _ + 1, _, [], cs => some cs
  | fuel + 1, acceptComma, frame :: scratch, cs =>
    match skip cs with
    | [] => none
    | c :: rest =>
      if c = ',' ∧ acceptComma then (ignoreKey frame rest).bind (ignoreLoop fuel (frame :: scratch))
      else if (c = ']' ∧ frame = '[') ∨ (c = '}' ∧ frame = '{') then ignoreAfter fuel true scratch rest
      else if acceptComma then none
      else (ignoreKey frame (c :: rest)).bind (ignoreLoop fuel (frame :: scratch))
end

/-- `de.rs`, `ignore_value`: skips a value and returns the text behind it. Each round reads a character. -/
def ignoreValue (cs : List Char) : Option (List Char) := ignoreLoop (2 * cs.length + 2) [] cs

end Souris.SerdeJson
