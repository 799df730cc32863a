import Verif.Model.Display

/-!
# Printing values in builds without `std`

crates/sourisdb/src/values.rs: without the feature `std` there is no comfy_table and maps are written in
braces. Everything else is as in `Verif.Model.Display`.
-/

namespace Souris

namespace Value

mutual
/-- values.rs L302-371 without the feature `std`: `Display for Value`. -/
def displayBare (env : Env) (sh : Shows) : Value → List Char
  | character c => sh.charLiteral c
  | string s => sh.strLiteral s
  | binary b => displayBytes b
  | boolean b => if b then ['t', 'r', 'u', 'e'] else ['f', 'a', 'l', 's', 'e']
  | integer i => i.display
  | imaginary z => z.display sh
  | timestamp t => env.tsPrint t
  | json j => env.jsonPrint j
  | null => ['n', 'u', 'l', 'l']
  | single x => sh.f32 x
  | double x => sh.f64 x
  | array a => '[' :: bareItems env sh a
  | map m => '{' :: bareEntries env sh true m
  | timezone name => name
  | ipv4 a b c d => natText a.toNat ++ ('.' :: (natText b.toNat ++ ('.' :: (natText c.toNat ++ ('.' :: natText d.toNat)))))
  | ipv6 a b c d e f g i => sh.ipv6 [a, b, c, d, e, f, g, i]

/-- values.rs L349-360: the first element and what follows. -/
def bareItems (env : Env) (sh : Shows) : List Value → List Char
  | [] => [']']
  | v :: vs => displayBare env sh v ++ bareTail env sh vs

/-- values.rs L355-360: further elements. -/
def bareTail (env : Env) (sh : Shows) : List Value → List Char
  | [] => [']']
  | v :: vs => ',' :: ' ' :: (displayBare env sh v ++ bareTail env sh vs)

/-- values.rs L333-343: the loop over the entries, with the flag `first`, and the closing brace. -/
def bareEntries (env : Env) (sh : Shows) (first : Bool) : List (List Char × Value) → List Char
  | [] => ['}']
  | (k, v) :: m =>
    if first then k ++ (':' :: ' ' :: (displayBare env sh v ++ bareEntries env sh false m))
    else ',' :: ' ' :: (k ++ (':' :: ' ' :: (displayBare env sh v ++ bareEntries env sh false m)))
end

end Value

/-- store.rs L217-221 without the feature `std`: `Display for Store`. -/
def Store.displayBare (env : Env) (sh : Shows) (s : List (List Char × Value)) : List Char :=
  Value.displayBare env sh (.map s)

end Souris
