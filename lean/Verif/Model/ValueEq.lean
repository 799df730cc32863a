import Verif.Model.Value

/-!
# Equality and hashing of values (crates/sourisdb/src/values.rs L195-300)

What a value feeds to the hasher is a list of typed items; items of external types (timestamps,
timezones, addresses, strings, characters) stand for the data their own `Hash` feeds.
-/

namespace Souris

namespace Value

mutual
/-- values.rs L195-223: `PartialEq for Value`. The test of the types at L197 is part of the patterns, so
the `unreachable!` of L220 has no counterpart. -/
def eq : Value → Value → Bool
  | character a, w => (match w with | character b => decide (a = b) | _ => false)
  | string a, w => (match w with | string b => decide (a = b) | _ => false)
  | binary a, w => (match w with | binary b => decide (a = b) | _ => false)
  | boolean a, w => (match w with | boolean b => decide (a = b) | _ => false)
  | integer a, w => (match w with | integer b => a.eq b | _ => false)
  | imaginary a, w => (match w with | imaginary b => a.eq b | _ => false)
  | timestamp a, w => (match w with | timestamp b => decide (a = b) | _ => false)
  | json a, w => (match w with | json b => a.eq b | _ => false)
  | null, w => (match w with | null => true | _ => false)
  | single a, w => (match w with | single b => f32Format.ieeeEq a.toNat b.toNat | _ => false)
  | double a, w => (match w with | double b => f64Format.ieeeEq a.toNat b.toNat | _ => false)
  | array a, w => (match w with | array b => eqList a b | _ => false)
  | map a, w => (match w with | map b => decide (a.length = b.length) && eqAll a b | _ => false)
  | timezone a, w => (match w with | timezone b => decide (a = b) | _ => false)
  | ipv4 a b c d, w =>
    (match w with | ipv4 a' b' c' d' => decide ([a, b, c, d] = [a', b', c', d']) | _ => false)
  | ipv6 a b c d e f g h, w =>
    (match w with
      | ipv6 a' b' c' d' e' f' g' h' =>
        decide ([a, b, c, d, e, f, g, h] = [a', b', c', d', e', f', g', h'])
      | _ => false)

/-- `Vec` equality (L211): same length, elements pairwise equal. -/
def eqList : List Value → List Value → Bool
  | [], w => (match w with | [] => true | _ => false)
  | a :: as, w => (match w with | b :: bs => eq a b && eqList as bs | _ => false)

/-- hashbrown's map equality (L212), after the test of the lengths: every entry of the left map is found
in the right map with an equal value. -/
def eqAll : List (List Char × Value) → List (List Char × Value) → Bool
  | [], _ => true
  | (k, v) :: rest, m =>
    (match SJValue.get k m with | some v' => eq v v' | none => false) && eqAll rest m
end

/-- One item fed to the hasher. -/
inductive HashItem
  | discriminant (t : ValueTy)
  | form (polar : Bool)
  | char (c : Char)
  | str (s : List Char)
  | slice (b : List UInt8)
  | bool (b : Bool)
  | integer (d : SignedState × List UInt8 × Nat)
  | timestamp (t : Timestamp)
  | class (n : Nat)
  | floatBytes (b : List UInt8)
  | timezone (name : List Char)
  | ipv4 (octets : List UInt8)
  | ipv6 (segments : List UInt16)
deriving DecidableEq

/-- imaginary.rs L38-69: `Hash for Imaginary`. -/
def hashImaginary : Imaginary → List HashItem
  | .cartesian re im => [.form false, .integer re.hashData, .integer im.hashData]
  | .polar m a => [.form true,
      .class (f64Format.classNum m.toNat), .floatBytes (leBytes 8 m.toNat),
      .class (f64Format.classNum a.toNat), .floatBytes (leBytes 8 a.toNat)]

mutual
/-- values.rs L227-300: `Hash for Value`. -/
def hashItems (env : Env) : Value → List HashItem
  | character c => [.discriminant .character, .char c]
  | string s => [.discriminant .string, .str s]
  | binary b => [.discriminant .binary, .slice b]
  | boolean b => [.discriminant .boolean, .bool b]
  | integer i => [.discriminant .integer, .integer i.hashData]
  | imaginary z => .discriminant .imaginary :: hashImaginary z
  | timestamp t => [.discriminant .timestamp, .timestamp t]
  | json j => [.discriminant .json, .str (env.jsonPrint j)]
  | null => [.discriminant .null]
  | single x => [.discriminant .singleFloat, .class (f32Format.classNum x.toNat), .floatBytes (leBytes 4 x.toNat)]
  | double x => [.discriminant .doubleFloat, .class (f64Format.classNum x.toNat), .floatBytes (leBytes 8 x.toNat)]
  | array a => .discriminant .array :: hashList env a
  | map m => .discriminant .map :: (m.map (fun kv => HashItem.str kv.1) ++ hashValues env m)
  | timezone n => [.discriminant .timezone, .timezone n]
  | ipv4 a b c d => [.discriminant .ipv4Addr, .ipv4 [a, b, c, d]]
  | ipv6 a b c d e f g h => [.discriminant .ipv6Addr, .ipv6 [a, b, c, d, e, f, g, h]]

/-- values.rs L260-264. -/
def hashList (env : Env) : List Value → List HashItem
  | [] => []
  | v :: vs => hashItems env v ++ hashList env vs

/-- values.rs L256-258: the values of a map in iteration order. -/
def hashValues (env : Env) : List (List Char × Value) → List HashItem
  | [] => []
  | (_, v) :: vs => hashItems env v ++ hashValues env vs
end

end Value

end Souris
