import Verif.Spec.Format
import Verif.Model.Daemon

/-! # Specification vocabulary for the sizes of databases and files -/

namespace Souris

namespace Value

mutual
/-- What a value costs at `w` for every value and key in it, `c x` for every character `x` of its text (of
JSON, of the text of that), and `b` for every byte of its binary data. -/
def cost (env : Env) (w : Nat) (c : Char → Nat) (b : Nat) : Value → Nat
  | string s => w + (s.map c).sum
  | binary d => w + b * d.length
  | json j => w + ((env.jsonPrint j).map c).sum
  | timezone n => w + (n.map c).sum
  | map m => w + costEntries env w c b m
  | array a => w + costList env w c b a
  | _ => w

/-- The elements of an array. -/
def costList (env : Env) (w : Nat) (c : Char → Nat) (b : Nat) : List Value → Nat
  | [] => 0
  | v :: vs => cost env w c b v + costList env w c b vs

/-- The entries of a map. -/
def costEntries (env : Env) (w : Nat) (c : Char → Nat) (b : Nat) : List (List Char × Value) → Nat
  | [] => 0
  | (k, v) :: vs => (w + (k.map c).sum) + cost env w c b v + costEntries env w c b vs
end

/-- A value that exists at run time (`Live`) and whose timestamps are dates and times of day. -/
def Dated (v : Value) : Prop := Live v ∧ ∀ t, Sub (.timestamp t) v → t.Valid

/-- All the text in the value is made of these characters. -/
def Over (env : Env) (abc : List Char) (v : Value) : Prop := ∀ t, Text env t v → ∀ x ∈ t, x ∈ abc

/-- No binary data in the value is more than 255 copies of one byte. -/
def NoLongRun (v : Value) : Prop := ∀ d, Sub (.binary d) v → 255 < d.length → TwoSymbols d

end Value

/-- What lz4 decompresses to is at most 255 times as long as what it reads (the LZ4 block format does not allow
more). -/
def Lz.Bounded (z : Lz) : Prop := ∀ b n out, z.decompress b n = .ok out → out.length ≤ 255 * b.length

/-- JSON is printed to a text at most 31 times as long as any text it is parsed from (`1e15` is printed as
`1000000000000000.0`). -/
def Env.JsonBounded (env : Env) : Prop := ∀ s j, env.jsonParse s = some j → (env.jsonPrint j).length ≤ 31 * s.length

/-- The size of all the databases of a daemon: their names, keys and values. -/
def Dbs.size (env : Env) (dbs : Dbs) : Nat := (dbs.map fun x => (1 + x.1.length) + Value.sizeEntries env x.2).sum

/-- No binary data in the databases is more than 255 copies of one byte. -/
def Dbs.NoLongRun (dbs : Dbs) : Prop := ∀ n s k v, (n, s) ∈ dbs → (k, v) ∈ s → v.NoLongRun

/-- The characters of the names and keys of a request. -/
def Request.named : Request → Nat
  | .healthcheck | .allNames => 0
  | .getDb n | .addDb n _ | .addDbWithContent n _ _ | .rmDb n _ | .clearDb n => n.length
  | .addKv n k _ _ _ | .rmKv n k | .getValue n k => n.length + k.length

/-- The bytes of the body of a request. -/
def Request.bytes : Request → Nat
  | .addDbWithContent _ _ b | .addKv _ _ _ _ b => b.length
  | _ => 0

/-- The requests among what happens to a daemon. -/
def Happening.request? : Happening → Option Request
  | .request r => some r
  | .evict _ => none

end Souris
