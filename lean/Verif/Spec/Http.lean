import Verif.Model.Http

/-! # What an HTTP request says -/

namespace Souris.Http

/-- The hexadecimal digits. -/
inductive Hex : UInt8 → Nat → Prop
  | digit {n : Nat} (h : n < 10) : Hex (UInt8.ofNat (48 + n)) n
  | upper {n : Nat} (h : n < 6) : Hex (UInt8.ofNat (65 + n)) (10 + n)
  | lower {n : Nat} (h : n < 6) : Hex (UInt8.ofNat (97 + n)) (10 + n)

/-- `Writes bytes text`: the text is a form encoding of the bytes. Each byte stands for itself, as `%` with two
digits, or, if it is a space, as `+`. The bytes `&`, `=`, `+` and `%` cannot stand for themselves. -/
inductive Writes : List UInt8 → List UInt8 → Prop
  | nil : Writes [] []
  | plain {b : UInt8} {bs t : List UInt8} (h : b ≠ 38 ∧ b ≠ 61 ∧ b ≠ 43 ∧ b ≠ 37) : Writes bs t → Writes (b :: bs) (b :: t)
  | plus {bs t : List UInt8} : Writes bs t → Writes (32 :: bs) (43 :: t)
  | hex {x y : UInt8} {m n : Nat} {bs t : List UInt8} : Hex x m → Hex y n → Writes bs t →
      Writes (UInt8.ofNat (16 * m + n) :: bs) (37 :: x :: y :: t)

/-- `Says ps q`: the query string lists these parameters. -/
inductive Says : List Pair → List UInt8 → Prop
  | nil : Says [] []
  | one {k v : List Char} {t u : List UInt8} : Writes (utf8 k) t → Writes (utf8 v) u → Says [(k, v)] (t ++ 61 :: u)
  | cons {k v : List Char} {t u q : List UInt8} {ps : List Pair} : Writes (utf8 k) t → Writes (utf8 v) u → Says ps q →
      ps ≠ [] → Says ((k, v) :: ps) (t ++ 61 :: u ++ 38 :: q)

/-- The parameter is given once, with this value. -/
def Once (k v : List Char) (ps : List Pair) : Prop := ∃ l r, ps = l ++ (k, v) :: r ∧ ∀ p ∈ l ++ r, p.1 ≠ k

/-- The flag is given once, as `true` or `false`. -/
def OnceFlag (k : List Char) (b : Bool) (ps : List Pair) : Prop := Once k (if b then "true".toList else "false".toList) ps

/-- What the daemon's interface says a request means: method, path, parameters, body. -/
inductive Means (io : IoResult) : Method → List Char → List Pair → List UInt8 → Request → Prop
  | healthcheck {ps b} : Means io .get "/healthcheck".toList ps b .healthcheck
  | allNames {ps b} : Means io .get "/v1/get_all_db_names".toList ps b .allNames
  | getDb {ps b n} : Once "db_name".toList n ps → Means io .get "/v1/get_db".toList ps b (.getDb n)
  | addDb {ps b n o} : Once "db_name".toList n ps → OnceFlag "overwrite_existing".toList o ps →
      Means io .post "/v1/add_db".toList ps b (.addDb n o)
  | addDbWithContent {ps b n o} : Once "db_name".toList n ps → OnceFlag "overwrite_existing".toList o ps →
      Means io .put "/v1/add_db_with_content".toList ps b (.addDbWithContent n o b)
  | rmDb {ps b n} : Once "db_name".toList n ps → Means io .post "/v1/rm_db".toList ps b (.rmDb n io)
  | clearDb {ps b n} : Once "db_name".toList n ps → Means io .post "/v1/clear_db".toList ps b (.clearDb n)
  | addKv {ps b n k c o} : Once "db_name".toList n ps → Once "key".toList k ps →
      OnceFlag "create_new_database".toList c ps → OnceFlag "overwrite_key".toList o ps →
      Means io .put "/v1/add_kv".toList ps b (.addKv n k c o b)
  | rmKv {ps b n k} : Once "db_name".toList n ps → Once "key".toList k ps →
      Means io .post "/v1/rm_kv".toList ps b (.rmKv n k)
  | getValue {ps b n k} : Once "db_name".toList n ps → Once "key".toList k ps →
      Means io .get "/v1/get_value".toList ps b (.getValue n k)

/-- The paths and their methods. -/
def endpoints : List (List Char × Method) :=
  [("/healthcheck".toList, .get), ("/v1/get_all_db_names".toList, .get), ("/v1/get_db".toList, .get),
   ("/v1/add_db".toList, .post), ("/v1/add_db_with_content".toList, .put), ("/v1/rm_db".toList, .post),
   ("/v1/clear_db".toList, .post), ("/v1/add_kv".toList, .put), ("/v1/rm_kv".toList, .post),
   ("/v1/get_value".toList, .get)]

/-- `HEAD` asks for the same as `GET`. -/
def asked : Method → Method
  | .head => .get
  | m => m

/-- Names and keys that leave a URI within the limit: 65534 bytes for `http://host:port`, less than a hundred for the
path and the names of the parameters, and the rest for the encoded names and keys. -/
def Fits (L : Link) (words : List (List Char)) : Prop :=
  L.origin + 100 + (words.map fun w => (encode w).length).sum ≤ 65534

/-- `Read::read`: pieces of the body in order, none of them empty before the end. -/
def Link.Reads (L : Link) : Prop := ∀ b, (L.pieces b).flatten = b ∧ ∀ p ∈ L.pieces b, p ≠ []

/-- The text of JSON strings and of lists of strings is read back as it was written. -/
structure TextOk (env : Env) : Prop where
  string : ∀ s, env.jsonParse (env.jsonPrint (.string s)) = some (.string s)
  names : ∀ ns : List (List Char), env.jsonParse (env.jsonPrint (.array (ns.map .string))) = some (.array (ns.map .string))

end Souris.Http
