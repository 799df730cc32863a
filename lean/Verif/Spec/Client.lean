import Verif.Model.Client

/-! # Specification vocabulary for clients -/

namespace Souris

/-- The happening writes or removes the key `k` of the database `n`, directly or with the whole database.
Adding a database that is not to be overwritten, or a key that is not to be overwritten, does not count. -/
def Happening.Touches (n k : List Char) : Happening → Prop
  | .request (.addDb m overwrite) => m = n ∧ overwrite = true
  | .request (.addDbWithContent m _ _) => m = n
  | .request (.rmDb m _) => m = n
  | .request (.clearDb m) => m = n
  | .request (.addKv m k' _ overwrite _) => m = n ∧ k' = k ∧ overwrite = true
  | .request (.rmKv m k') => m = n ∧ k' = k
  | _ => False

/-- A `get_value` request for the key is answered with bytes, and they deserialise to `v`. -/
def Daemon.Fetches (env : Env) (d : Daemon) (n k : List Char) (v : Value) : Prop :=
  ∃ w bytes c, (d.handle env (.getValue n k)).1 = .value w ∧ Value.ser env none w = .ok bytes ∧
    Value.deser env none (Cursor.new bytes) = .ok (v, c)

/-- The `CreationResult`s that announce a write. -/
def CreationResult.Wrote : CreationResult → Prop
  | .insertedKeyIntoExistingDB | .overwroteKeyInExistingDB | .insertedKeyIntoNewDB => True
  | .foundExistingKey | .unableToFindDB => False

end Souris
