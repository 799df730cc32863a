import Verif.Spec.Reads

/-! # Specification: keys that are added once and removed once (C109) -/

namespace Souris

/-- The reply to `add_kv` says that there was nothing under the key. -/
def CreationResult.Inserted : CreationResult → Prop
  | .insertedKeyIntoExistingDB | .insertedKeyIntoNewDB => True
  | _ => False

/-- The operation may leave nothing under the key `k` of the database `n` though there was something. -/
def Op.Removes (n k : List Char) : Op → Prop
  | .newDb m overwrite => m = n ∧ overwrite = true
  | .newDbWith m overwrite c => m = n ∧ overwrite = true ∧ k ∉ c.map Prod.fst
  | .clearDb m => m = n
  | .removeDb m _ => m = n
  | .removeKey m k' => m = n ∧ k' = k
  | .addKv _ _ _ _ _ | .getDb _ | .getValue _ _ | .allNames => False

end Souris
