import Verif.Spec.Reads

/-! # Specification: requests that do not concern each other (C111) -/

namespace Souris

namespace Op

/-- The operation only reads. -/
def onlyReads : Op → Prop
  | .getDb _ | .getValue _ _ | .allNames => True
  | _ => False

/-- The database that the operation is about. -/
def database : Op → Option (List Char)
  | .newDb n _ | .newDbWith n _ _ | .clearDb n | .removeDb n _ | .getDb n | .addKv n _ _ _ _ | .getValue n _
  | .removeKey n _ => some n
  | .allNames => none

/-- The database and the key that the operation is about, if it is about one key and does not create databases. -/
def entry : Op → Option (List Char × List Char)
  | .addKv n k false _ _ | .getValue n k | .removeKey n k => some (n, k)
  | _ => none

/-- The operation neither creates nor removes databases. -/
def keepsNames : Op → Prop
  | .clearDb _ | .getDb _ | .addKv _ _ false _ _ | .getValue _ _ | .removeKey _ _ | .allNames => True
  | _ => False

/-- The operations do not concern each other: both only read, or they are about different databases, or about different
keys, or the one lists the databases and the other neither creates nor removes any. -/
def Unrelated (p q : Op) : Prop :=
  (p.onlyReads ∧ q.onlyReads) ∨
  (∃ n m, p.database = some n ∧ q.database = some m ∧ n ≠ m) ∨
  (∃ n k k', p.entry = some (n, k) ∧ q.entry = some (n, k') ∧ k ≠ k') ∨
  (p = .allNames ∧ q.keepsNames) ∨ (q = .allNames ∧ p.keepsNames)

/-- The reply is determined by the databases: not so the order of names and of the entries in a file, nor, by C42, the status of
`add_db_with_content`. -/
def determined : Op → Prop
  | .getDb _ | .newDbWith _ _ _ | .allNames => False
  | _ => True

end Op

/-- Of the operations `t` and `t'`, the first was answered before the second was called. -/
def Precedes (evs : List Ev) (t t' : Nat) : Prop := ∃ r op, Before evs (.ret t r) (.call t' op)

/-- The operation may change the database. -/
def Op.Writes (n : List Char) (op : Op) : Prop := op.database = some n ∧ ¬ op.onlyReads

/-- No change of the database `n` runs beside a `get_db` of it. -/
def Quiet (evs : List Ev) (n : List Char) : Prop :=
  ∀ w op g, .call w op ∈ evs → op.Writes n → .call g (.getDb n) ∈ evs → Precedes evs w g ∨ Precedes evs g w

end Souris
