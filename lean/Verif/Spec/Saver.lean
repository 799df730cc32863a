import Verif.Model.Saver
import Verif.Spec.Concurrent
import Verif.Spec.Disk

/-! # Specification vocabulary for the saver beside the requests -/

namespace Souris

namespace STrace

/-- What happened, in order. -/
def events (tr : STrace) : List SEv := tr.map Prod.fst

/-- The states on the way, the first one included. -/
def states (s : Sys) (tr : STrace) : List Sys := s :: tr.map Prod.snd

/-- The part of a trace that the requests see. -/
def requests (tr : STrace) : Trace :=
  tr.filterMap fun x => match x.1 with
    | .req e => some (e, x.2.conf)
    | _ => none

/-- The names of the files that were written. -/
def written (tr : STrace) : List (List Char) :=
  tr.filterMap fun x => match x.1 with
    | .write n _ => some n
    | _ => none

end STrace

/-- A file is about to be deleted: by a `rm_db` that has removed the database already. -/
def Sys.deleting (s : Sys) (n : List Char) : Prop :=
  n ∈ s.late ∨ ∃ t io, s.conf.tasks t = some (.removeDb n io, .unlinking)

end Souris
