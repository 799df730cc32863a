import Verif.Model.Mouse
import Verif.Spec.Daemon
import Verif.Spec.MouseEntry

/-! # Specification vocabulary for `mouse`: what a log may look like -/

namespace Souris

namespace Mouse

/-- None of the requests in the log changed what can be read from the daemon. -/
def Quiet (log : List Event) : Prop := ∀ before after, .talked before after ∈ log → after.view = before.view

/-- What the user must have answered before a command may change the databases from `before`; `done` is the log up
to there. -/
def Consent (done : List Event) (before : Daemon) : Command → Prop
  | .createNew name => before.view name = none ∨ .asked .clearExisting true ∈ done
  | .addEntry => .asked .confirmAddition true ∈ done
  | .removeEntry => .asked .confirmRemoval true ∈ done
  | .updateEntry => .asked .confirmUpdate true ∈ done
  | .viewAll | .debugViewAll | .exportToJson _ _ | .importFromJson _ | .removeDatabase => False

/-- The last thing the user did was to pick binary data; no file was named since. -/
def Stuck (T : Term) (s : List Answer) : Prop :=
  ∃ pre post, s = pre ++ .pick 2 :: post ∧
    ∀ a ∈ post, ∀ p, a = .line p → p = [] ∨ T.files p = .missing ∨ T.files p = .directory

/-- The answers `as` give a new database the name `n`, where `names` are taken: a name that is not reserved, and, if it
is taken, the consent to overwrite it; other names may have been tried before. -/
inductive ChosenNew (names : List (List Char)) : List Char → List Answer → Prop
  | fresh {n : List Char} {as : List Answer} (h : Typed Reads.text n as) (hr : n ≠ "meta".toList) (hn : n ∉ names) :
      ChosenNew names n as
  | overwrite {n : List Char} {as : List Answer} (h : Typed Reads.text n as) (hr : n ≠ "meta".toList) (hn : n ∈ names) :
      ChosenNew names n (as ++ [.confirm true])
  | reserved {n : List Char} {as bs : List Answer} (h : Typed Reads.text "meta".toList as) (hb : ChosenNew names n bs) :
      ChosenNew names n (as ++ bs)
  | kept {m n : List Char} {as bs : List Answer} (h : Typed Reads.text m as) (hr : m ≠ "meta".toList) (hm : m ∈ names)
      (hb : ChosenNew names n bs) : ChosenNew names n (as ++ .confirm false :: bs)

/-- The answer to "New Database?", where that is asked. -/
def notNew : Bool → List Answer
  | true => [.confirm false]
  | false => []

/-- The answers `as` choose the database `n` where `names` are offered, and new ones if `new`: a new one, the only one,
or the one that was picked. -/
inductive Chosen (names : List (List Char)) (new : Bool) : List Char → List Answer → Prop
  | new {n : List Char} {as : List Answer} (hn : new = true) (h : ChosenNew names n as) :
      Chosen names new n (.confirm true :: as)
  | only {n : List Char} (h : names = [n]) : Chosen names new n (notNew new)
  | pick {n : List Char} {i : Nat} (hl : 1 < names.length) (h : names[i]? = some n) :
      Chosen names new n (notNew new ++ [.pick i])

/-- The names are those of the databases that there were at some request of the log, each once. -/
def Listed (names : List (List Char)) (log : List Event) : Prop :=
  ∃ before after, .talked before after ∈ log ∧ names.Nodup ∧ ∀ n, n ∈ names ↔ before.view n ≠ none

end Mouse

end Souris
