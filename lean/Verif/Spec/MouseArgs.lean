import Verif.Model.Mouse

/-! # Which command lines `mouse` has -/

namespace Souris

/-- An argument that cannot be taken for an option. -/
def PlainArg (a : List Char) : Prop := a = ['-'] ∨ a.head? ≠ some '-'

/-- The words that stand for a command in a build. -/
def commandWords (debug : Bool) : List (List Char) :=
  (["help", "create-new", "add-entry", "view-all", "remove-entry", "update-entry", "export-to-json", "import-from-json",
    "remove-database"] ++ if debug then ["debug-view-all"] else []).map String.toList

/-- Arguments that are nothing: none, or the end of the options. -/
inductive NoArgs : List (List Char) → Prop
  | none : NoArgs []
  | ended : NoArgs ["--".toList]

/-- Arguments that are one value: behind the end of the options it may be anything. -/
inductive OneArg (v : List Char) : List (List Char) → Prop
  | plain (h : PlainArg v) : OneArg v [v]
  | ended (h : PlainArg v) : OneArg v [v, "--".toList]
  | behind : OneArg v ["--".toList, v]

/-- Arguments that are one value and the flag for types. -/
inductive FlagArg (v : List Char) : List (List Char) → Prop
  | before {f : List Char} (h : PlainArg v) (hf : f ∈ ["-a".toList, "--add-souris-types".toList]) : FlagArg v [f, v]
  | after {f : List Char} (h : PlainArg v) (hf : f ∈ ["-a".toList, "--add-souris-types".toList]) : FlagArg v [v, f]
  | beforeEnded {f : List Char} (h : PlainArg v) (hf : f ∈ ["-a".toList, "--add-souris-types".toList]) :
      FlagArg v [f, v, "--".toList]
  | afterEnded {f : List Char} (h : PlainArg v) (hf : f ∈ ["-a".toList, "--add-souris-types".toList]) :
      FlagArg v [v, f, "--".toList]
  | behind {f : List Char} (hf : f ∈ ["-a".toList, "--add-souris-types".toList]) : FlagArg v [f, "--".toList, v]

/-- A command with its arguments. Files have names. -/
inductive CommandArgs (debug : Bool) : List (List Char) → Command → Prop
  | createNew {n : List Char} {as : List (List Char)} (h : OneArg n as) : CommandArgs debug ("create-new".toList :: as) (.createNew n)
  | addEntry {as : List (List Char)} (h : NoArgs as) : CommandArgs debug ("add-entry".toList :: as) .addEntry
  | viewAll {as : List (List Char)} (h : NoArgs as) : CommandArgs debug ("view-all".toList :: as) .viewAll
  | debugViewAll {as : List (List Char)} (h : NoArgs as) (hd : debug = true) :
      CommandArgs debug ("debug-view-all".toList :: as) .debugViewAll
  | removeEntry {as : List (List Char)} (h : NoArgs as) : CommandArgs debug ("remove-entry".toList :: as) .removeEntry
  | updateEntry {as : List (List Char)} (h : NoArgs as) : CommandArgs debug ("update-entry".toList :: as) .updateEntry
  | export {p : List Char} {as : List (List Char)} (h : OneArg p as) (hp : p ≠ []) :
      CommandArgs debug ("export-to-json".toList :: as) (.exportToJson p false)
  | exportTypes {p : List Char} {as : List (List Char)} (h : FlagArg p as) (hp : p ≠ []) :
      CommandArgs debug ("export-to-json".toList :: as) (.exportToJson p true)
  | importFrom {p : List Char} {as : List (List Char)} (h : OneArg p as) (hp : p ≠ []) :
      CommandArgs debug ("import-from-json".toList :: as) (.importFromJson p)
  | removeDatabase {as : List (List Char)} (h : NoArgs as) : CommandArgs debug ("remove-database".toList :: as) .removeDatabase

/-- The command line: the host, and a command with its arguments. -/
structure CommandLine (debug : Bool) (args : List (List Char)) (host : List Char) (c : Command) : Prop where
  plain : PlainArg host
  word : host ∉ commandWords debug
  parts : ∃ as, args = host :: as ∧ CommandArgs debug as c

end Souris
