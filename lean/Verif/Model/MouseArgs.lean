import Verif.Model.Mouse

/-!
# The command line of `mouse` (crates/mouse/src/main.rs L25-60)

`Arguments::parse` as clap 4.5.20 generates it from the two derives, for arguments that are UTF-8. Clap is not in
the repository; this is its loop over the arguments (`Parser::get_matches_with`) as known, with what it does for
commands without options that take values, lists, aliases or defaults. Texts of help and of error messages are left out.
-/

namespace Souris

namespace Args

/-- How clap ends the program: with the help or the version (exit code 0), or with a message (exit code 2). -/
inductive Stop
  | help | version | usage
deriving DecidableEq, Repr

/-- main.rs L33-53: the subcommands. -/
inductive Sub
  | createNew | addEntry | viewAll | debugViewAll | removeEntry | updateEntry | exportToJson | importFromJson | removeDatabase
deriving DecidableEq, Repr

/-- main.rs L33-53: what the derive calls them. -/
def Sub.name : Sub → List Char
  | createNew => "create-new".toList
  | addEntry => "add-entry".toList
  | viewAll => "view-all".toList
  | debugViewAll => "debug-view-all".toList
  | removeEntry => "remove-entry".toList
  | updateEntry => "update-entry".toList
  | exportToJson => "export-to-json".toList
  | importFromJson => "import-from-json".toList
  | removeDatabase => "remove-database".toList

/-- main.rs L33-53: the subcommands of a build, L39 for one with debug assertions. -/
def subs (debug : Bool) : List Sub :=
  [.createNew, .addEntry, .viewAll] ++ (if debug then [.debugViewAll] else []) ++
    [.removeEntry, .updateEntry, .exportToJson, .importFromJson, .removeDatabase]

/-- `Command::find_subcommand`. -/
def findSub (debug : Bool) (a : List Char) : Option Sub := (subs debug).find? fun c => c.name = a

/-- main.rs L35-37, L43-50: is there a positional argument? -/
def Sub.takesValue : Sub → Bool
  | createNew | exportToJson | importFromJson => true
  | _ => false

/-- main.rs L44, L49: is it a `PathBuf`, which clap does not let be empty? -/
def Sub.takesFile : Sub → Bool
  | exportToJson | importFromJson => true
  | _ => false

/-- main.rs L45-46: is there the flag `add_souris_types`? -/
def Sub.takesTypes : Sub → Bool
  | exportToJson => true
  | _ => false

/-- `Parser::parse_short_arg`: letters behind one dash. `types`: is `-a` known; `version`: is `-V` known; the last
argument: has the flag been set? Setting it twice is an error. -/
def shorts (types version : Bool) : List Char → Bool → Except Stop Bool
  | [], seen => .ok seen
  | c :: cs, seen =>
    if c = 'h' then .error .help
    else if c = 'V' ∧ version = true then .error .version
    else if c = 'a' ∧ types = true ∧ seen = false then shorts types version cs true
    else .error .usage

/-- `Parser::parse_long_arg`: what is behind two dashes. No flag takes a value. -/
def long (types version : Bool) (a : List Char) (seen : Bool) : Except Stop Bool :=
  if a = "help".toList then .error .help
  else if a = "version".toList ∧ version = true then .error .version
  else if a = "add-souris-types".toList ∧ types = true ∧ seen = false then .ok true
  else .error .usage

/-- What has been found. -/
structure Seen where
  value : Option (List Char) := none
  types : Bool := false

/-- `Parser::get_matches_with` for the arguments of a subcommand. The second argument: has there been `--`? -/
def leaf (c : Sub) : Bool → Seen → List (List Char) → Except Stop Seen
  | _, s, [] => .ok s
  | true, s, a :: as =>
    if c.takesValue = true ∧ s.value = none ∧ ¬ (c.takesFile = true ∧ a = []) then leaf c true { s with value := some a } as
    else .error .usage
  | false, s, ['-', '-'] :: as => leaf c true s as
  | false, s, ('-' :: '-' :: a) :: as =>
    match long c.takesTypes false a s.types with
    | .ok t => leaf c false { s with types := t } as
    | .error e => .error e
  | false, s, ('-' :: x :: a) :: as =>
    match shorts c.takesTypes false (x :: a) s.types with
    | .ok t => leaf c false { s with types := t } as
    | .error e => .error e
  | false, s, a :: as =>
    if c.takesValue = true ∧ s.value = none ∧ ¬ (c.takesFile = true ∧ a = []) then leaf c false { s with value := some a } as
    else .error .usage

/-- `Validator::validate` and `FromArgMatches` for a subcommand: its argument is required. -/
def toCommand (c : Sub) (s : Seen) : Except Stop Command :=
  match c, s.value with
  | .createNew, some n => .ok (.createNew n)
  | .exportToJson, some p => .ok (.exportToJson p s.types)
  | .importFromJson, some p => .ok (.importFromJson p)
  | .createNew, none | .exportToJson, none | .importFromJson, none => .error .usage
  | .addEntry, _ => .ok .addEntry
  | .viewAll, _ => .ok .viewAll
  | .debugViewAll, _ => .ok .debugViewAll
  | .removeEntry, _ => .ok .removeEntry
  | .updateEntry, _ => .ok .updateEntry
  | .removeDatabase, _ => .ok .removeDatabase

/-- `Parser::parse_help_subcommand`: `help`, alone or with the name of a subcommand. -/
def helpOf (debug : Bool) : List (List Char) → Stop
  | [] => .help
  | [a] => if a = "help".toList ∨ (findSub debug a).isSome then .help else .usage
  | _ => .usage

/-- `Parser::get_matches_with` for the command line behind the name of the program; the first argument of the loop is the
host, main.rs L28. A subcommand ends it. Behind `--` there is no subcommand any more, and one is required. -/
def top (debug : Bool) : Option (List Char) → List (List Char) → Except Stop (List Char × Command)
  | _, [] => .error .usage
  | host, a :: as =>
    if a = "help".toList then .error (helpOf debug as)
    else match findSub debug a with
      | some c =>
        match leaf c false {} as with
        | .error e => .error e
        | .ok s =>
          match toCommand c s, host with
          | .error e, _ => .error e
          | .ok _, none => .error .usage
          | .ok command, some h => .ok (h, command)
      | none =>
        match a with
        | ['-', '-'] => .error .usage
        | '-' :: '-' :: l =>
          match long false true l false with
          | .ok _ => top debug host as
          | .error e => .error e
        | '-' :: x :: l =>
          match shorts false true (x :: l) false with
          | .ok _ => top debug host as
          | .error e => .error e
        | a => if host = none then top debug (some a) as else .error .usage

/-- `Arguments::parse`, main.rs L56. -/
def parse (debug : Bool) (args : List (List Char)) : Except Stop (List Char × Command) := top debug none args

end Args

end Souris
