import Verif.Model.Disk

/-!
# Where the daemon keeps its files (crates/sourisd/src/v1_routes/state.rs L20-22, L304-333; main.rs L92-151)

What the process finds around it when it is started is data (`Surroundings`). `dirs::data_dir` (dirs 5.0.1 on Linux) and
`std::fs::create_dir_all` are external code, modelled from their documentation and source. Simplified: of the paths in the
environment only `BASE_LOCATION` may be other than Unicode; the working directory exists; the path of the base directory is
resolved once, at the start, and with `..` as text unless directories are created along it.
-/

namespace Souris

/-- What `std::env::var` finds: nothing, a text, or bytes that are not Unicode. -/
inductive EnvVar
  | unset
  | text (s : List Char)
  | garbled
deriving DecidableEq

/-- What the process finds around it. -/
structure Surroundings where
  /-- the variable `BASE_LOCATION` -/
  baseLocation : EnvVar
  /-- `geteuid() == 0` -/
  superuser : Bool
  /-- the variable `XDG_DATA_HOME` -/
  xdgDataHome : Option (List Char)
  /-- the variable `HOME` -/
  home : Option (List Char)
  /-- the home directory in the user database -/
  passwd : Option (List Char)
  /-- the working directory -/
  cwd : Path
  /-- nobody listens on port 7687 -/
  portFree : Bool

/-- `Path::join`. -/
def joinPath (a b : List Char) : List Char :=
  if b.head? = some '/' ∨ a = [] then b
  else if a.getLast? = some '/' then a ++ b
  else a ++ '/' :: b

/-- dirs-sys, `home_dir`. -/
def Surroundings.homeDir (s : Surroundings) : Option (List Char) :=
  match s.home with
  | some h => if h = [] then s.passwd else some h
  | none => s.passwd

/-- dirs `lin.rs`, `data_dir`. -/
def Surroundings.dataDir (s : Surroundings) : Option (List Char) :=
  let fallback := s.homeDir.map (joinPath · ['.', 'l', 'o', 'c', 'a', 'l', '/', 's', 'h', 'a', 'r', 'e'])
  match s.xdgDataHome with
  | some x => if x.head? = some '/' then some x else fallback
  | none => fallback

/-- L308-315: without `BASE_LOCATION`. -/
def Surroundings.standardLocation (s : Surroundings) : Option (List Char) :=
  if s.superuser then some ['/', 'e', 't', 'c', '/', 's', 'o', 'u', 'r', 'i', 's', '/']
  else s.dataDir.map (joinPath · ['s', 'o', 'u', 'r', 'i', 's', '/'])

/-- Where a path begins. -/
def pathBegins (cwd : Path) (t : List Char) : Path := if t.head? = some '/' then [] else cwd

/-- Resolving a path as text. -/
def lexical : Path → List (List Char) → Path
  | cur, [] => cur
  | cur, c :: cs =>
    if c = [] ∨ c = ['.'] then lexical cur cs
    else if c = ['.', '.'] then lexical cur.dropLast cs
    else lexical (cur ++ [c]) cs

/-- `std::fs::create_dir_all`: the directories along a path are created where they are missing. -/
def createDirs : FS → Path → List (List Char) → FS × Option Path
  | fs, cur, [] => (fs, some cur)
  | fs, cur, c :: cs =>
    if c = [] ∨ c = ['.'] then createDirs fs cur cs
    else if c = ['.', '.'] then createDirs fs cur.dropLast cs
    else
      match fs (cur ++ [c]) with
      | some .dir => createDirs fs (cur ++ [c]) cs
      | some (.file _) => (fs, none)
      | none => createDirs (fs.set (cur ++ [c]) (some .dir)) (cur ++ [c]) cs

/-- Why the daemon does not begin to serve. -/
inductive LaunchError
  /-- L306: the directory cannot be created -/
  | directory
  /-- L312 -/
  | noDataDirectory
  /-- L317 -/
  | start (e : StartError)
  /-- main.rs L144 -/
  | port

/-- L317-333 and main.rs L96, L144: the databases are read, then the port is taken. -/
def serveFrom (de : List UInt8 → Out StoreSerError Store) (s : Surroundings) (fs : FS) (base : Path) :
    Out LaunchError (Path × Dbs) :=
  match startWith de fs base with
  | .ok dbs => if s.portFree then .ok (base, dbs) else .err .port
  | .err e => .err (.start e)
  | .panic p => .panic p

/-- `main` up to the first request: the disk afterwards, and the base directory and the databases with which the daemon
begins. The deserialiser is a parameter, as in `startWith`. -/
def launch (de : List UInt8 → Out StoreSerError Store) (s : Surroundings) (fs : FS) : FS × Out LaunchError (Path × Dbs) :=
  match s.baseLocation with
  | .text t =>
    match createDirs fs (pathBegins s.cwd t) (components t) with
    | (fs, none) => (fs, .err .directory)
    | (fs, some base) => (fs, serveFrom de s fs base)
  | _ =>
    match s.standardLocation with
    | none => (fs, .err .noDataDirectory)
    | some t => (fs, serveFrom de s fs (lexical (pathBegins s.cwd t) (components t)))

end Souris
