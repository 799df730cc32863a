import Verif.Model.Daemon

/-!
# The daemon's files (crates/sourisd/src/v1_routes/state.rs L127-148, L241-381; main.rs L56-151)

A file system is a map from absolute paths (lists of components) to directories and files. Paths are
resolved component by component, as the operating system does; symbolic links are not modelled. Opening a
file for writing truncates it, then bytes are appended, so a write that is interrupted leaves a prefix.
Simplified: bytes handed to the operating system are taken to be on the disk (`File` is dropped without
`sync_all`), and permissions, name lengths and full disks appear only as faults (`Fault`) that may happen
at any write.

The code writes with `tokio::fs::File`, whose `write_all` hands pieces of at most 2 MiB to a background
thread and returns without waiting for the last one; as the `File` is then dropped without `flush`, a failure
in the last piece is never reported (tokio 1.40, `fs/file.rs`, `poll_write`). That is modelled. Simplified:
the last piece is on the disk before the next step of the code (runtime shutdown waits for it too).
-/

namespace Souris

/-- A path from the root. -/
abbrev Path : Type := List (List Char)

/-- What can be at a path. -/
inductive FsNode
  | dir
  | file (bytes : List UInt8)
deriving DecidableEq

/-- The file system. The root is always a directory. -/
abbrev FS : Type := Path → Option FsNode

/-- The kinds of I/O errors that the code tells apart (`ErrorKind::NotFound` or not). -/
inductive IoErr
  | notFound
  | other
deriving DecidableEq, Repr

/-! ## Names and paths -/

/-- The components of a path: what is between the slashes. -/
def components : List Char → List (List Char)
  | [] => [[]]
  | c :: s =>
    if c = '/' then [] :: components s
    else
      match components s with
      | [] => [[c]]
      | x :: xs => (c :: x) :: xs

/-- `".sdb"` -/
def kSdb : List Char := ['.', 's', 'd', 'b']

/-- Following directories. An empty component and `.` mean the same directory, `..` its parent. -/
def walk (fs : FS) : Path → List (List Char) → Except IoErr Path
  | cur, [] => .ok cur
  | cur, c :: cs =>
    if c = [] ∨ c = ['.'] then walk fs cur cs
    else if c = ['.', '.'] then walk fs cur.dropLast cs
    else
      match fs (cur ++ [c]) with
      | some .dir => walk fs (cur ++ [c]) cs
      | some (.file _) => .error .other
      | none => .error .notFound

/-- Resolving `base.join(format!("{name}.sdb"))` (L139, L290, L317, L339, L352): an absolute second path
replaces the first, and a NUL byte is refused (`std::ffi::CString`). The last component is never empty, `.`
or `..`, for it ends with `.sdb`. -/
def target (fs : FS) (base : Path) (name : List Char) : Except IoErr Path :=
  if Char.ofNat 0 ∈ name then .error .other
  else
    let cs := components (name ++ kSdb)
    let last := (cs.getLast?).getD []
    if name.head? = some '/' then
      match walk fs [] cs.dropLast with
      | .ok p => .ok (p ++ [last])
      | .error e => .error e
    else
      match fs base with
      | some .dir =>
        match walk fs base cs.dropLast with
        | .ok p => .ok (p ++ [last])
        | .error e => .error e
      | some (.file _) => .error .other
      | none => .error .notFound

/-! ## File operations -/

/-- Putting something at a path. -/
def FS.set (fs : FS) (p : Path) (n : Option FsNode) : FS := fun q => if q = p then n else fs q

/-- `File::create`: the file is there and empty. -/
def openCreate (fs : FS) (base : Path) (name : List Char) : Except IoErr Path :=
  match target fs base name with
  | .error e => .error e
  | .ok p =>
    match fs p with
    | some .dir => .error .other
    | _ => .ok p

/-- `create_dir_all`. -/
def createDirAll (fs : FS) (base : Path) : Option FS :=
  if (List.range (base.length + 1)).any (fun i => match fs (base.take i) with | some (.file _) => true | _ => false) then none
  else some fun p => if base.take p.length = p then some .dir else fs p

/-- What may go wrong with a write: the file cannot be opened, or only so many bytes are written. -/
inductive Fault
  | none
  | open
  | after (k : Nat)
deriving DecidableEq, Repr

/-- The size of the pieces in which `tokio::fs::File` writes (`DEFAULT_MAX_BUF_SIZE`). -/
def maxBuf : Nat := 2097152

/-- Whether a fault in a write of so many bytes becomes an `Err`: the failure of a piece is reported when the
next piece is to be written, if there is one. -/
def Fault.reported (f : Fault) (len : Nat) : Bool :=
  match f with
  | .none => false
  | .open => true
  | .after k => decide ((k / maxBuf + 1) * maxBuf < len)

/-- What arrives in the file. -/
def Fault.written (f : Fault) (bytes : List UInt8) : List UInt8 :=
  match f with
  | .after k => bytes.take k
  | _ => bytes

/-- L363-378: the file has been created (and truncated) at `p`; the write. -/
def writeBytes (f : Fault) (fs : FS) (p : Path) (bytes : List UInt8) : FS × Bool :=
  (fs.set p (some (.file (f.written bytes))), !f.reported bytes.length)

/-- L358-381: `write_to_file`. -/
def writeTo (f : Fault) (fs : FS) (base : Path) (name : List Char) (bytes : List UInt8) : FS × Bool :=
  if f = .open then (fs, false)
  else
    match openCreate fs base name with
    | .ok p => writeBytes f fs p bytes
    | .error .other => (fs, false)
    | .error .notFound =>
      match createDirAll fs base with
      | .none => (fs, false)
      | some fs =>
        match openCreate fs base name with
        | .ok p => writeBytes f fs p bytes
        | .error _ => (fs, false)

/-- `tokio::fs::remove_file` (L141). -/
def unlink (fs : FS) (base : Path) (name : List Char) : IoResult × FS :=
  match target fs base name with
  | .error .notFound => (.notFound, fs)
  | .error .other => (.failed, fs)
  | .ok p =>
    match fs p with
    | none => (.notFound, fs)
    | some .dir => (.failed, fs)
    | some (.file _) => (.done, fs.set p none)

/-! ## Saving -/

/-- `db.ser()`; it never fails (`Store.ser_total`). -/
def serBytes (env : Env) (s : Store) : List UInt8 :=
  match Store.ser env s with
  | .ok b => b
  | .err _ | .panic _ => []

/-- `"existing_dbs"` (L28) -/
def kExisting : List Char := ['e', 'x', 'i', 's', 't', 'i', 'n', 'g', '_', 'd', 'b', 's']

/-- L349-350 -/
def metaStore (names : List (List Char)) : Store := [(kExisting, .array (names.map .string))]

/-- L336-347: every database is written, with the lock held; the names of those that could be. The faults
are those of the writes, in order. -/
def saveDbs (env : Env) (base : Path) : List Fault → Dbs → FS → FS × List (List Char)
  | _, [], fs => (fs, [])
  | faults, (n, s) :: rest, fs =>
    let x := writeTo (faults.head?.getD .none) fs base n (serBytes env s)
    let y := saveDbs env base faults.tail rest x.1
    (y.1, if x.2 then n :: y.2 else y.2)

/-- L349-354: the list of databases is written, after the lock was released. -/
def saveMeta (env : Env) (base : Path) (f : Fault) (names : List (List Char)) (fs : FS) : FS × Bool :=
  writeTo f fs base kMeta (serBytes env (metaStore names))

/-- L335-355: `save`; whether it returned `Ok`. -/
def save (env : Env) (base : Path) (faults : List Fault) (metaFault : Fault) (dbs : Dbs) (fs : FS) : FS × Bool :=
  let x := saveDbs env base faults dbs fs
  saveMeta env base metaFault x.2 x.1

/-- What the disk may look like when the process stops during `save`: between two writes, or somewhere
inside one. -/
inductive CrashState (env : Env) (base : Path) (faults : List Fault) (dbs : Dbs) (fs : FS) : FS → Prop
  | between (d₁ d₂ : Dbs) (h : dbs = d₁ ++ d₂) : CrashState env base faults dbs fs (saveDbs env base faults d₁ fs).1
  | inside (d₁ d₂ : Dbs) (n : List Char) (s : Store) (k : Nat) (h : dbs = d₁ ++ (n, s) :: d₂) :
      CrashState env base faults dbs fs
        (writeTo (.after k) (saveDbs env base faults d₁ fs).1 base n (serBytes env s)).1
  | inMeta (k : Nat) : CrashState env base faults dbs fs
      (saveMeta env base (.after k) (saveDbs env base faults dbs fs).2 (saveDbs env base faults dbs fs).1).1

/-! ## Starting -/

/-- Why the daemon does not start. -/
inductive StartError
  | io (e : IoErr)
  | store (e : StoreSerError)

/-- L244-270: `get_store`. The deserialiser is a parameter; the code uses `Store::deser`. -/
def getStore (de : List UInt8 → Out StoreSerError Store) (fs : FS) (base : Path) (name : List Char) :
    Out StartError Store :=
  match target fs base name with
  | .error .notFound => .ok []
  | .error e => .err (.io e)
  | .ok p =>
    match fs p with
    | none => .ok []
    | some .dir => .err (.io .other)
    | some (.file b) => (de b).mapErr .store

/-- L284-299: the loop of `get_internal_stores`. -/
def loadAll (de : List UInt8 → Out StoreSerError Store) (fs : FS) (base : Path) : List Value → Dbs → Out StartError Dbs
  | [], dbs => .ok dbs
  | v :: vs, dbs =>
    match v with
    | .string n =>
      match getStore de fs base n with
      | .ok s => loadAll de fs base vs (AMap.insert n s dbs)
      | .err _ => loadAll de fs base vs dbs
      | .panic p => .panic p
    | _ => loadAll de fs base vs dbs

/-- L317-324: the databases that `SourisState::new` begins with. When the list is missing there are none. -/
def startWith (de : List UInt8 → Out StoreSerError Store) (fs : FS) (base : Path) : Out StartError Dbs :=
  match getStore de fs base kMeta with
  | .err e => .err e
  | .panic p => .panic p
  | .ok s =>
    match AMap.get kExisting s with
    | some (.array vs) => loadAll de fs base vs []
    | _ => .ok []

/-- `SourisState::new`; main.rs L96 panics when it fails. -/
def start (env : Env) (fs : FS) (base : Path) : Out StartError Dbs := startWith (Store.deser env) fs base

/-! ## The life of a daemon -/

/-- Where `main` is. -/
inductive Phase
  /-- before the signal -/
  | running
  /-- `stop_signal.send` (main.rs L81) happened -/
  | stopping
  /-- the final save (main.rs L119) has written the databases and released the lock; the list of the names
  to write -/
  | saved (names : List (List Char))
  /-- the saver is finished (main.rs L83): requests in progress are finished, no new ones -/
  | draining
  /-- the process has exited -/
  | exited

/-- The daemon and its disk. -/
structure Machine where
  dbs : Dbs
  fs : FS
  phase : Phase

/-- What happens. Requests are atomic here (`Model/Concurrent.lean` treats their interleaving); the answer
of the file system to `rm_db` is that of `unlink`. -/
inductive MEvent
  | op (o : Op) (r : Reply)
  | periodic (faults : List Fault) (mf : Fault)
  | signal
  | finalSave (faults : List Fault)
  | finalMeta (mf : Fault)
  | exit

/-- The file system after an operation: only a `rm_db` that found the database touches it. -/
def Op.onDisk (base : Path) (o : Op) (dbs : Dbs) (fs : FS) : FS :=
  match o with
  | .removeDb n _ => if (AMap.get n dbs).isSome then (unlink fs base n).2 else fs
  | _ => fs

/-- The answer of the file system is the one that the operation got. -/
def Op.ioAgrees (base : Path) (o : Op) (fs : FS) : Prop :=
  match o with
  | .removeDb n io => (unlink fs base n).1 = io
  | _ => True

/-- One step. main.rs L103-123 (saver), L57-86 and L147-150 (shutdown): `with_graceful_shutdown` stops
accepting connections only when `shutdown_signal` is finished, that is after the saver. -/
inductive MStep (env : Env) (base : Path) : Machine → MEvent → Machine → Prop
  | op {m : Machine} (o : Op) (hp : m.phase ≠ .exited) (hio : o.ioAgrees base m.fs) :
      MStep env base m (.op o (Daemon.exec env o ⟨m.dbs, []⟩).1)
        { m with dbs := (Daemon.exec env o ⟨m.dbs, []⟩).2.dbs, fs := o.onDisk base m.dbs m.fs }
  | periodic {m : Machine} (faults : List Fault) (mf : Fault) (hp : m.phase = .running) :
      MStep env base m (.periodic faults mf) { m with fs := (save env base faults mf m.dbs m.fs).1 }
  | signal {m : Machine} (hp : m.phase = .running) : MStep env base m .signal { m with phase := .stopping }
  | finalSave {m : Machine} (faults : List Fault) (hp : m.phase = .stopping) :
      MStep env base m (.finalSave faults)
        { m with fs := (saveDbs env base faults m.dbs m.fs).1, phase := .saved (saveDbs env base faults m.dbs m.fs).2 }
  | finalMeta {m : Machine} {names : List (List Char)} (mf : Fault) (hp : m.phase = .saved names) :
      MStep env base m (.finalMeta mf) { m with fs := (saveMeta env base mf names m.fs).1, phase := .draining }
  | exit {m : Machine} (hp : m.phase = .draining) : MStep env base m .exit { m with phase := .exited }

/-- Several steps. -/
inductive MRun (env : Env) (base : Path) : Machine → List MEvent → Machine → Prop
  | nil {m : Machine} : MRun env base m [] m
  | cons {m m' m'' : Machine} {e : MEvent} {es : List MEvent} (h : MStep env base m e m') (t : MRun env base m' es m'') :
      MRun env base m (e :: es) m''

end Souris
