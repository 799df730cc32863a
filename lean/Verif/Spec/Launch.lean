import Verif.Spec.DiskNames
import Verif.Model.Launch

/-! # Where the settings say that the files are -/

namespace Souris

/-- The directory that a path means. -/
def Names (cwd : Path) (t : List Char) (p : Path) : Prop := ∃ cs, Pieces t cs ∧ p = (Path.origin cwd t).follow cs

/-- The home directory: what `HOME` says, unless it is empty or missing; else what the user database says. -/
inductive HomeIs (s : Surroundings) : List Char → Prop
  | fromHome {h : List Char} (e : s.home = some h) (hne : h ≠ []) : HomeIs s h
  | fromDatabase {h : List Char} (e : s.home = none ∨ s.home = some []) (hp : s.passwd = some h) : HomeIs s h

/-- The directory for data (XDG base directory specification): `XDG_DATA_HOME` if it is an absolute path, else
`.local/share` in the home directory. -/
inductive DataIs (s : Surroundings) : Path → Prop
  | xdg {x : List Char} {p : Path} (e : s.xdgDataHome = some x) (ha : x.head? = some '/') (hp : Names s.cwd x p) : DataIs s p
  | home {h : List Char} {p : Path} (e : ∀ x, s.xdgDataHome = some x → x.head? ≠ some '/') (hh : HomeIs s h)
      (hp : Names s.cwd h p) : DataIs s (p ++ [".local".toList, "share".toList])

/-- The directory of the daemon: `BASE_LOCATION`, or `/etc/souris` for the superuser, or `souris` in the directory for
data. -/
inductive DirectoryIs (s : Surroundings) : Path → Prop
  | named {t : List Char} {p : Path} (e : s.baseLocation = .text t) (hp : Names s.cwd t p) : DirectoryIs s p
  | superuser (e : s.baseLocation = .unset) (hs : s.superuser = true) : DirectoryIs s ["etc".toList, "souris".toList]
  | user {p : Path} (e : s.baseLocation = .unset) (hs : s.superuser = false) (hp : DataIs s p) :
      DirectoryIs s (p ++ ["souris".toList])

/-- All paths in the settings are from the root. -/
def Surroundings.Absolute (s : Surroundings) : Prop :=
  (∀ t, s.baseLocation = .text t → t.head? = some '/') ∧ (∀ h, s.home = some h → h = [] ∨ h.head? = some '/') ∧
  (∀ h, s.passwd = some h → h.head? = some '/')

/-- A disk: the root is a directory, and whatever exists is in a directory. -/
def FS.Tree (fs : FS) : Prop := fs [] = some .dir ∧ ∀ q c, fs (q ++ [c]) ≠ none → fs q = some .dir

/-- The directories that a path leads through. -/
def Along (cwd : Path) (t : List Char) (p : Path) : Prop :=
  ∃ cs cs', Pieces t (cs ++ cs') ∧ p = (Path.origin cwd t).follow cs

end Souris
