import Verif.Model.Basic
/-!
# The file system below the root of a database

Paths are relative to the root, split into components.  A program run leaves a list of events: the
system calls which succeeded (a failed call changes nothing and produces no event).  What the calls do is
a definition; which calls fail, and how the events of several processes interleave, is arbitrary.

Simplifications: one file system, no links; only the permission bits set by the code; a descriptor is
identified with the path it was opened at (the modelled programs write to a file only while its path
exists); the root directory exists.
-/
set_option autoImplicit false

namespace GitDB

/-- A path, relative to the root of the database. -/
abbrev Path := List Bytes

/-- What a path can be. -/
inductive Node where
  | dir
  | file (data : Bytes) (mode : Nat)
  deriving DecidableEq, Repr

/-- The state of the directory tree. -/
abbrev Fs := Path → Option Node

/-- Change one path. -/
def Fs.set (fs : Fs) (p : Path) (n : Option Node) : Fs := fun q => if q = p then n else fs q

/-- Successful system calls. -/
inductive Ev where
  /-- `open(2)` with `O_CREAT | O_EXCL`, mode 0600: `tempfile.mkstemp`, `gitdb/db/loose.py` 183, or
  `os.open` of `LockedFD` -/
  | create (p : Path)
  /-- `write(2)` at the end of a file -/
  | append (p : Path) (d : Bytes)
  /-- `os.makedirs(p, exist_ok=True)` -/
  | mkdir (p : Path)
  /-- the answer of `os.path.isfile(p)` -/
  | isfile (p : Path) (b : Bool)
  | rename (a b : Path)
  | remove (p : Path)
  | chmod (p : Path) (m : Nat)
  deriving DecidableEq, Repr

/-- Effect of a system call; `none`: the call cannot succeed in this state.  `isfile` says `False` when
the file does not exist, but also when `stat(2)` fails for some other reason. -/
def Fs.step (fs : Fs) : Ev → Option Fs
  | .create p =>
    match fs p with
    | none => some (fs.set p (some (.file [] 0o600)))
    | some _ => none
  | .append p d =>
    match fs p with
    | some (.file c m) => some (fs.set p (some (.file (c ++ d) m)))
    | _ => none
  | .mkdir p =>
    match fs p with
    | none => some (fs.set p (some .dir))
    | some .dir => some fs
    | some (.file _ _) => none
  | .isfile p b =>
    match fs p, b with
    | some (.file _ _), true => some fs
    | _, false => some fs
    | _, true => none
  | .rename a b =>
    match fs a, fs b with
    | some (.file _ _), some .dir => none
    | some (.file c m), _ =>
      if b.length ≤ 1 ∨ fs b.dropLast = some .dir then
        some ((fs.set a none).set b (some (.file c m)))
      else none
    | _, _ => none
  | .remove p =>
    match fs p with
    | some (.file _ _) => some (fs.set p none)
    | _ => none
  | .chmod p m =>
    match fs p with
    | some (.file c _) => some (fs.set p (some (.file c m)))
    | _ => none

/-- A sequence of system calls without interference. -/
def Fs.run (fs : Fs) : List Ev → Option Fs
  | [] => some fs
  | e :: es =>
    match fs.step e with
    | some fs => fs.run es
    | none => none

/-- The concurrent system: for every process the system calls it is still going to make, and the state of
the file system. -/
structure Sys (ι : Type) where
  todo : ι → List Ev
  fs : Fs

/-- One process makes its next call. -/
inductive Sys.Step {ι : Type} [DecidableEq ι] : Sys ι → Sys ι → Prop
  | call (s : Sys ι) (i : ι) (e : Ev) (es : List Ev) (fs : Fs) (hi : s.todo i = e :: es)
      (hs : s.fs.step e = some fs) :
      Step s { todo := fun j => if j = i then es else s.todo j, fs := fs }

/-- Any number of steps.  Since every process may be slow, this covers crashes of any set of processes at
any moment. -/
inductive Sys.Reach {ι : Type} [DecidableEq ι] (s : Sys ι) : Sys ι → Prop
  | refl : Reach s s
  | step {t u : Sys ι} (h : Reach s t) (h' : Sys.Step t u) : Reach s u

end GitDB
