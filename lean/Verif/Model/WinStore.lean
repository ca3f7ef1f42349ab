import Verif.Model.Basic
/-!
# Storing loose objects on Windows and elsewhere: `gitdb/db/loose.py` 177-251, one system call at a time

`Model/Loose.lean` describes `LooseObjectDB.store` on POSIX systems.  Here `store` of a new object is described for both platforms (`win`), as
a program that makes one system call after another.  On Windows `os.rename` refuses to replace a file, a file with an open descriptor can be neither removed
nor renamed, and `remove` tries again up to ten times (`_retry`, `gitdb/util.py` 68-83).

Simplifications: new objects only (`istream.binsha is None`); what the writer passes to `write(2)` is given (`parts`, and `rest` when it is closed), and a write
that does not write everything counts as a failed call that writes nothing; a failed `close` leaves the descriptor open; errors of the
system are `OSError`, apart from those of `chmod`; `mkstemp` chooses a name nobody else uses, so each store has a temporary file of its own;
the time between attempts and the mode of the file are left out.
-/
set_option autoImplicit false

namespace GitDB

/-- A call of `store`: the object's name, what is written before and on closing, and the exception the source raises at last, if any. -/
structure StoreJob where
  name : Bytes
  parts : List Bytes
  rest : Bytes
  src : Option Err
  deriving DecidableEq, Repr

/-- System calls of one store on its temporary file and the object file. -/
inductive StoreCall where
  /-- `mkstemp`, `gitdb/db/loose.py` 183 -/
  | mkTemp
  /-- `write(2)`, `gitdb/stream.py` 664 and 673 -/
  | write (data : Bytes)
  /-- `close(2)`, `gitdb/stream.py` 675 -/
  | close
  /-- `os.remove(tmp_path)`, `gitdb/db/loose.py` 209 and 227 -/
  | removeTemp
  /-- `os.makedirs(obj_dir, exist_ok=True)`, 223 -/
  | makedirs
  /-- `isfile(obj_path)`, 226 -/
  | isFile (name : Bytes)
  /-- `rename(tmp_path, obj_path)`, 229 -/
  | rename (name : Bytes)
  /-- `chmod(obj_path, mode)`, 240 -/
  | chmod (name : Bytes)
  deriving DecidableEq, Repr

/-- Answers: success (or `True`), failure (or `False`; for `chmod`: `PermissionError`), or that there is no such file (`chmod` only). -/
inductive StoreAns where
  | yes
  | no
  | missing
  deriving DecidableEq, Repr

/-- A program: it has ended, or makes a call and goes on with the answer. -/
inductive StoreAct where
  | ret (r : Res Unit)
  | sys (c : StoreCall) (k : StoreAns → StoreAct)

/-- `remove(tmp_path)` with the loop of `_retry`, `gitdb/util.py` 68-83: up to `n` attempts whose exceptions are dropped, and a last one. -/
def storeRemove (next : Bool → StoreAct) : Nat → StoreAct
  | 0 => .sys .removeTemp fun a => next (a = .yes)
  | n + 1 => .sys .removeTemp fun a => if a = .yes then next true else storeRemove next n

/-- How often a failed removal is tried again. -/
def removeRetries (win : Bool) : Nat := if win then 10 else 0

/-- `gitdb/db/loose.py` 236-246: attempts to set the mode, going on only after a `PermissionError`. -/
def storeChmod (name : Bytes) : Nat → StoreAct
  | 0 => .ret (.error .permissionError)
  | n + 1 => .sys (.chmod name) fun a =>
    match a with
    | .yes => .ret (.ok ())
    | .no => storeChmod name n
    | .missing => .ret (.error .fileNotFound)

/-- `gitdb/db/loose.py` 220-246. -/
def storePublish (win : Bool) (name : Bytes) : StoreAct :=
  .sys .makedirs fun a =>
    if a ≠ .yes then .ret (.error .osError)
    else .sys (.isFile name) fun a =>
      if a = .yes then storeRemove (fun b => if b then storeChmod name 14 else .ret (.error .osError)) (removeRetries win)
      else .sys (.rename name) fun a => if a = .yes then storeChmod name 14 else .ret (.error .osError)

/-- `except: remove(tmp_path); raise`, `gitdb/db/loose.py` 207-210. -/
def storeCleanup (win : Bool) (e : Err) : StoreAct := storeRemove (fun b => .ret (.error (if b then e else .osError))) (removeRetries win)

/-- `writer.close()` (203-206; `gitdb/stream.py` 671-675) and what follows; `r` is the outcome of writing. -/
def storeClose (win : Bool) (j : StoreJob) (r : Res Unit) : StoreAct :=
  .sys (.write j.rest) fun a =>
    if a ≠ .yes then storeCleanup win .osError
    else .sys .close fun a =>
      if a ≠ .yes then storeCleanup win .osError
      else match r with
        | .ok () => storePublish win j.name
        | .error e => storeCleanup win e

/-- The writes of `write_object` (200), up to an exception. -/
def storeWrites (win : Bool) (j : StoreJob) : List Bytes → StoreAct
  | [] => storeClose win j (match j.src with | none => .ok () | some e => .error e)
  | d :: ds => .sys (.write d) fun a => if a ≠ .yes then storeClose win j (.error .osError) else storeWrites win j ds

/-- `LooseObjectDB.store` of a new object, `gitdb/db/loose.py` 177-251. -/
def storeProg (win : Bool) (j : StoreJob) : StoreAct :=
  .sys .mkTemp fun a => if a ≠ .yes then .ret (.error .osError) else storeWrites win j j.parts

/-- A temporary file: content, and whether a descriptor is open. -/
abbrev TempFile := Option (Bytes × Bool)

/-- The object files by name, and the temporary file of each store. -/
structure StoreDisk where
  objs : Bytes → Option Bytes
  tmps : Nat → TempFile

/-- The disk after the temporary file of store `i` has become `x`. -/
def StoreDisk.setTmp (w : StoreDisk) (i : Nat) (x : TempFile) : StoreDisk := ⟨w.objs, fun j => if j = i then x else w.tmps j⟩

/-- What a call of store `i` does; `ok = false` lets it fail for reasons outside of the model. -/
def StoreCall.run (win ok : Bool) (w : StoreDisk) (i : Nat) : StoreCall → StoreDisk × StoreAns
  | .mkTemp => if ok then (w.setTmp i (some ([], true)), .yes) else (w, .no)
  | .write d =>
    match w.tmps i with
    | some (b, true) => if ok then (w.setTmp i (some (b ++ d, true)), .yes) else (w, .no)
    | _ => (w, .no)
  | .close =>
    match w.tmps i with
    | some (b, true) => if ok then (w.setTmp i (some (b, false)), .yes) else (w, .no)
    | _ => (w, .no)
  | .removeTemp =>
    match w.tmps i with
    | some (_, o) => if ok && !(win && o) then (w.setTmp i none, .yes) else (w, .no)
    | none => (w, .no)
  | .makedirs => (w, if ok then .yes else .no)
  | .isFile n => (w, if ok && (w.objs n).isSome then .yes else .no)
  | .rename n =>
    match w.tmps i with
    | some (b, o) =>
      if ok && !(win && (o || (w.objs n).isSome)) then
        (⟨fun m => if m = n then some b else w.objs m, fun j => if j = i then none else w.tmps j⟩, .yes)
      else (w, .no)
    | none => (w, .no)
  | .chmod n => (w, if (w.objs n).isNone then .missing else if ok then .yes else .no)

/-- The disk and the stores in progress. -/
structure StoreSys where
  disk : StoreDisk
  procs : List StoreAct

/-- The next call of store `i`. -/
def StoreSys.step (win : Bool) (s : StoreSys) (e : Nat × Bool) : StoreSys :=
  match s.procs[e.1]? with
  | some (.sys c k) => let r := c.run win e.2 s.disk e.1; ⟨r.1, s.procs.set e.1 (k r.2)⟩
  | _ => s

/-- Calls in the order of a schedule, with what lets them fail; a store that does not occur any more has crashed. -/
def StoreSys.run (win : Bool) (s : StoreSys) (sched : List (Nat × Bool)) : StoreSys := sched.foldl (StoreSys.step win) s

/-- Stores that have not begun yet, on a disk with the objects `objs`. -/
def storeSystem (win : Bool) (objs : Bytes → Option Bytes) (jobs : List StoreJob) : StoreSys :=
  ⟨⟨objs, fun _ => none⟩, jobs.map (storeProg win)⟩

end GitDB
