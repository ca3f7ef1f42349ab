import Verif.Model.WinStore
/-!
# Creating packs on Windows and elsewhere: `gitdb/pack.py` 1006-1029, one system call at a time

`Model/PackCreate.lean` describes `PackEntity.create` on POSIX systems.  Here it is described for both platforms, as a program that makes one system call after
another.  The program is the same on both; on Windows `os.rename` refuses to replace a file, and to rename one with an open descriptor.

Simplifications: what `write_pack` passes to `os.write` is given (first everything for the pack, then everything for the index); a write that does not write everything
counts as a failed call (what the code does with short writes is in `C33_short_write`); errors of the system are `OSError`; `mkstemp` chooses names nobody else
uses, so each call of `create` has two temporary files of its own.
-/
set_option autoImplicit false

namespace GitDB

/-- The two files of a pack. -/
inductive FileKind where
  | pack
  | idx
  deriving DecidableEq, Repr

/-- A call of `create`: the name (from the checksum of the pack), what is written into the two files, and the exception that `write_pack` raises after that, if any. -/
structure MakeJob where
  name : Bytes
  parts : FileKind → List Bytes
  src : Option Err

/-- System calls of one `create`. -/
inductive MakeCall where
  /-- `tempfile.mkstemp`, `gitdb/pack.py` 1014 and 1015 -/
  | mkTemp (k : FileKind)
  /-- `os.write`, 1016 and 1017 -/
  | write (k : FileKind) (data : Bytes)
  /-- `os.close`, 1020 and 1021 -/
  | close (k : FileKind)
  /-- `os.rename`, 1026 and 1027 -/
  | rename (k : FileKind) (name : Bytes)
  deriving DecidableEq, Repr

/-- A program: it has ended, or makes a call and goes on with its success. -/
inductive MakeAct where
  | ret (r : Res Unit)
  | sys (c : MakeCall) (next : Bool → MakeAct)

/-- A call whose failure is the end: nothing is cleaned up. -/
def MakeAct.need (c : MakeCall) (next : MakeAct) : MakeAct := .sys c fun b => if b then next else .ret (.error .osError)

/-- Writes to one of the files. -/
def makeWrites (k : FileKind) (next : MakeAct) : List Bytes → MakeAct
  | [] => next
  | d :: ds => .need (.write k d) (makeWrites k next ds)

/-- `gitdb/pack.py` 1020-1029. -/
def makePublish (name : Bytes) : MakeAct :=
  .need (.close .pack) <| .need (.close .idx) <| .need (.rename .pack name) <| .need (.rename .idx name) <| .ret (.ok ())

/-- `PackEntity.create`, `gitdb/pack.py` 1006-1029. -/
def makeProg (j : MakeJob) : MakeAct :=
  .need (.mkTemp .pack) <| .need (.mkTemp .idx) <| makeWrites .pack (makeWrites .idx
    (match j.src with | none => makePublish j.name | some e => .ret (.error e)) (j.parts .idx)) (j.parts .pack)

/-- The files `pack-….pack` and `pack-….idx` by name, and the temporary files of each `create`. -/
structure MakeDisk where
  files : FileKind → Bytes → Option Bytes
  tmps : FileKind → Nat → TempFile

/-- The disk after the temporary file `k` of `create` number `i` has become `x`. -/
def MakeDisk.setTmp (w : MakeDisk) (k : FileKind) (i : Nat) (x : TempFile) : MakeDisk :=
  ⟨w.files, fun k' i' => if k' = k ∧ i' = i then x else w.tmps k' i'⟩

/-- What a call of `create` number `i` does; `ok = false` lets it fail for reasons outside of the model. -/
def MakeCall.run (win ok : Bool) (w : MakeDisk) (i : Nat) : MakeCall → MakeDisk × Bool
  | .mkTemp k => if ok then (w.setTmp k i (some ([], true)), true) else (w, false)
  | .write k d =>
    match w.tmps k i with
    | some (b, true) => if ok then (w.setTmp k i (some (b ++ d, true)), true) else (w, false)
    | _ => (w, false)
  | .close k =>
    match w.tmps k i with
    | some (b, true) => if ok then (w.setTmp k i (some (b, false)), true) else (w, false)
    | _ => (w, false)
  | .rename k n =>
    match w.tmps k i with
    | some (b, o) =>
      if ok && !(win && (o || (w.files k n).isSome)) then
        (⟨fun k' n' => if k' = k ∧ n' = n then some b else w.files k' n', (w.setTmp k i none).tmps⟩, true)
      else (w, false)
    | none => (w, false)

/-- The disk and the calls of `create` in progress. -/
structure MakeSys where
  disk : MakeDisk
  procs : List MakeAct

/-- The next system call of number `i`. -/
def MakeSys.step (win : Bool) (s : MakeSys) (e : Nat × Bool) : MakeSys :=
  match s.procs[e.1]? with
  | some (.sys c k) => let r := c.run win e.2 s.disk e.1; ⟨r.1, s.procs.set e.1 (k r.2)⟩
  | _ => s

/-- System calls in the order of a schedule, with what lets them fail; a process that does not occur any more has crashed. -/
def MakeSys.run (win : Bool) (s : MakeSys) (sched : List (Nat × Bool)) : MakeSys := sched.foldl (MakeSys.step win) s

/-- Calls of `create` that have not begun yet, in a directory with the given files. -/
def makeSystem (files : FileKind → Bytes → Option Bytes) (jobs : List MakeJob) : MakeSys :=
  ⟨⟨files, fun _ _ => none⟩, jobs.map makeProg⟩

end GitDB
