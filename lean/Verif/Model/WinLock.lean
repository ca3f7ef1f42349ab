import Verif.Model.LockedFD
/-!
# Lock files on Windows and elsewhere: `gitdb/util.py` 68-83 and 269-396, one system call at a time

`Model/LockedFD.lean` describes `LockedFD` on POSIX systems.  Here both branches of the platform are described (`win`), as programs that make one
system call after another, so that processes can alternate, and stop, between any two calls.  On Windows `os.rename` refuses to replace
a file, so `_end_writing` removes the file first (382-386), and `remove` tries again up to ten times (`_retry`, 68-79).

Simplifications: one path and its lock file; of a descriptor only its presence is kept; a call that fails does nothing, and errors of the system are one
exception, `OSError`; the time between attempts is not described; the mode of the file is left out.
-/
set_option autoImplicit false

namespace GitDB

/-- System calls on the file and its lock file. -/
inductive WinCall where
  /-- `os.open(lockfile, O_WRONLY | O_CREAT | O_EXCL)`, `gitdb/util.py` 323 -/
  | createLock
  /-- `os.open(filepath, O_RDONLY)`, 337 -/
  | openFile
  /-- `os.write(fd, data)` of the caller -/
  | append (data : Bytes)
  /-- `os.close(fd)`, 325 and 376 -/
  | close
  /-- `isfile(filepath)`, 383 -/
  | isFile
  /-- `os.remove(filepath)`, 384 -/
  | removeFile
  /-- `os.rename(lockfile, filepath)`, 387 -/
  | rename
  /-- `chmod(filepath, 0o644)`, 392 -/
  | chmod
  /-- `os.remove(lockfile)`, 340 and 395 -/
  | removeLock
  deriving DecidableEq, Repr

/-- A program: it has ended, or makes a call and goes on with its success (for `isfile`: its answer). -/
inductive WinAct (α : Type) where
  | ret (a : α)
  | sys (c : WinCall) (k : Bool → WinAct α)

def WinAct.bind {α β : Type} (l : WinAct α) (f : α → WinAct β) : WinAct β :=
  match l with
  | .ret a => f a
  | .sys c k => .sys c fun b => (k b).bind f

/-- The loop of `_retry`, `gitdb/util.py` 72-77: `n` attempts whose exceptions are dropped, and a last one. -/
def retryCall (c : WinCall) : Nat → WinAct Bool
  | 0 => .sys c .ret
  | n + 1 => .sys c fun b => if b then .ret true else retryCall c n

/-- `_retry`, `gitdb/util.py` 68-79, with `remove`, 82-83. -/
def winRemove (win : Bool) (c : WinCall) : WinAct Bool := retryCall c (if win then 10 else 0)

/-- `LockedFD.open`, `gitdb/util.py` 300-351. -/
def winOpen (win write : Bool) (l : LockedFD) : WinAct (LockedFD × Res Unit) :=
  match l.write with
  | some _ => .ret (l, .error .assertionError)
  | none =>
    .sys .createLock fun b =>
      if !b then .ret (⟨l.fd, some write⟩, .error .osError)
      else if write then .ret (⟨true, some write⟩, .ok ())
      else .sys .close fun b =>
        if !b then .ret (⟨l.fd, some write⟩, .error .osError)
        else .sys .openFile fun b =>
          if b then .ret (⟨true, some write⟩, .ok ())
          else (winRemove win .removeLock).bind fun _ => .ret (⟨l.fd, some write⟩, .error .osError)

/-- The end of `_end_writing` after a successful write, `gitdb/util.py` 387-392. -/
def winRename (l : LockedFD) : WinAct (LockedFD × Res Unit) :=
  .sys .rename fun b =>
    if !b then .ret (l, .error .osError)
    else .sys .chmod fun b => .ret (l, if b then .ok () else .error .osError)

/-- `LockedFD._end_writing`, `gitdb/util.py` 368-396. -/
def winEnd (win successful : Bool) (l : LockedFD) : WinAct (LockedFD × Res Unit) :=
  match l.write with
  | none => .ret (l, .error .assertionError)
  | some w =>
    if !l.fd then .ret (l, .ok ())
    else .sys .close fun b =>
      if !b then .ret (l, .error .osError)
      else if w && successful then
        if win then
          .sys .isFile fun b =>
            if b then (winRemove win .removeFile).bind fun b => if b then winRename ⟨false, some w⟩ else .ret (⟨false, some w⟩, .error .osError)
            else winRename ⟨false, some w⟩
        else winRename ⟨false, some w⟩
      else (winRemove win .removeLock).bind fun b => .ret (⟨false, some w⟩, if b then .ok () else .error .osError)

/-- What a caller does with a `LockedFD`: `open`, writing to the descriptor, `commit` (353-359), `rollback` (361-366), or dropping it (`__del__`, 292-295). -/
inductive WinOp where
  | open_ (write : Bool)
  | put (data : Bytes)
  | commit
  | rollback
  | drop
  deriving DecidableEq, Repr

/-- One of these calls.  Writing needs the descriptor of the lock file: `os.write(None, …)` raises `TypeError`, and a descriptor opened for
reading cannot be written to. -/
def winOp (win : Bool) (l : LockedFD) : WinOp → WinAct (LockedFD × Res Unit)
  | .open_ write => winOpen win write l
  | .put d =>
    if !l.fd then .ret (l, .error .typeError)
    else if l.write = some true then .sys (.append d) fun b => .ret (l, if b then .ok () else .error .osError)
    else .ret (l, .error .osError)
  | .commit => winEnd win true l
  | .rollback => winEnd win false l
  | .drop => if l.fd then (winEnd win false l).bind fun r => .ret (r.1, .ok ()) else .ret (l, .ok ())

/-- Calls one after the other on one object, and their results. -/
def winUse (win : Bool) : LockedFD → List WinOp → WinAct (List (Res Unit))
  | _, [] => .ret []
  | l, op :: ops => (winOp win l op).bind fun r => (winUse win r.1 ops).bind fun rs => .ret (r.2 :: rs)

/-- A process that uses one object after the other. -/
def winProcess (win : Bool) : List (List WinOp) → WinAct (List (List (Res Unit)))
  | [] => .ret []
  | ops :: uses => (winUse win .init ops).bind fun r => (winProcess win uses).bind fun rs => .ret (r :: rs)

/-- The file and its lock file. -/
structure WinDisk where
  file : Option Bytes
  lock : Option Bytes
  deriving DecidableEq, Repr

/-- What a call does; `ok = false` lets it fail for reasons outside of the model. -/
def WinCall.run (win : Bool) (ok : Bool) (w : WinDisk) : WinCall → WinDisk × Bool
  | .createLock => if ok && w.lock.isNone then (⟨w.file, some []⟩, true) else (w, false)
  | .openFile | .isFile => (w, ok && w.file.isSome)
  | .append d => if ok then (⟨w.file, w.lock.map (· ++ d)⟩, true) else (w, false)
  | .close | .chmod => (w, ok)
  | .removeFile => if ok && w.file.isSome then (⟨none, w.lock⟩, true) else (w, false)
  | .rename => if ok && w.lock.isSome && !(win && w.file.isSome) then (⟨w.lock, none⟩, true) else (w, false)
  | .removeLock => if ok && w.lock.isSome then (⟨w.file, none⟩, true) else (w, false)

/-- The disk and the processes. -/
structure WinSys (α : Type) where
  disk : WinDisk
  procs : List (WinAct α)

/-- The next call of process `i`. -/
def WinSys.step (win : Bool) {α : Type} (s : WinSys α) (e : Nat × Bool) : WinSys α :=
  match s.procs[e.1]? with
  | some (.sys c k) => let r := c.run win e.2 s.disk; ⟨r.1, s.procs.set e.1 (k r.2)⟩
  | _ => s

/-- Calls in the order of a schedule, with what lets them fail; a process that does not occur any more has crashed. -/
def WinSys.run (win : Bool) {α : Type} (s : WinSys α) (sched : List (Nat × Bool)) : WinSys α := sched.foldl (WinSys.step win) s

end GitDB
