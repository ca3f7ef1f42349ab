import Verif.Model.Fs
/-!
# Lock files: `gitdb/util.py` 269-396

The state of a `LockedFD` object and the system calls its methods make.  Whether a call succeeds is chosen by
the environment, one answer per call (`OpenEnv`, `EndEnv`); successful calls which change the file system leave an event,
see `Verif/Model/Fs.lean`.  Taking the lock can only succeed when the lock file does not exist; that is
the meaning of the event `create`.

Simplifications: POSIX only (no `win32` branches, `_retry` calls once); of a descriptor only its presence
is kept, and a failed `close(2)` is a failed call without effect; the `stream` argument of `open` only
wraps the descriptor and is left out; errors of the system are one exception, `OSError`.
-/
set_option autoImplicit false

namespace GitDB

/-- The text `.lock`. -/
def dotLock : Bytes := [0x2e, 0x6c, 0x6f, 0x63, 0x6b]

/-- `LockedFD._lockfilepath`, `gitdb/util.py` 297-298. -/
def lockPath (p : Path) : Path :=
  match p.getLast? with
  | some n => p.dropLast ++ [n ++ dotLock]
  | none => [dotLock]

/-- The attributes `_fd` (is there a descriptor) and `_write` of a `LockedFD`, `gitdb/util.py` 284-290. -/
structure LockedFD where
  fd : Bool
  write : Option Bool
  deriving DecidableEq, Repr

/-- `LockedFD.__init__`, `gitdb/util.py` 286-290. -/
def LockedFD.init : LockedFD := { fd := false, write := none }

/-- Which system calls made by `LockedFD.open` succeed: `os.open` of the lock file (323), `os.close` of
it (325), `os.open` of the file (337), `remove` of the lock file (340). -/
structure OpenEnv where
  lock : Bool
  close : Bool
  file : Bool
  remove : Bool
  deriving DecidableEq, Repr

/-- Which system calls made by `LockedFD._end_writing` succeed: `os.close` (376), `os.rename` (387),
`chmod` (392), `remove` (395). -/
structure EndEnv where
  close : Bool
  rename : Bool
  chmod : Bool
  remove : Bool
  deriving DecidableEq, Repr

/-- `LockedFD.open`, `gitdb/util.py` 300-351. -/
def LockedFD.open_ (p : Path) (write : Bool) (env : OpenEnv) (l : LockedFD) :
    LockedFD × List Ev × Res Unit :=
  match l.write with
  | some _ => (l, [], .error .assertionError)
  | none =>
    let l := { l with write := some write }
    if !env.lock then (l, [], .error .osError)
    else if write then ({ l with fd := true }, [.create (lockPath p)], .ok ())
    else if !env.close then (l, [.create (lockPath p)], .error .osError)
    else if env.file then ({ l with fd := true }, [.create (lockPath p)], .ok ())
    else if env.remove then (l, [.create (lockPath p), .remove (lockPath p)], .error .osError)
    else (l, [.create (lockPath p)], .error .osError)

/-- `LockedFD._end_writing`, `gitdb/util.py` 368-396. -/
def LockedFD.endWriting (p : Path) (successful : Bool) (env : EndEnv) (l : LockedFD) :
    LockedFD × List Ev × Res Unit :=
  match l.write with
  | none => (l, [], .error .assertionError)
  | some w =>
    if !l.fd then (l, [], .ok ())
    else if !env.close then (l, [], .error .osError)
    else
      let l := { l with fd := false }
      if w && successful then
        if !env.rename then (l, [], .error .osError)
        else if !env.chmod then (l, [.rename (lockPath p) p], .error .osError)
        else (l, [.rename (lockPath p) p, .chmod p 0o644], .ok ())
      else if !env.remove then (l, [], .error .osError)
      else (l, [.remove (lockPath p)], .ok ())

/-- What a caller can do with a `LockedFD` object: call `open`, write to the descriptor it returned
(`os.write(fd, data)`, which writes `n` bytes), `commit`, `rollback`, or drop the object. -/
inductive LockOp where
  | open_ (write : Bool) (env : OpenEnv)
  | put (data : Bytes) (n : Nat)
  | commit (env : EndEnv)
  | rollback (env : EndEnv)
  | drop (env : EndEnv)
  deriving DecidableEq, Repr

/-- One call: the new state, the events, and the number of bytes written (0 for calls which return
nothing) or the exception.  `commit`, `gitdb/util.py` 353-359; `rollback` 361-366; `__del__` 292-295
(an exception in `__del__` is ignored by Python).  Writing needs the descriptor of the lock file: without
a descriptor `os.write(None, …)` raises `TypeError`, in read mode the descriptor is read-only. -/
def LockedFD.call (p : Path) (l : LockedFD) : LockOp → LockedFD × List Ev × Res Nat
  | .open_ w env => let (l, es, r) := l.open_ p w env; (l, es, r.map fun _ => 0)
  | .put d n =>
    if !l.fd then (l, [], .error .typeError)
    else if l.write = some true then (l, [.append (lockPath p) (d.take n)], .ok (d.take n).length)
    else (l, [], .error .osError)
  | .commit env => let (l, es, r) := l.endWriting p true env; (l, es, r.map fun _ => 0)
  | .rollback env => let (l, es, r) := l.endWriting p false env; (l, es, r.map fun _ => 0)
  | .drop env =>
    if l.fd then let (l, es, _) := l.endWriting p false env; (l, es, .ok 0)
    else (l, [], .ok 0)

/-- Calls one after the other on one object: final state, all events, all results. -/
def LockedFD.calls (p : Path) (l : LockedFD) : List LockOp → LockedFD × List Ev × List (Res Nat)
  | [] => (l, [], [])
  | op :: ops =>
    let (l, es, r) := l.call p op
    let (l, es', rs) := l.calls p ops
    (l, es ++ es', r :: rs)

/-- The system calls of a process using one object after the other. -/
def lockEvents (p : Path) (uses : List (List LockOp)) : List Ev :=
  uses.flatMap fun ops => (LockedFD.init.calls p ops).2.1

end GitDB
