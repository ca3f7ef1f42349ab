import Verif.Model.LockedFD
/-!
# What a lock file is for

Observable notions only: the content of a file, the data a caller managed to write, and what it means
for a caller to have committed data.
-/
set_option autoImplicit false

namespace GitDB.Spec
open GitDB

/-- The content of a file, if the path is a file. -/
def content (fs : Fs) (p : Path) : Option Bytes :=
  match fs p with
  | some (.file d _) => some d
  | _ => none

/-- The data of the successful `os.write` calls among calls with their results. -/
def acceptedData : List (LockOp × Res Nat) → Bytes
  | [] => []
  | (.put d _, .ok n) :: cs => d.take n ++ acceptedData cs
  | _ :: cs => acceptedData cs

/-- Some use of a `LockedFD` opened the file for writing, wrote the data `d` (all of it, nothing else),
and then called `commit`, whose `close(2)` and `rename(2)` succeeded. -/
def CommittedBy (p : Path) (uses : List (List LockOp)) (d : Bytes) : Prop :=
  ∃ ops ∈ uses, ∃ before env after, ops = before ++ .commit env :: after ∧
    env.close = true ∧ env.rename = true ∧
    ∃ calls, calls = before.zip (LockedFD.init.calls p before).2.2 ∧
      (∃ e, (LockOp.open_ true e, Except.ok 0) ∈ calls) ∧ d = acceptedData calls

/-- A call which is meant to end the use of the lock. -/
def EndsLock : LockOp → Prop
  | .commit _ | .rollback _ | .drop _ => True
  | _ => False

/-- No `close`, `remove` or `rename` fails in this call. -/
def NoLockFault : LockOp → Prop
  | .open_ _ env => env.close = true ∧ env.remove = true
  | .put _ _ => True
  | .commit env | .rollback env | .drop env =>
    env.close = true ∧ env.rename = true ∧ env.remove = true

/-- The last call of a use ends it. -/
def LockEnded (ops : List LockOp) : Prop := ∀ op, ops.getLast? = some op → EndsLock op

end GitDB.Spec
