import Verif.Model.UpdateThreads
/-!
# The first use of a `PackedDB` in several threads

`_entities` of a new `PackedDB` is made at its first use: `__getattr__` (`gitdb/util.py` 248-255) calls `_set_cache_` (`gitdb/db/pack.py` 51-54), which sets an empty list and
calls `update_cache(force=True)`.  Here any number of threads use `_entities` for the first time, and after every step another thread may go on.  Two threads may both have found
the attribute missing; then there are two list objects, and what each thread does next is done to the one that is in `_entities` at that moment.

Simplifications: the directory does not change, so that no packs are removed; packs can be opened; what the threads do with `_entities` afterwards is not described.  Orders as in
`Model/UpdateThreads.lean`, `force` and `mtime` of a call are not used.
-/
set_option autoImplicit false

namespace GitDB

/-- What threads share: all list objects made (contents, and the mark of `UDb`), and which of them is `_entities`, if any; `gitdb/db/pack.py` 40-54. -/
structure FDb where
  lists : List (List Nat × Bool) := []
  cur : Option Nat := none
  deriving DecidableEq, Repr

/-- Where a thread is. -/
inductive FPc where
  /-- looking for the attribute -/
  | look (c : UCall)
  /-- line 53 of `gitdb/db/pack.py`: the attribute was missing -/
  | make (c : UCall)
  /-- line 150, before taking the list -/
  | ours (c : UCall)
  /-- line 150, before taking the item with number `k` of list `o`; the set so far -/
  | scan (c : UCall) (o k : Nat) (our : List Nat)
  /-- lines 153-157: packs left to be added -/
  | add (c : UCall) (new : List Nat)
  /-- line 174 -/
  | presort (c : UCall)
  /-- in the sort of list `o`: its contents and mark when it began, keys left to be computed -/
  | sort (c : UCall) (o : Nat) (saved : List Nat) (mark : Bool) (left : Nat)
  /-- the thread has got the attribute, or the exception that is raised instead -/
  | done (r : Res Unit)

/-- The list with number `o`. -/
def FDb.get (db : FDb) (o : Nat) : List Nat × Bool := (db.lists[o]?).getD ([], false)

/-- One step of a thread, `gitdb/util.py` 248-255, `gitdb/db/pack.py` 51-57, 132-175. -/
def fstep (db : FDb) : FPc → FDb × FPc
  | .look c => if db.cur.isSome then (db, .done (.ok ())) else (db, .make c)
  | .make c => (⟨db.lists ++ [([], false)], some db.lists.length⟩, .ours c)
  | .ours c =>
    match db.cur with
    | none => (db, .done (.error .diverge)) -- not possible
    | some o => (db, .scan c o 0 [])
  | .scan c o k our =>
    match (db.get o).1[k]? with
    | some p => (db, .scan c o (k + 1) (our.insert p))
    | none => (db, .add c (c.setOrd (c.files.filter (fun p => !our.contains p))))
  | .add c [] => (db, .presort c)
  | .add c (p :: new) =>
    match db.cur with
    | none => (db, .done (.error .diverge)) -- not possible
    | some o => ({ db with lists := db.lists.set o ((db.get o).1 ++ [p], false) }, .add c new)
  | .presort c =>
    match db.cur with
    | none => (db, .done (.error .diverge)) -- not possible
    | some o =>
      if (db.get o).1 = [] then (db, .done (.ok ()))
      else ({ db with lists := db.lists.set o ([], true) }, .sort c o (db.get o).1 (db.get o).2 (db.get o).1.length)
  | .sort c o saved mark (n + 1) => (db, .sort c o saved mark n)
  | .sort c o saved mark 0 =>
    ({ db with lists := db.lists.set o (c.sortOrd saved, mark) }, if (db.get o).2 then .done (.ok ()) else .done (.error .valueError))
  | .done r => (db, .done r)

/-- A database with threads using it, `gitdb/db/pack.py` 51-57, 132-175. -/
structure FSys where
  db : FDb
  threads : List FPc

/-- One step of thread `i` (`gitdb/db/pack.py` 51-57, 132-175). -/
def FSys.step (s : FSys) (i : Nat) : FSys :=
  match s.threads[i]? with
  | none => s
  | some pc => ⟨(fstep s.db pc).1, s.threads.set i (fstep s.db pc).2⟩

/-- An execution: which thread takes the next step is given by `sched` (`gitdb/db/pack.py` 51-57, 132-175). -/
def FSys.run (s : FSys) (sched : List Nat) : FSys := sched.foldl FSys.step s

/-- The list that `_entities` is. -/
def FDb.entities (db : FDb) : Option (List Nat) := db.cur.map fun o => (db.get o).1

end GitDB
