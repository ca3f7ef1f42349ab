import Verif.Model.PackedDB
/-!
# Several threads in `PackedDB.update_cache`

`update_cache` (`gitdb/db/pack.py` 132-175) compares the list `_entities` with the files in the directory, adds new packs and removes those that are gone.  Here any number of
threads call it on one database, and after every step another thread may go on.  A pack is a number here, standing for its path.

Simplifications: `_entities` exists already; packs can be opened; lookups are not among the calls (they are in C103, where no packs are removed).  What `stat` and `glob` return is given
with each call, so that the directory may change in any way between and during calls.  The order in which sets are iterated over, and the order which the sort brings about
(hits are not described), are given with each call as well.
-/
set_option autoImplicit false

namespace GitDB

/-- A call `update_cache(force)`, `gitdb/db/pack.py` 132-150: `st_mtime` of the directory (141), the files that `glob` finds (149), and two orders. -/
structure UCall where
  force : Bool
  mtime : Nat
  files : List Nat
  setOrd : List Nat → List Nat
  sortOrd : List Nat → List Nat

/-- What threads share: the contents of `_entities`, whether a sort has taken them away and nobody changed the list since (as in `TDb`), and `_st_mtime`; `gitdb/db/pack.py` 40-49. -/
structure UDb where
  items : List Nat
  mark : Bool := false
  mtime : Nat := 0
  deriving DecidableEq, Repr

/-- Where a thread is. -/
inductive UPc where
  /-- line 142 of `gitdb/db/pack.py` -/
  | check (c : UCall)
  /-- line 145 -/
  | setTime (c : UCall)
  /-- line 150, before taking the item with number `k`; the set so far -/
  | scan (c : UCall) (k : Nat) (our : List Nat)
  /-- lines 153-157: packs left to be added, and those to be removed then -/
  | add (c : UCall) (new gone : List Nat)
  /-- line 161 -/
  | remove (c : UCall) (gone : List Nat)
  /-- line 163, before taking the item with number `k`, looking for `p` -/
  | find (c : UCall) (gone : List Nat) (p k : Nat)
  /-- line 170 -/
  | del (c : UCall) (gone : List Nat) (i : Nat)
  /-- line 174, before the sort begins -/
  | presort (c : UCall)
  /-- in the sort: contents and mark of the list when it began, keys left to be computed -/
  | sort (c : UCall) (saved : List Nat) (mark : Bool) (left : Nat)
  /-- the call has returned or raised -/
  | done (r : Res Bool)

/-- One step of a thread, `gitdb/db/pack.py` 132-175.  For iterators and `list.sort` see `tstep`. -/
def ustep (db : UDb) : UPc → UDb × UPc
  | .check c => if c.force = false ∧ c.mtime ≤ db.mtime then (db, .done (.ok false)) else (db, .setTime c)
  | .setTime c => ({ db with mtime := c.mtime }, .scan c 0 [])
  | .scan c k our =>
    match db.items[k]? with
    | some p => (db, .scan c (k + 1) (our.insert p))
    | none => (db, .add c (c.setOrd (c.files.filter (fun p => !our.contains p))) (c.setOrd (our.filter (fun p => !c.files.contains p))))
  | .add c [] gone => (db, .remove c gone)
  | .add c (p :: new) gone => ({ db with items := db.items ++ [p], mark := false }, .add c new gone)
  | .remove c [] => (db, .presort c)
  | .remove c (p :: gone) => (db, .find c gone p 0)
  | .find c gone p k =>
    match db.items[k]? with
    | none => (db, .done (.error .assertionError))
    | some q => if q = p then (db, .del c gone k) else (db, .find c gone p (k + 1))
  | .del c gone i => if i < db.items.length then ({ db with items := db.items.eraseIdx i }, .remove c gone) else (db, .done (.error .indexError))
  | .presort c => if db.items = [] then (db, .done (.ok true)) else ({ db with items := [], mark := true }, .sort c db.items db.mark db.items.length)
  | .sort c saved mark (n + 1) => (db, .sort c saved mark n)
  | .sort c saved mark 0 => ({ db with items := c.sortOrd saved, mark := mark }, if db.mark then .done (.ok true) else .done (.error .valueError))
  | .done r => (db, .done r)

/-- A database with threads using it, `gitdb/db/pack.py` 132-175. -/
structure USys where
  db : UDb
  threads : List UPc

/-- One step of thread `i` (`gitdb/db/pack.py` 132-175). -/
def USys.step (s : USys) (i : Nat) : USys :=
  match s.threads[i]? with
  | none => s
  | some pc => ⟨(ustep s.db pc).1, s.threads.set i (ustep s.db pc).2⟩

/-- An execution: which thread takes the next step is given by `sched` (`gitdb/db/pack.py` 132-175). -/
def USys.run (s : USys) (sched : List Nat) : USys := sched.foldl USys.step s

end GitDB
