import Verif.Model.Alternates
/-!
# Several threads and one `GitDB`

`_dbs`, `_loose_db` and `_db_cache` are made at the first access (`LazyMixin.__getattr__`, `gitdb/util.py` 248-255).  Here any number of threads
make a call each, `_db_query`, `databases` or `store`, and after every step another thread may go on.  Steps are the accesses to what
threads share: an attribute is read or set, a list or `dict` object is read or changed, the disk is looked at.  `self._dbs.append(dbcls(path))`
reads the attribute before it calls the class, so that another thread may replace the list in between.

Simplifications: the disk does not change (`present`: which of the three paths exist).  A database object is its class: what it answers about
a name (`ask`) depends on nothing else (for threads within one `PackedDB` see `Model/Threads.lean`), and making one is no step of its own.
`store` ends when it has its database.
-/
set_option autoImplicit false

namespace GitDB

/-- What threads share.  List and `dict` objects are numbered in the order in which they were made. -/
structure GShared where
  /-- the attribute `_dbs`, once it is set -/
  dbs : Option Nat := none
  /-- the list objects -/
  lists : List (List Sub) := []
  /-- the attribute `_loose_db` -/
  loose : Option Sub := none
  /-- the attribute `_db_cache` -/
  cache : Option Nat := none
  /-- the `dict` objects, latest entry first -/
  dicts : List (List (Bytes × Sub)) := []
  deriving DecidableEq, Repr

/-- The call of a thread: `_db_query(sha)` (which `has_object`, `info` and `stream` begin with), `databases()`, `store(istream)`. -/
inductive GCall where
  | query (sha : Bytes)
  | databases
  | store
  deriving DecidableEq, Repr

/-- What a call returned: the database with the object, the tuple of databases, the database an object is stored in. -/
inductive GOut where
  | found (k : Sub)
  | all (l : List Sub)
  | stored (k : Sub)
  deriving DecidableEq, Repr

/-- Where a thread is. -/
inductive GPc where
  /-- before the first access -/
  | start (c : GCall)
  /-- `gitdb/db/base.py` 177 -/
  | mkCache (sha : Bytes)
  /-- `gitdb/util.py` 255, for `_db_cache` -/
  | getCache (sha : Bytes)
  /-- `gitdb/db/base.py` 187, with the `dict` object -/
  | probe (sha : Bytes) (d : Nat)
  /-- `gitdb/db/base.py` 192, before the access to `_dbs` -/
  | needDbs (sha : Bytes)
  /-- `gitdb/db/git.py` 46 -/
  | fresh (c : GCall)
  /-- `gitdb/db/git.py` 48-52, with the classes that are left, and `loose_db` -/
  | each (c : GCall) (rest : List Sub) (loose : Option Sub)
  /-- `gitdb/db/git.py` 53, before `_dbs` is read -/
  | grab (c : GCall) (k : Sub) (rest : List Sub) (loose : Option Sub)
  /-- `gitdb/db/git.py` 53, before `append` -/
  | append (c : GCall) (k : Sub) (rest : List Sub) (loose : Option Sub) (l : Nat)
  /-- `gitdb/db/git.py` 55, before `_dbs` is read -/
  | grabLast (c : GCall) (rest : List Sub)
  /-- `gitdb/db/git.py` 55, before `[-1]` -/
  | last (c : GCall) (rest : List Sub) (l : Nat)
  /-- `gitdb/db/git.py` 61, before `_dbs` is read -/
  | check (c : GCall) (loose : Option Sub)
  /-- `gitdb/db/git.py` 61, before `not` -/
  | empty (c : GCall) (loose : Option Sub) (l : Nat)
  /-- `gitdb/db/git.py` 66-69 -/
  | keep (c : GCall) (loose : Option Sub)
  /-- `gitdb/util.py` 255, for `_dbs` or `_loose_db` -/
  | loaded (c : GCall)
  /-- `gitdb/db/base.py` 192, before the item with number `i` is taken -/
  | next (sha : Bytes) (l i : Nat)
  /-- `gitdb/db/base.py` 193 -/
  | ask (sha : Bytes) (l i : Nat) (k : Sub)
  /-- `gitdb/db/base.py` 194, before `_db_cache` is read -/
  | note (sha : Bytes) (k : Sub)
  /-- `gitdb/db/base.py` 194, before the entry is made -/
  | enter (sha : Bytes) (k : Sub) (d : Nat)
  /-- `gitdb/db/base.py` 228, before `tuple` -/
  | tuple (l : Nat)
  /-- the call has returned or raised -/
  | done (r : Res GOut)
  deriving DecidableEq, Repr

/-- `d[sha]`. -/
def cacheEntry (d : List (Bytes × Sub)) (sha : Bytes) : Option Sub := (d.find? fun e => e.1 == sha).map Prod.snd

/-- With `_dbs` at hand. -/
def withDbs (l : Nat) : GCall → GPc
  | .query sha => .next sha l 0
  | _ => .tuple l

/-- `hasattr(db, 'store')`, `gitdb/db/git.py` 66: `PackedDB` (`gitdb/db/pack.py` 122-126) and `LooseObjectDB` have one, `ReferenceDB` has not. -/
def hasStore : Sub → Bool
  | .ref => false
  | _ => true

/-- One step: `gitdb/db/git.py` 44-72, 76-77; `gitdb/db/base.py` 170-197, 226-228; `gitdb/util.py` 248-255. -/
def gstep (present : Sub → Bool) (ask : Sub → Bytes → Res Bool) (s : GShared) : GPc → GShared × GPc
  | .start (.query sha) =>
    match s.cache with
    | some d => (s, .probe sha d)
    | none => (s, .mkCache sha)
  | .start .databases =>
    match s.dbs with
    | some l => (s, .tuple l)
    | none => (s, .fresh .databases)
  | .start .store =>
    match s.loose with
    | some k => (s, .done (.ok (.stored k)))
    | none => (s, .fresh .store)
  | .mkCache sha => (⟨s.dbs, s.lists, s.loose, some s.dicts.length, s.dicts ++ [[]]⟩, .getCache sha)
  | .getCache sha =>
    match s.cache with
    | some d => (s, .probe sha d)
    | none => (s, .done (.error .attributeError))
  | .probe sha d =>
    match cacheEntry (s.dicts.getD d []) sha with
    | some k => (s, .done (.ok (.found k)))
    | none => (s, .needDbs sha)
  | .needDbs sha =>
    match s.dbs with
    | some l => (s, .next sha l 0)
    | none => (s, .fresh (.query sha))
  | .fresh c => (⟨some s.lists.length, s.lists ++ [[]], s.loose, s.cache, s.dicts⟩, .each c [.pack, .loose, .ref] none)
  | .each c [] loose => (s, .check c loose)
  | .each c (k :: rest) loose => if present k then (s, .grab c k rest loose) else (s, .each c rest loose)
  | .grab c k rest loose =>
    match s.dbs with
    | some l => (s, .append c k rest loose l)
    | none => (s, .done (.error .attributeError))
  | .append c k rest loose l =>
    (⟨s.dbs, s.lists.set l (s.lists.getD l [] ++ [k]), s.loose, s.cache, s.dicts⟩,
      if k = .loose then .grabLast c rest else .each c rest loose)
  | .grabLast c rest =>
    match s.dbs with
    | some l => (s, .last c rest l)
    | none => (s, .done (.error .attributeError))
  | .last c rest l =>
    match (s.lists.getD l []).getLast? with
    | some k => (s, .each c rest (some k))
    | none => (s, .done (.error .indexError))
  | .check c loose =>
    match s.dbs with
    | some l => (s, .empty c loose l)
    | none => (s, .done (.error .attributeError))
  | .empty c loose l => if s.lists.getD l [] = [] then (s, .done (.error .invalidDBRoot)) else (s, .keep c loose)
  | .keep _ none => (s, .done (.error .assertionError))
  | .keep c (some k) =>
    if hasStore k then (⟨s.dbs, s.lists, some k, s.cache, s.dicts⟩, .loaded c) else (s, .done (.error .assertionError))
  | .loaded .store =>
    match s.loose with
    | some k => (s, .done (.ok (.stored k)))
    | none => (s, .done (.error .attributeError))
  | .loaded c =>
    match s.dbs with
    | some l => (s, withDbs l c)
    | none => (s, .done (.error .attributeError))
  | .next sha l i =>
    match (s.lists.getD l [])[i]? with
    | some k => (s, .ask sha l i k)
    | none => (s, .done (.error .badObject))
  | .ask sha l i k =>
    match ask k sha with
    | .error e => (s, .done (.error e))
    | .ok true => (s, .note sha k)
    | .ok false => (s, .next sha l (i + 1))
  | .note sha k =>
    match s.cache with
    | some d => (s, .enter sha k d)
    | none => (s, .done (.error .attributeError)) -- not possible: set before `_dbs` is used
  | .enter sha k d => (⟨s.dbs, s.lists, s.loose, s.cache, s.dicts.set d ((sha, k) :: s.dicts.getD d [])⟩, .done (.ok (.found k)))
  | .tuple l => (s, .done (.ok (.all (s.lists.getD l []))))
  | .done r => (s, .done r)

/-- A `GitDB` with threads using it. -/
structure GSys where
  db : GShared := {}
  threads : List GPc
  deriving DecidableEq, Repr

/-- One step of thread `i` (`gitdb/db/git.py` 44-77, `gitdb/db/base.py` 170-228). -/
def GSys.step (present : Sub → Bool) (ask : Sub → Bytes → Res Bool) (s : GSys) (i : Nat) : GSys :=
  match s.threads[i]? with
  | none => s
  | some pc => ⟨(gstep present ask s.db pc).1, s.threads.set i (gstep present ask s.db pc).2⟩

/-- An execution: which thread takes the next step is given by `sched` (`gitdb/db/git.py` 44-77, `gitdb/db/base.py` 170-228). -/
def GSys.run (present : Sub → Bool) (ask : Sub → Bytes → Res Bool) (s : GSys) (sched : List Nat) : GSys :=
  sched.foldl (GSys.step present ask) s

end GitDB
