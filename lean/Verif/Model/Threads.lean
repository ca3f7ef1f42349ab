import Verif.Model.PackedDB
/-!
# Several threads in one `PackedDB`

`_pack_info` (`gitdb/db/pack.py` 60-85) is, by its comment, "not thread-safe, but may be hit in multi-threaded operation".  Here any number
of threads look up names in one database, others add packs to it (`update_cache`, 153-157 and 174), and after every step another thread may
go on.  The steps are those between which CPython, with its global lock, may switch threads; some of them (between reading and
writing a counter) are such only in versions before 3.10.  An item of the list `_entities` is a number here, standing for one list object
`[hits, entity, sha_to_index]`.

Simplifications: `_entities` exists already (the moment between lines 53 and 54 is the empty list with a thread adding the packs);
`sha_to_index` (`item[2]`) is a function of item and name: the indices are loaded and reading them changes nothing; which packs
`update_cache` adds is given, removing packs is not described.
-/
set_option autoImplicit false

namespace GitDB

/-- What threads share. -/
structure TDb where
  /-- the contents of the list object `_entities` -/
  items : List Nat
  /-- `allocated == -1` in CPython's `listobject.c`: a sort has taken the contents away, and nobody changed the list since -/
  mark : Bool := false
  /-- `item[0]` of every item -/
  hits : Nat → Nat
  /-- `_hit_count` -/
  hitCount : Nat

/-- Where a thread is. -/
inductive TPc where
  /-- before line 69 of `gitdb/db/pack.py` -/
  | start (sha : Bytes)
  /-- entering `_sort_entities`, line 57; for a lookup or (`none`) at the end of `update_cache` -/
  | presort (after : Option Bytes)
  /-- in `sort`: the contents and the mark of the list when it began, the keys computed so far -/
  | sort (after : Option Bytes) (saved : List Nat) (mark : Bool) (keys : List Nat)
  /-- line 73, before taking the item with number `k` -/
  | next (sha : Bytes) (k : Nat)
  /-- line 74 -/
  | ask (sha : Bytes) (k it : Nat)
  /-- line 76, before reading `item[0]` -/
  | hit (sha : Bytes) (it i : Nat)
  /-- line 76, before writing `v + 1` -/
  | hit2 (sha : Bytes) (it i v : Nat)
  /-- line 77, before reading `_hit_count` -/
  | count (sha : Bytes) (it i : Nat)
  /-- line 77, before writing `v + 1` -/
  | count2 (sha : Bytes) (it i v : Nat)
  /-- lines 153-157, with these packs left to be added -/
  | add (new : List Nat)
  /-- the call has returned (item and position for a lookup) or raised -/
  | done (r : Res (Option (Nat × Nat)))
  deriving DecidableEq

/-- Insertion of an item with its key, before equal ones. -/
def insertKey (x : Nat × Nat) : List (Nat × Nat) → List (Nat × Nat)
  | [] => [x]
  | y :: l => if y.1 ≤ x.1 then x :: y :: l else y :: insertKey x l

/-- `sort(key=..., reverse=True)` of `(key, item)`s: stable, largest key first. -/
def sortKeys : List (Nat × Nat) → List (Nat × Nat)
  | [] => []
  | x :: l => insertKey x (sortKeys l)

/-- Where a thread goes on after the sort: line 73, or the end of `update_cache` (`gitdb/db/pack.py` 174-175). -/
def afterSort : Option Bytes → TPc
  | some sha => .next sha 0
  | none => .done (.ok none)

/-- One step of a thread (`gitdb/db/pack.py` 57-85, 153-157, 174).  `list.sort` (CPython's `list_sort_impl`) takes the contents out of the
list, calls the key function for every item, sorts, and puts the contents back; it raises `ValueError` if the list was changed meanwhile.
Sorting an empty list calls nothing and is one step.  An iterator over a list takes the item of its number from what the list is at that
moment, and ends when there is none. -/
def tstep (find : Nat → Bytes → Res (Option Nat)) (db : TDb) : TPc → TDb × TPc
  | .start sha => if db.hitCount % sortInterval = 0 then (db, .presort (some sha)) else (db, .next sha 0)
  | .presort after =>
    if db.items = [] then (db, afterSort after)
    else ({ db with items := [], mark := true }, .sort after db.items db.mark [])
  | .sort after saved mark keys =>
    match saved[keys.length]? with
    | none => (db, .done (.error .diverge)) -- not possible
    | some it =>
      let keys := keys ++ [db.hits it]
      if keys.length < saved.length then (db, .sort after saved mark keys)
      else
        ({ db with items := (sortKeys (keys.zip saved)).map Prod.snd, mark := mark },
          if db.mark then afterSort after else .done (.error .valueError))
  | .next sha k =>
    match db.items[k]? with
    | none => (db, .done (.error .badObject))
    | some it => (db, .ask sha k it)
  | .ask sha k it =>
    match find it sha with
    | .error e => (db, .done (.error e))
    | .ok none => (db, .next sha (k + 1))
    | .ok (some i) => (db, .hit sha it i)
  | .hit sha it i => (db, .hit2 sha it i (db.hits it))
  | .hit2 sha it i v => ({ db with hits := fun j => if j = it then v + 1 else db.hits j }, .count sha it i)
  | .count sha it i => (db, .count2 sha it i db.hitCount)
  | .count2 _ it i v => ({ db with hitCount := v + 1 }, .done (.ok (some (it, i))))
  | .add [] => (db, .presort none)
  | .add (x :: new) => ({ db with items := db.items ++ [x], mark := false }, .add new)
  | .done r => (db, .done r)

/-- A database with threads using it. -/
structure TSys where
  db : TDb
  threads : List TPc

/-- One step of thread `i` (`gitdb/db/pack.py` 57-85, 153-157, 174). -/
def TSys.step (find : Nat → Bytes → Res (Option Nat)) (s : TSys) (i : Nat) : TSys :=
  match s.threads[i]? with
  | none => s
  | some pc => ⟨(tstep find s.db pc).1, s.threads.set i (tstep find s.db pc).2⟩

/-- An execution: which thread takes the next step is given by `sched` (`gitdb/db/pack.py` 57-85, 153-157, 174). -/
def TSys.run (find : Nat → Bytes → Res (Option Nat)) (s : TSys) (sched : List Nat) : TSys := sched.foldl (TSys.step find) s

end GitDB
