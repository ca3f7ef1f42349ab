import Verif.Model.AfterClose
import Verif.Model.Memory
/-!
# Several threads in one `MemoryDB`

`MemoryDB.store` (`gitdb/db/mem.py` 49-62) installs a new writer in its one `LooseObjectDB` with `set_ostream` and then calls `store` of that database, which asks for the
installed writer (`gitdb/db/loose.py` 180).  Here any number of threads store objects in one database and ask for names, and after every step
another thread may go on.  A call of `ZippedStoreShaWriter.write` (`gitdb/stream.py` 618-622) is three steps: hashing, compressing, and writing to the buffer.

Simplifications: the sources of the objects are not shared, so that only the pieces which are written matter (header and chunks, `gitdb/fun.py` 488-533) and whether there is an exception then.
A name is computed as hex and converted back (`gitdb/db/loose.py` 213-218, 250), which is the digest (C05).  Readers of the stored objects are not described.
-/
set_option autoImplicit false

namespace GitDB

/-- An object to be stored: type, size and name of the `IStream`, the pieces that `write_object` (without a name) or `stream_copy` (with a name) writes,
and the exception that it raises after these pieces, if any (of the source, say).  `gitdb/db/loose.py` 177-251: it is raised again in 207-210. -/
structure MStore where
  type : Bytes
  size : Nat
  binsha : Option Bytes
  pieces : List Bytes
  fails : Option Err := none
  deriving DecidableEq, Repr

/-- What threads share: `_ostream` of the `LooseObjectDB` (the number of a writer; `gitdb/db/base.py` 71-93), all writers, and `_cache` (`gitdb/db/mem.py` 39-44). -/
structure MShared (zl : Zlib) where
  installed : Option Nat := none
  writers : List (ZippedLife zl) := []
  cache : List (Bytes × MemObj) := []

/-- The result of a call. -/
inductive MOut where
  /-- `store` returned an `IStream` with this `binsha` -/
  | name (b : Bytes)
  /-- `has_object` -/
  | has (b : Bool)
  deriving DecidableEq, Repr

/-- Where a thread is.  `z` is the number of the writer it has made, `w` of the one it writes to. -/
inductive MPc where
  /-- before line 50 of `gitdb/db/mem.py` -/
  | new (s : MStore)
  /-- line 51, before `set_ostream` assigns -/
  | install (s : MStore) (z : Nat)
  /-- line 53, before `ostream()` in `LooseObjectDB.store` -/
  | fetch (s : MStore) (z : Nat)
  /-- before the next write, with these pieces left: `gitdb/stream.py` 619 -/
  | hash (s : MStore) (z w : Nat) (left : List Bytes)
  /-- line 620, before `compress` -/
  | comp (s : MStore) (z w : Nat) (d : Bytes) (left : List Bytes)
  /-- line 620, before the write to the buffer -/
  | buf (s : MStore) (z w : Nat) (c : Bytes) (left : List Bytes)
  /-- line 54 of `gitdb/db/mem.py`: `zstream.close()`, before `flush` -/
  | flush (s : MStore) (z : Nat) (name : Bytes)
  /-- the same, before the write to the buffer -/
  | bufEnd (s : MStore) (z : Nat) (name c : Bytes)
  /-- line 55 -/
  | seek (s : MStore) (z : Nat) (name : Bytes)
  /-- line 59, before `getvalue` -/
  | value (s : MStore) (z : Nat) (name : Bytes)
  /-- line 60 -/
  | put (s : MStore) (name m : Bytes)
  /-- line 65 -/
  | has (sha : Bytes)
  /-- the call has returned or raised -/
  | done (r : Res MOut)
  deriving DecidableEq

/-- One step of a thread: `gitdb/db/mem.py` 49-65, `gitdb/db/loose.py` 177-251, `gitdb/stream.py` 618-637. -/
def mstep (H : Hash) (zl : Zlib) (sh : MShared zl) : MPc → MShared zl × MPc
  | .new s => ({ sh with writers := sh.writers ++ [⟨.new zl, false⟩] }, .install s sh.writers.length)
  | .install s z => ({ sh with installed := some z }, .fetch s z)
  | .fetch s z =>
    match sh.installed with
    | none => (sh, .done (.error .osError)) -- not possible
    | some w => (sh, .hash s z w s.pieces)
  | .hash s z w left =>
    match sh.writers[w]? with
    | none => (sh, .done (.error .diverge)) -- not possible
    | some x =>
      match left with
      | [] =>
        match s.fails with
        | some e => (sh, .done (.error e))
        | none =>
          (sh, .flush s z (match s.binsha with
            | none | some [] => x.w.sha1.sha H false
            | some b => b))
      | d :: left => ({ sh with writers := sh.writers.set w { x with w := { x.w with sha1 := (x.w.sha1.write d).1 } } }, .comp s z w d left)
  | .comp s z w d left =>
    match sh.writers[w]? with
    | none => (sh, .done (.error .diverge)) -- not possible
    | some x =>
      if x.ended then (sh, .done (.error .zlibError))
      else ({ sh with writers := sh.writers.set w { x with w := { x.w with zip := (zl.ccompress x.w.zip d).1 } } },
        .buf s z w (zl.ccompress x.w.zip d).2 left)
  | .buf s z w c left =>
    match sh.writers[w]? with
    | none => (sh, .done (.error .diverge)) -- not possible
    | some x => ({ sh with writers := sh.writers.set w { x with w := { x.w with buf := x.w.buf.write c } } }, .hash s z w left)
  | .flush s z name =>
    match sh.writers[z]? with
    | none => (sh, .done (.error .diverge)) -- not possible
    | some x =>
      if x.ended then (sh, .done (.error .zlibError))
      else ({ sh with writers := sh.writers.set z { x with ended := true } }, .bufEnd s z name (zl.cflush x.w.zip))
  | .bufEnd s z name c =>
    match sh.writers[z]? with
    | none => (sh, .done (.error .diverge)) -- not possible
    | some x => ({ sh with writers := sh.writers.set z { x with w := { x.w with buf := x.w.buf.write c } } }, .seek s z name)
  | .seek s z name =>
    match sh.writers[z]? with
    | none => (sh, .done (.error .diverge)) -- not possible
    | some x =>
      match x.w.seek 0 0 with
      | (_, .error e) => (sh, .done (.error e))
      | (w', .ok ()) => ({ sh with writers := sh.writers.set z { x with w := w' } }, .value s z name)
  | .value s z name =>
    match sh.writers[z]? with
    | none => (sh, .done (.error .diverge)) -- not possible
    | some x => (sh, .put s name x.w.getvalue)
  | .put s name m => ({ sh with cache := nameSet name { type := s.type, size := s.size, reader := .ofMap m } sh.cache }, .done (.ok (.name name)))
  | .has sha => (sh, .done (.ok (.has (nameGet sha sh.cache).isSome)))
  | .done r => (sh, .done r)

/-- A database with threads using it, `gitdb/db/mem.py` 32-65. -/
structure MSys (zl : Zlib) where
  sh : MShared zl
  threads : List MPc

/-- One step of thread `i` (`gitdb/db/mem.py` 49-65). -/
def MSys.step (H : Hash) {zl : Zlib} (s : MSys zl) (i : Nat) : MSys zl :=
  match s.threads[i]? with
  | none => s
  | some pc => ⟨(mstep H zl s.sh pc).1, s.threads.set i (mstep H zl s.sh pc).2⟩

/-- An execution: which thread takes the next step is given by `sched` (`gitdb/db/mem.py` 49-65). -/
def MSys.run (H : Hash) {zl : Zlib} (s : MSys zl) (sched : List Nat) : MSys zl := sched.foldl (MSys.step H) s

/-- A call: `store(istream)` or `has_object(sha)`, `gitdb/db/mem.py` 49-65. -/
inductive MCall where
  | store (s : MStore)
  | has (sha : Bytes)
  deriving DecidableEq, Repr

/-- The thread before its first step, `gitdb/db/mem.py` 49, 64. -/
def MCall.start : MCall → MPc
  | .store s => .new s
  | .has sha => .has sha

end GitDB
