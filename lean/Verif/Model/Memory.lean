import Verif.Model.Loose
/-!
# `MemoryDB`: `gitdb/db/mem.py`
-/
set_option autoImplicit false

namespace GitDB

/-- `d[k] = v` for a `dict`: the place of an existing key is kept, a new key goes to the end. -/
def nameSet {α : Type} (k : Bytes) (v : α) : List (Bytes × α) → List (Bytes × α)
  | [] => [(k, v)]
  | (k', v') :: r => if k' = k then (k, v) :: r else (k', v') :: nameSet k v r

/-- `d[k]`, with `none` for `KeyError`. -/
def nameGet {α : Type} (k : Bytes) : List (Bytes × α) → Option α
  | [] => none
  | (k', v') :: r => if k' = k then some v' else nameGet k r

/-- An `OStream` kept by the database (`gitdb/base.py` 121-143): type, size and the shared stream. -/
structure MemObj where
  type : Bytes
  size : Nat
  reader : Reader
  deriving DecidableEq, Repr

/-- `MemoryDB()`, `gitdb/db/mem.py` 39-44: `_cache`. -/
structure MemDB where
  cache : List (Bytes × MemObj) := []
  deriving DecidableEq, Repr

/-- `DecompressMemMapReader(m, close_on_deletion=False)`, `gitdb/stream.py` 69-83, without a size: `_s` is missing. -/
def Reader.ofMap (m : Bytes) : Reader := { m := m, s := 0, hasS := false }

/-- `ZippedStoreShaWriter.write` with the kind of result `write_object` expects. -/
def zippedWrite {zl : Zlib} (w : ZippedStoreShaWriter zl) (d : Bytes) :
    ZippedStoreShaWriter zl × Res (Option Int) :=
  match w.write d with
  | (w, .ok n) => (w, .ok (some (n : Int)))
  | (w, .error e) => (w, .error e)

variable {σ : Type}

/-- `store(istream)`, `gitdb/db/mem.py` 49-62. -/
def MemDB.store (H : Hash) (zl : Zlib) (fuel : Nat) (read : σ → Int → σ × Res Bytes) (db : MemDB)
    (i : IStream σ) : MemDB × IStream σ × Res Unit :=
  let r := looseStoreTo fuel read zippedWrite (fun w => w.sha1.sha H true) i (ZippedStoreShaWriter.new zl)
  match r.2.2 with
  | .error e => (db, r.2.1, .error e)
  | .ok () =>
    match r.1.close.seek 0 0 with
    | (_, .error e) => (db, r.2.1, .error e)
    | (w, .ok ()) =>
      match r.2.1.binsha with
      | none => (db, r.2.1, .error .typeError) -- not reached: `store` has set the name
      | some b =>
        ({ cache := nameSet b { type := i.type, size := i.size, reader := .ofMap w.getvalue } db.cache },
          r.2.1, .ok ())

/-- `has_object(sha)`, `gitdb/db/mem.py` 64-65. -/
def MemDB.hasObject (db : MemDB) (sha : Bytes) : Bool := (nameGet sha db.cache).isSome

/-- `stream(sha)`, `gitdb/db/mem.py` 71-79 (also `info`, 67-69): the shared object, rewound. -/
def MemDB.stream (db : MemDB) (sha : Bytes) : MemDB × Res MemObj :=
  match nameGet sha db.cache with
  | none => (db, .error .badObject)
  | some o =>
    match o.reader.seek 0 0 with
    | (_, .error e) => (db, .error e)
    | (r, .ok ()) => ({ cache := nameSet sha { o with reader := r } db.cache }, .ok { o with reader := r })

/-- A client calls `read(n)` on the stream object it got from `stream(sha)`.  It is the object in
the cache. -/
def MemDB.read (zl : Zlib) (db : MemDB) (sha : Bytes) (n : Int) : MemDB × Res Bytes :=
  match nameGet sha db.cache with
  | none => (db, .error .badObject)
  | some o =>
    let r := o.reader.read zl n
    ({ cache := nameSet sha { o with reader := r.1 } db.cache }, r.2)

/-- `size()`, `gitdb/db/mem.py` 81-82. -/
def MemDB.size (db : MemDB) : Nat := db.cache.length

/-- `sha_iter()`, `gitdb/db/mem.py` 84-85. -/
def MemDB.shaIter (db : MemDB) : List Bytes := db.cache.map Prod.fst

/-- `stream_copy(sha_iter, odb)`, `gitdb/db/mem.py` 88-109, into a database with state `τ`, given its
`has_object` and `store`. -/
def MemDB.streamCopy {τ : Type} (has : τ → Bytes → τ × Bool)
    (store : τ → IStream Bytes → τ × Res Unit) : List Bytes → Nat → MemDB → τ → MemDB × τ × Res Nat
  | [], count, db, t => (db, t, .ok count)
  | sha :: shas, count, db, t =>
    match has t sha with
    | (t, true) => streamCopy has store shas count db t
    | (t, false) =>
      match db.stream sha with
      | (db, .error e) => (db, t, .error e)
      | (db, .ok o) =>
        match store t { type := o.type, size := o.size, binsha := some sha, strm := o.reader.m } with
        | (t, .error e) => (db, t, .error e)
        | (t, .ok ()) => streamCopy has store shas (count + 1) db t

/-- A `LooseObjectDB` as a target: the object, its directory, and the decisions of the operating system for the
stores to come. -/
structure LooseTarget where
  fs : Fs
  db : LooseDB := {}
  envs : List StoreEnv

/-- `has_object` of the target. -/
def LooseTarget.has (t : LooseTarget) (sha : Bytes) : LooseTarget × Bool :=
  let r := t.db.hasObject t.fs sha
  ({ t with db := r.1 }, r.2)

/-- `store` of the target, without interference by other processes.  Decisions the operating system cannot take
in this state, or missing ones, count as an error. -/
def LooseTarget.store (H : Hash) (zl : Zlib) (fuel : Nat) (t : LooseTarget) (i : IStream Bytes) :
    LooseTarget × Res Unit :=
  match t.envs with
  | [] => (t, .error .osError)
  | env :: envs =>
    let r := looseStore H zl fuel env bytesIORead i
    match t.fs.run r.1 with
    | none => ({ t with envs := envs }, .error .osError)
    | some fs => ({ t with fs := fs, envs := envs }, r.2.2)

/-- What clients do with a memory database. -/
inductive MemOp (σ : Type) where
  | store (i : IStream σ)
  | stream (sha : Bytes)
  | read (sha : Bytes) (n : Int)

/-- One operation (its result is of no interest here). -/
def MemDB.step (H : Hash) (zl : Zlib) (fuel : Nat) (read : σ → Int → σ × Res Bytes) (db : MemDB) :
    MemOp σ → MemDB
  | .store i => (db.store H zl fuel read i).1
  | .stream sha => (db.stream sha).1
  | .read sha n => (db.read zl sha n).1

end GitDB
