import Verif.Model.PackedDB
import Verif.Model.Memory
/-!
# `CompoundDB`: `gitdb/db/base.py` 141-278

A database is a state `σ` with the operations of `ObjectDBR`; `ω` is what lies outside of the process (files), an argument of
every call.  Compound databases are built over any kind of database, so they can be nested to any depth (`Nest`).
Simplification: `_dbs` is set (for `ReferenceDB` and `GitDB` see `Verif.Model.Alternates`).
-/
set_option autoImplicit false

namespace GitDB

/-- The operations of a database.  `get` is `info` or `stream`; `update` is `update_cache(force)`, which databases that are
not `CachingDB`s do not have (`none`); `complete` is the branch of `gitdb/db/base.py` 260-263 for a database that is not a
`CompoundDB`, with the abbreviation in hex. -/
structure DbOps (ω σ α : Type) where
  has : ω → σ → Bytes → σ × Res Bool
  get : ω → σ → Bytes → σ × Res α
  size : ω → σ → σ × Res Nat
  shas : ω → σ → σ × Res (List Bytes)
  update : ω → σ → Bool → σ × Res (Option Bool)
  complete : ω → σ → Bytes → σ × Res Bytes

/-- `CompoundDB`, `gitdb/db/base.py` 166-179: `_dbs` and `_db_cache`.  A database in the cache is one of `_dbs`, given by its
position. -/
structure Compound (σ : Type) where
  dbs : List σ
  cache : List (Bytes × Nat) := []

section
variable {ω σ α : Type} (O : DbOps ω σ α) (w : ω)

/-- The loop of `_db_query`, `gitdb/db/base.py` 192-195. -/
def scanDbs (sha : Bytes) : List σ → Nat → List σ × Res (Option Nat)
  | [], _ => ([], .ok none)
  | s :: l, i =>
    match O.has w s sha with
    | (s, .error e) => (s :: l, .error e)
    | (s, .ok true) => (s :: l, .ok (some i))
    | (s, .ok false) => let r := scanDbs sha l (i + 1); (s :: r.1, r.2)

/-- `_db_query(sha)`, `gitdb/db/base.py` 181-197. -/
def Compound.query (c : Compound σ) (sha : Bytes) : Compound σ × Res Nat :=
  match nameGet sha c.cache with
  | some i => (c, .ok i)
  | none =>
    match scanDbs O w sha c.dbs 0 with
    | (dbs, .error e) => ({ c with dbs := dbs }, .error e)
    | (dbs, .ok (some i)) => ({ dbs := dbs, cache := nameSet sha i c.cache }, .ok i)
    | (dbs, .ok none) => ({ c with dbs := dbs }, .error .badObject)

/-- `has_object(sha)`, `gitdb/db/base.py` 201-207. -/
def Compound.has (c : Compound σ) (sha : Bytes) : Compound σ × Res Bool :=
  match c.query O w sha with
  | (c, .ok _) => (c, .ok true)
  | (c, .error .badObject) => (c, .ok false)
  | (c, .error e) => (c, .error e)

/-- An operation on the database at a position. -/
def onDb {β : Type} (f : σ → σ × Res β) : List σ → Nat → List σ × Res β
  | [], _ => ([], .error .indexError)
  | s :: l, 0 => let r := f s; (r.1 :: l, r.2)
  | s :: l, i + 1 => let r := onDb f l i; (s :: r.1, r.2)

/-- `info(sha)` and `stream(sha)`, `gitdb/db/base.py` 209-213. -/
def Compound.get (c : Compound σ) (sha : Bytes) : Compound σ × Res α :=
  match c.query O w sha with
  | (c, .error e) => (c, .error e)
  | (c, .ok i) =>
    let r := onDb (fun s => O.get w s sha) c.dbs i
    ({ c with dbs := r.1 }, r.2)

/-- The databases one after the other, collecting the results; stops at an exception. -/
def eachDb {β : Type} (f : σ → σ × Res β) : List σ → List σ × Res (List β)
  | [] => ([], .ok [])
  | s :: l =>
    match f s with
    | (s, .error e) => (s :: l, .error e)
    | (s, .ok x) =>
      match eachDb f l with
      | (l, .error e) => (s :: l, .error e)
      | (l, .ok xs) => (s :: l, .ok (x :: xs))

/-- `size()`, `gitdb/db/base.py` 215-217. -/
def Compound.size (c : Compound σ) : Compound σ × Res Nat :=
  let r := eachDb (O.size w) c.dbs
  ({ c with dbs := r.1 }, r.2.map fun ns => ns.foldl (· + ·) 0)

/-- `sha_iter()`, `gitdb/db/base.py` 219-220, as a list; an exception in the middle counts as an exception of the whole. -/
def Compound.shas (c : Compound σ) : Compound σ × Res (List Bytes) :=
  let r := eachDb (O.shas w) c.dbs
  ({ c with dbs := r.1 }, r.2.map List.flatten)

/-- `update_cache(force)`, `gitdb/db/base.py` 230-239.  The cache is empty afterwards, also after an exception. -/
def Compound.update (c : Compound σ) (force : Bool) : Compound σ × Res (Option Bool) :=
  let r := eachDb (fun s => O.update w s force) c.dbs
  ({ dbs := r.1, cache := [] }, r.2.map fun bs => some (bs.any (· == some true)))

/-- The loop of `partial_to_complete_sha_hex` over databases that are not compound, `gitdb/db/base.py` 256-276. -/
def completeDbs (part : Bytes) : List σ → Option Bytes → List σ × Res (Option Bytes)
  | [], cand => ([], .ok cand)
  | s :: l, cand =>
    match O.complete w s part with
    | (s, .error .badObject) => let r := completeDbs part l cand; (s :: r.1, r.2)
    | (s, .error e) => (s :: l, .error e)
    | (s, .ok full) =>
      if full = [] then let r := completeDbs part l cand; (s :: r.1, r.2)
      else if cand.any (fun c => decide (c ≠ [] ∧ c ≠ full)) then (s :: l, .error .ambiguousObjectName)
      else let r := completeDbs part l (some full); (s :: r.1, r.2)

/-- The conversion of the abbreviation and the end of the method, `gitdb/db/base.py` 248-253 and 274-276, around the loop over
the databases `run`.  (The databases are collected before, which has no effect.)  Simplification: the abbreviation is ASCII;
`force_text` decodes it as UTF-8, which fails with `UnicodeDecodeError` for other bytes, and counts characters (`Model/AbbrevText.lean`). -/
def completeHex {τ : Type} (run : τ → τ × Res (Option Bytes)) (t : τ) (part : Bytes) : τ × Res Bytes :=
  match hexToBin (if part.length % 2 ≠ 0 then part ++ [0x30] else part) with
  | .error e => (t, .error e)
  | .ok _ =>
    match run t with
    | (t, .error e) => (t, .error e)
    | (t, .ok none) | (t, .ok (some [])) => (t, .error .badObject)
    | (t, .ok (some full)) => (t, .ok full)

/-- `partial_to_complete_sha_hex(partial)`, `gitdb/db/base.py` 241-276, of a database whose databases are not compound. -/
def Compound.complete (c : Compound σ) (part : Bytes) : Compound σ × Res Bytes :=
  completeHex (fun c : Compound σ => let r := completeDbs O w part c.dbs none; ({ c with dbs := r.1 }, r.2)) c part

/-- `CompoundDB` as a database. -/
def compoundOps : DbOps ω (Compound σ) α where
  has := fun w c sha => c.has O w sha
  get := fun w c sha => c.get O w sha
  size := fun w c => c.size O w
  shas := fun w c => c.shas O w
  update := fun w c force => c.update O w force
  complete := fun w c part => c.complete O w part
end

/-- Databases of two kinds. -/
def sumOps {ω σ τ α : Type} (O : DbOps ω σ α) (P : DbOps ω τ α) : DbOps ω (σ ⊕ τ) α where
  has := fun w x sha => match x with
    | .inl s => let r := O.has w s sha; (.inl r.1, r.2)
    | .inr s => let r := P.has w s sha; (.inr r.1, r.2)
  get := fun w x sha => match x with
    | .inl s => let r := O.get w s sha; (.inl r.1, r.2)
    | .inr s => let r := P.get w s sha; (.inr r.1, r.2)
  size := fun w x => match x with
    | .inl s => let r := O.size w s; (.inl r.1, r.2)
    | .inr s => let r := P.size w s; (.inr r.1, r.2)
  shas := fun w x => match x with
    | .inl s => let r := O.shas w s; (.inl r.1, r.2)
    | .inr s => let r := P.shas w s; (.inr r.1, r.2)
  update := fun w x force => match x with
    | .inl s => let r := O.update w s force; (.inl r.1, r.2)
    | .inr s => let r := P.update w s force; (.inr r.1, r.2)
  complete := fun w x part => match x with
    | .inl s => let r := O.complete w s part; (.inl r.1, r.2)
    | .inr s => let r := P.complete w s part; (.inr r.1, r.2)

/-- Databases and compound databases of them, nested up to depth `n`. -/
def Nest (σ : Type) : Nat → Type
  | 0 => σ
  | n + 1 => σ ⊕ Compound (Nest σ n)

/-- `partial_to_complete_sha_hex` is only called on databases that are not compound, so `complete` of the nested databases is
given separately (`nestComplete`). -/
def nestOps {ω σ α : Type} (O : DbOps ω σ α) : (n : Nat) → DbOps ω (Nest σ n) α
  | 0 => O
  | n + 1 => sumOps O (compoundOps (nestOps O n))

/-- `isinstance(db, CompoundDB)`. -/
def isCompound {σ : Type} : (n : Nat) → Nest σ n → Bool
  | 0, _ => false
  | _ + 1, .inl _ => false
  | _ + 1, .inr _ => true

/-- `_databases_recursive(database, output)`, `gitdb/db/base.py` 153-162: what is added to `output`. -/
def databasesRecursive {σ : Type} : (n : Nat) → Nest σ n → List σ
  | 0, s => [s]
  | _ + 1, .inl s => [s]
  | n + 1, .inr c =>
    (c.dbs.filter fun d => !isCompound n d).flatMap (databasesRecursive n) ++
      (c.dbs.filter fun d => isCompound n d).flatMap (databasesRecursive n)

/-- Putting back databases which were collected with `_databases_recursive` and have changed (they are shared objects in the
code): gives the database with the changed parts, and the rest of the list. -/
def putBackList {τ β : Type} (put : τ → List β → τ × List β) (sel : τ → Bool) : List τ → List β → List τ × List β
  | [], l => ([], l)
  | d :: ds, l =>
    if sel d then
      let r := put d l
      let r' := putBackList put sel ds r.2
      (r.1 :: r'.1, r'.2)
    else
      let r := putBackList put sel ds l
      (d :: r.1, r.2)

def putBack {σ : Type} : (n : Nat) → Nest σ n → List σ → Nest σ n × List σ
  | 0, s, l => (l.headD s, l.tail)
  | _ + 1, .inl s, l => (.inl (l.headD s), l.tail)
  | n + 1, .inr c, l =>
    let r := putBackList (putBack n) (fun d => !isCompound n d) c.dbs l
    let r' := putBackList (putBack n) (fun d => isCompound n d) r.1 r.2
    (.inr { c with dbs := r'.1 }, r'.2)

/-- `partial_to_complete_sha_hex(partial)`, `gitdb/db/base.py` 241-276. -/
def nestComplete {ω σ α : Type} (O : DbOps ω σ α) (w : ω) (n : Nat) (t : Nest σ n) (part : Bytes) : Nest σ n × Res Bytes :=
  completeHex (fun t => let r := completeDbs O w part (databasesRecursive n t) none; ((putBack n t r.1).1, r.2)) t part

/-! ### The databases there are -/

/-- `PackedDB` as a database.  `partial_to_complete_sha` gets the binary form and the number of digits,
`gitdb/db/base.py` 250-253 and 263. -/
def packedOps {α : Type} (order : List Bytes → List Bytes)
    (get : Option PackDir → PackedDB → Bytes → PackedDB × Res α) : DbOps (Option PackDir) PackedDB α where
  has := fun d db sha => db.hasObject order d sha
  get := get
  size := fun d db => db.size order d
  shas := fun d db => db.shaIter order d
  update := fun d db force => let r := db.updateCache order d force; (r.1, r.2.map some)
  complete := fun d db part =>
    match hexToBin (if part.length % 2 ≠ 0 then part ++ [0x30] else part) with
    | .error e => (db, .error e)
    | .ok bin => db.partialToComplete order d bin part.length

/-- `LooseObjectDB` as a database; the world is the file system and what `os.walk` yields. -/
def looseOps {α : Type} (get : Fs → Bytes → Res α) :
    DbOps (Fs × List (Bytes × List Bytes)) LooseDB α where
  has := fun w db sha => let r := db.hasObject w.1 sha; (r.1, .ok r.2)
  get := fun w db sha => (db, get w.1 sha)
  size := fun w db => (db, shaCount (shaIter w.2))
  shas := fun w db => (db, (shaIter w.2).mapM id)
  update := fun _ db _ => (db, .ok none)
  complete := fun w db part => (db, loosePartial w.2 part)

/-- `MemoryDB` as a database.  It has no method for abbreviations: `AttributeError`, `gitdb/db/base.py` 263. -/
def memoryOps : DbOps Unit MemDB MemObj where
  has := fun _ db sha => (db, .ok (db.hasObject sha))
  get := fun _ db sha => db.stream sha
  size := fun _ db => (db, .ok db.size)
  shas := fun _ db => (db, .ok db.shaIter)
  update := fun _ db _ => (db, .ok none)
  complete := fun _ db _ => (db, .error .attributeError)

end GitDB
