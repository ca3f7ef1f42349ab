import Verif.Model.Compound
/-!
# `ReferenceDB` and `GitDB`: `gitdb/db/ref.py`, `gitdb/db/git.py`

Paths of databases and the contents of alternates files are text (`str`).
Simplifications: whether a directory exists and what is in it is given by the root path as a string (a relative path is
one of the strings, relative to the working directory as in the code); `os.path.exists` says whether there is a
directory `pack`, a root directory, a file `info/alternates`.
-/
set_option autoImplicit false

namespace GitDB

/-- `str`. -/
abbrev Text := List Char

/-! ### the alternates file -/

/-- Where `str.splitlines` splits (besides `\r\n`), which is what iterating over a `codecs.StreamReader` does
(`gitdb/db/ref.py` 45-46). -/
def isBreak (c : Char) : Bool :=
  c ∈ [Char.ofNat 10, Char.ofNat 11, Char.ofNat 12, Char.ofNat 13, Char.ofNat 0x1c, Char.ofNat 0x1d, Char.ofNat 0x1e,
    Char.ofNat 0x85, Char.ofNat 0x2028, Char.ofNat 0x2029]

/-- What `str.strip` removes: `str.isspace`. -/
def isSpace (c : Char) : Bool :=
  isBreak c || (c ∈ [Char.ofNat 9, Char.ofNat 0x1f, ' ', Char.ofNat 0xa0, Char.ofNat 0x1680, Char.ofNat 0x202f,
    Char.ofNat 0x205f, Char.ofNat 0x3000]) || (decide (0x2000 ≤ c.toNat) && decide (c.toNat ≤ 0x200a))

/-- The lines of a file, without what ends them (`cur`: the current line so far, reversed). -/
def splitLines (cur : Text) : Text → List Text
  | [] => if cur = [] then [] else [cur.reverse]
  | [c] => if isBreak c then [cur.reverse] else [(c :: cur).reverse]
  | c :: d :: r =>
    if c = Char.ofNat 13 ∧ d = Char.ofNat 10 then cur.reverse :: splitLines [] r
    else if isBreak c then cur.reverse :: splitLines [] (d :: r)
    else splitLines (c :: cur) (d :: r)

/-- `l.strip()`. -/
def strip (l : Text) : Text := ((l.dropWhile isSpace).reverse.dropWhile isSpace).reverse

/-- The paths in the file, `gitdb/db/ref.py` 43-49.  The argument is what opening, reading and decoding the file gives.  Only
`OSError` is caught (`FileNotFoundError` and `PermissionError` are `OSError`s), `UnicodeDecodeError` is not. -/
def refPaths : Res Text → Res (List Text)
  | .ok t => .ok ((splitLines [] t).map strip)
  | .error .osError | .error .fileNotFound | .error .permissionError => .ok []
  | .error e => .error e

/-! ### `ReferenceDB` -/

/-- The databases of a `ReferenceDB` with their `root_path()`. -/
abbrev Refs (σ : Type) := List (Text × σ)

/-- The inner loop of the removal, `gitdb/db/ref.py` 56-60: over a copy of the list, deleting from the list itself. -/
def removePath {σ : Type} (path : Text) : List (Text × σ) → Nat → Refs σ → Res (Refs σ)
  | [], _, dbs => .ok dbs
  | d :: copy, i, dbs =>
    if d.1 = path then
      if i < dbs.length then removePath path copy (i + 1) (dbs.eraseIdx i) else .error .indexError
    else removePath path copy (i + 1) dbs

/-- The removal, `gitdb/db/ref.py` 55-61. -/
def removePaths {σ : Type} : List Text → Refs σ → Res (Refs σ)
  | [], dbs => .ok dbs
  | p :: ps, dbs =>
    match removePath p dbs 0 dbs with
    | .error e => .error e
    | .ok dbs => removePaths ps dbs

/-- The members of a list in the order of their first positions: `sorted(set(l), key=l.index)`, `gitdb/db/ref.py` 65. -/
def firsts : List Text → List Text → List Text
  | _, [] => []
  | seen, p :: l => if p ∈ seen then firsts seen l else p :: firsts (p :: seen) l

/-- The loop adding databases, `gitdb/db/ref.py` 66-77.  `mk path` is `dbcls(path)` with the verification; `none`: it raised an
exception, which is ignored. -/
def addRefs {σ : Type} (mk : Text → Option σ) : List Text → Refs σ → Refs σ
  | [], dbs => dbs
  | p :: ps, dbs =>
    match mk p with
    | some s => addRefs mk ps (dbs ++ [(p, s)])
    | none => addRefs mk ps dbs

/-- `_update_dbs_from_ref_file()`, `gitdb/db/ref.py` 34-77.  `order` is the order in which sets are iterated over. -/
def updateRefs {σ : Type} (order : List Text → List Text) (mk : Text → Option σ) (file : Res Text) (dbs : Refs σ) :
    Refs σ × Res Unit :=
  match refPaths file with
  | .error e => (dbs, .error e)
  | .ok paths =>
    let cur := dbs.map Prod.fst
    match removePaths (order (firsts [] (cur.filter fun p => decide (p ∉ paths)))) dbs with
    | .error e => (dbs, .error e)
    | .ok dbs' => (addRefs mk ((firsts [] paths).filter fun p => decide (p ∉ cur)) dbs', .ok ())

/-- `ReferenceDB(ref_file)`, `gitdb/db/ref.py` 22-24; `none`: `_dbs` not yet loaded.  The cache is that of `CompoundDB`. -/
structure RefDB (σ : Type) where
  dbs : Option (Refs σ) := none
  cache : List (Bytes × Nat) := []

/-- First access to `_dbs`, `gitdb/db/ref.py` 26-32.  After an exception `_dbs` exists, and is not loaded again. -/
def RefDB.load {σ : Type} (order : List Text → List Text) (mk : Text → Option σ) (file : Res Text) (db : RefDB σ) :
    RefDB σ × Res (Refs σ) :=
  match db.dbs with
  | some l => (db, .ok l)
  | none =>
    match updateRefs order mk file [] with
    | (l, .error e) => ({ db with dbs := some l }, .error e)
    | (l, .ok ()) => ({ db with dbs := some l }, .ok l)

/-- The first part of `update_cache`, `gitdb/db/ref.py` 79-82: re-reading the file.  (If `_dbs` has not been loaded, the access to it in
line 54 loads it first, after the file has been read.)  The rest is `CompoundDB.update_cache`, which begins with clearing the cache. -/
def RefDB.refresh {σ : Type} (order : List Text → List Text) (mk : Text → Option σ) (file : Res Text) (db : RefDB σ) :
    RefDB σ × Res Unit :=
  match refPaths file with
  | .error e => (db, .error e)
  | .ok _ =>
    match db.load order mk file with
    | (db, .error e) => (db, .error e)
    | (db, .ok l) =>
      match updateRefs order mk file l with
      | (l, .error e) => ({ db with dbs := some l }, .error e)
      | (l, .ok ()) => ({ dbs := some l, cache := [] }, .ok ())

/-! ### `GitDB` -/

/-- The part of the file system below the root paths: the directory `pack`, the root directory with what `os.walk` yields, and
the file `info/alternates` (what reading it gives). -/
structure Disk where
  pack : Text → Option PackDir
  loose : Text → Option (Fs × List (Bytes × List Bytes))
  alt : Text → Option (Res Text)

/-- The databases of a `GitDB`. -/
inductive Sub where
  | pack | loose | ref
  deriving DecidableEq, Repr

/-- `GitDB._set_cache_('_dbs')`, `gitdb/db/git.py` 44-72: the list that `_dbs` is left with, and the outcome. -/
def gitDbs (D : Disk) (root : Text) : List Sub × Res Unit :=
  let dbs := (if (D.pack root).isSome then [Sub.pack] else []) ++ (if (D.loose root).isSome then [.loose] else []) ++
    (if (D.alt root).isSome then [.ref] else [])
  if dbs = [] then (dbs, .error .invalidDBRoot)
  else if (D.loose root).isNone then (dbs, .error .assertionError)
  else (dbs, .ok ())

/-- `GitDB(root)`: `none`: `_dbs` not yet loaded. -/
structure GitRoot where
  dbs : Option (List Sub) := none
  deriving DecidableEq, Repr

/-- Access to `_dbs`.  After an exception it exists, and is not loaded again. -/
def GitRoot.load (D : Disk) (root : Text) (g : GitRoot) : GitRoot × Res (List Sub) :=
  match g.dbs with
  | some l => (g, .ok l)
  | none =>
    match gitDbs D root with
    | (l, .error e) => ({ dbs := some l }, .error e)
    | (l, .ok ()) => ({ dbs := some l }, .ok l)

/-- `dbcls(path)` with `db.databases()`, `gitdb/db/ref.py` 67-73, for `GitDB`. -/
def mkGit (D : Disk) (path : Text) : Option GitRoot :=
  match ({} : GitRoot).load D path with
  | (g, .ok _) => some g
  | (_, .error _) => none

/-- The databases a new `ReferenceDB` for the alternates file of this root uses. -/
def altRoots (D : Disk) (root : Text) : List Text :=
  match D.alt root with
  | none => []
  | some file => (updateRefs id (mkGit D) file []).1.map Prod.fst

/-! ### lookups -/

/-- The databases at the ends, with their root paths.  `stop` stands for the recursion limit of the interpreter. -/
inductive GitLeaf where
  | stop
  | pack (root : Text) (db : PackedDB)
  | loose (root : Text) (db : LooseDB)

/-- Directory of a loose database. -/
def Disk.looseAt (D : Disk) (root : Text) : Fs × List (Bytes × List Bytes) := (D.loose root).getD (fun _ => none, [])

/-- The operations of the databases at the ends. -/
def leafOps {α : Type} (order : List Bytes → List Bytes) (getP : Option PackDir → PackedDB → Bytes → PackedDB × Res α)
    (getL : Fs → Bytes → Res α) : DbOps Disk GitLeaf α where
  has := fun D x sha => match x with
    | .stop => (.stop, .error .diverge)
    | .pack r db => let y := (packedOps order getP).has (D.pack r) db sha; (.pack r y.1, y.2)
    | .loose r db => let y := (looseOps getL).has (D.looseAt r) db sha; (.loose r y.1, y.2)
  get := fun D x sha => match x with
    | .stop => (.stop, .error .diverge)
    | .pack r db => let y := (packedOps order getP).get (D.pack r) db sha; (.pack r y.1, y.2)
    | .loose r db => let y := (looseOps getL).get (D.looseAt r) db sha; (.loose r y.1, y.2)
  size := fun D x => match x with
    | .stop => (.stop, .error .diverge)
    | .pack r db => let y := (packedOps order getP).size (D.pack r) db; (.pack r y.1, y.2)
    | .loose r db => let y := (looseOps getL).size (D.looseAt r) db; (.loose r y.1, y.2)
  shas := fun D x => match x with
    | .stop => (.stop, .error .diverge)
    | .pack r db => let y := (packedOps order getP).shas (D.pack r) db; (.pack r y.1, y.2)
    | .loose r db => let y := (looseOps getL).shas (D.looseAt r) db; (.loose r y.1, y.2)
  update := fun D x f => match x with
    | .stop => (.stop, .error .diverge)
    | .pack r db => let y := (packedOps order getP).update (D.pack r) db f; (.pack r y.1, y.2)
    | .loose r db => let y := (looseOps getL).update (D.looseAt r) db f; (.loose r y.1, y.2)
  complete := fun D x part => match x with
    | .stop => (.stop, .error .diverge)
    | .pack r db => let y := (packedOps order getP).complete (D.pack r) db part; (.pack r y.1, y.2)
    | .loose r db => let y := (looseOps getL).complete (D.looseAt r) db part; (.loose r y.1, y.2)

/-- A new `GitDB` as a tree of databases, following alternates up to depth `n` (what is below is created when it is used; the
interpreter gives up at some depth).  Simplification: the files do not change while this happens, so that creating everything at
once makes no difference. -/
def gitTree (D : Disk) : (n : Nat) → Text → Nest GitLeaf (2 * n)
  | 0, _ => GitLeaf.stop
  | n + 1, root =>
    let ref : Nest GitLeaf (2 * n + 1) := .inr { dbs := (altRoots D root).map (gitTree D n) }
    .inr { dbs := (gitDbs D root).1.map fun
      | .pack => (.inl (.pack root {}) : Nest GitLeaf (2 * n + 1))
      | .loose => .inl (.loose root {})
      | .ref => ref }

end GitDB
