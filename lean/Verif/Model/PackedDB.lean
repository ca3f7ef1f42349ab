import Verif.Model.Pack
/-!
# `PackedDB`: `gitdb/db/pack.py`

The state of the directory is an argument of every call, so that it may change between calls (not during one).
Simplifications: paths are names in the directory; a pack file is read when its entity is created (the code maps
it then), an index file when it is first used (as in the code); the root path contains none of the special
characters of `glob`, which the code does not escape (`Model/Glob.lean`, C77); `st_mtime` is an integer.
-/
set_option autoImplicit false

namespace GitDB

/-- The directory of a `PackedDB`: its modification time, its files with their contents. -/
structure PackDir where
  mtime : Int
  files : List (Bytes × Bytes)
  deriving DecidableEq, Repr

/-- Contents of a file. -/
def PackDir.get (d : PackDir) (name : Bytes) : Option Bytes :=
  (d.files.find? fun f => f.1 == name).map Prod.snd

/-- `pack-`, `.pack`, `.idx`. -/
def packPrefix : Bytes := [0x70, 0x61, 0x63, 0x6b, 0x2d]
def packSuffix : Bytes := [0x2e, 0x70, 0x61, 0x63, 0x6b]
def idxSuffix : Bytes := [0x2e, 0x69, 0x64, 0x78]

/-- The pattern `pack-*.pack`, `gitdb/db/pack.py` 149. -/
def isPackName (name : Bytes) : Bool :=
  packPrefix.isPrefixOf name && packSuffix.isSuffixOf (name.drop 5)

/-- `glob.glob(os.path.join(root, "pack-*.pack"))`, `gitdb/db/pack.py` 149. -/
def PackDir.packs (d : PackDir) : List Bytes := (d.files.map Prod.fst).filter isPackName

/-- The index of a pack, `gitdb/pack.py` 669-672. -/
def idxName (pack : Bytes) : Bytes := pack.take (pack.length - 5) ++ idxSuffix

/-- An item of `_entities`, `gitdb/db/pack.py` 43-46: hits, and the entity with its pack file and, once it is mapped,
its index file (`item[2]` is `sha_to_index` of the index). -/
structure PackItem where
  hits : Nat
  path : Bytes
  pack : PackFile
  idx : Option Bytes := none
  deriving DecidableEq, Repr

/-- The index of an item, mapped and parsed on demand (`gitdb/pack.py` 266-302).  A missing file is looked for again
next time; a file that was mapped stays mapped. -/
def PackItem.index (dir : PackDir) (it : PackItem) : PackItem × Res IndexFile :=
  match it.idx with
  | some c => (it, IndexFile.load c)
  | none =>
    match dir.get (idxName it.path) with
    | none => (it, .error .fileNotFound)
    | some c => ({ it with idx := some c }, IndexFile.load c)

/-- `item[2](sha)`: `sha_to_index` with an index that may have to be loaded (after `sha[0]`). -/
def PackItem.find (dir : PackDir) (it : PackItem) (sha : Bytes) : PackItem × Res (Option Nat) :=
  if sha = [] then (it, .error .indexError)
  else
    match it.index dir with
    | (it, .error e) => (it, .error e)
    | (it, .ok x) => (it, x.shaToIndex sha)

/-- `PackedDB(root)`, `gitdb/db/pack.py` 41-49; `none`: `_entities` not yet loaded. -/
structure PackedDB where
  entities : Option (List PackItem) := none
  hitCount : Nat := 0
  mtime : Int := 0
  deriving DecidableEq, Repr

/-- Insertion into a list in descending order, before equal elements. -/
def insertItem (it : PackItem) : List PackItem → List PackItem
  | [] => [it]
  | x :: l => if x.hits ≤ it.hits then it :: x :: l else x :: insertItem it l

/-- `_sort_entities()`, `gitdb/db/pack.py` 57-58: stable, most hits first.  (Stability fixes the result, so any stable
algorithm will do.) -/
def sortItems : List PackItem → List PackItem
  | [] => []
  | it :: l => insertItem it (sortItems l)

/-- The loop over new packs, `gitdb/db/pack.py` 153-157.  An exception leaves the items added so far. -/
def addPacks (dir : PackDir) : List Bytes → List PackItem → List PackItem × Res Unit
  | [], items => (items, .ok ())
  | p :: ps, items =>
    match dir.get p with
    | none => (items, .error .fileNotFound)
    | some c =>
      match PackFile.load c with
      | .error e => (items, .error e)
      | .ok pk => addPacks dir ps (items ++ [{ hits := pk.size, path := p, pack := pk }])

/-- The loop over removed packs, `gitdb/db/pack.py` 161-170. -/
def dropPacks : List Bytes → List PackItem → List PackItem
  | [], items => items
  | p :: ps, items => dropPacks ps (items.eraseP fun it => it.path == p)

/-- `gitdb/db/pack.py` 149-175 with `_entities = items`.  `order` is the order in which sets are
iterated over. -/
def refreshItems (order : List Bytes → List Bytes) (dir : PackDir) (items : List PackItem) :
    List PackItem × Res Unit :=
  let files := dir.packs
  let ours := items.map PackItem.path
  match addPacks dir (order (files.filter fun f => decide (f ∉ ours))) items with
  | (items, .error e) => (items, .error e)
  | (items, .ok ()) => (sortItems (dropPacks (order (ours.filter fun f => decide (f ∉ files))) items), .ok ())

/-- First access to `_entities`: `_set_cache_`, `gitdb/db/pack.py` 51-54, and the forced `update_cache` it calls.  After an
exception `_entities` exists, and is not loaded again. -/
def PackedDB.load (order : List Bytes → List Bytes) (dir : Option PackDir) (db : PackedDB) :
    PackedDB × Res (List PackItem) :=
  match db.entities with
  | some l => (db, .ok l)
  | none =>
    match dir with
    | none => ({ db with entities := some [] }, .error .fileNotFound)
    | some dir =>
      match refreshItems order dir [] with
      | (l, .error e) => ({ db with entities := some l, mtime := dir.mtime }, .error e)
      | (l, .ok ()) => ({ db with entities := some l, mtime := dir.mtime }, .ok l)

/-- `update_cache(force)`, `gitdb/db/pack.py` 132-175.  `dir = none`: the directory does not exist. -/
def PackedDB.updateCache (order : List Bytes → List Bytes) (dir : Option PackDir) (force : Bool)
    (db : PackedDB) : PackedDB × Res Bool :=
  match dir with
  | none => (db, .error .fileNotFound)
  | some d =>
    if force = false ∧ d.mtime ≤ db.mtime then (db, .ok false)
    else
      match PackedDB.load order dir { db with mtime := d.mtime } with
      | (db, .error e) => (db, .error e)
      | (db, .ok l) =>
        match refreshItems order d l with
        | (l, .error e) => ({ db with entities := some l }, .error e)
        | (l, .ok ()) => ({ db with entities := some l }, .ok true)

/-- The loop of `_pack_info`, `gitdb/db/pack.py` 73-80. -/
def scanItems (dir : PackDir) (sha : Bytes) : List PackItem → List PackItem × Res (Option (PackItem × Nat))
  | [] => ([], .ok none)
  | it :: l =>
    match it.find dir sha with
    | (it, .error e) => (it :: l, .error e)
    | (it, .ok (some i)) =>
      let it := { it with hits := it.hits + 1 }
      (it :: l, .ok (some (it, i)))
    | (it, .ok none) =>
      let r := scanItems dir sha l
      (it :: r.1, r.2)

/-- `_sort_interval`, `gitdb/db/pack.py` 39. -/
def sortInterval : Nat := 500

/-- A missing directory has no files. -/
def dirFiles (dir : Option PackDir) : PackDir := dir.getD { mtime := 0, files := [] }

/-- `_pack_info(sha)`, `gitdb/db/pack.py` 60-85. -/
def PackedDB.packInfo (order : List Bytes → List Bytes) (dir : Option PackDir) (db : PackedDB) (sha : Bytes) :
    PackedDB × Res (PackItem × Nat) :=
  match db.load order dir with
  | (db, .error e) => (db, .error e)
  | (db, .ok l) =>
    let l := if db.hitCount % sortInterval = 0 then sortItems l else l
    match scanItems (dirFiles dir) sha l with
    | (l, .error e) => ({ db with entities := some l }, .error e)
    | (l, .ok (some r)) => ({ db with entities := some l, hitCount := db.hitCount + 1 }, .ok r)
    | (l, .ok none) => ({ db with entities := some l }, .error .badObject)

/-- `has_object(sha)`, `gitdb/db/pack.py` 89-95. -/
def PackedDB.hasObject (order : List Bytes → List Bytes) (dir : Option PackDir) (db : PackedDB) (sha : Bytes) :
    PackedDB × Res Bool :=
  match db.packInfo order dir sha with
  | (db, .ok _) => (db, .ok true)
  | (db, .error .badObject) => (db, .ok false)
  | (db, .error e) => (db, .error e)

/-- The entity of an item (its index has been loaded by `find`).  Simplification: what an entity answers is what it
answers at the first access; the difference concerns files with a wrong signature only (`Verif.Model.Lazy`). -/
def PackItem.entity (dir : PackDir) (it : PackItem) : Res PackEntity :=
  match (it.index dir).2 with
  | .error e => .error e
  | .ok x => .ok ⟨x, it.pack⟩

/-- `info(sha)`, `gitdb/db/pack.py` 97-99. -/
def PackedDB.info (zl : Zlib) (fuel : Nat) (order : List Bytes → List Bytes) (dir : Option PackDir)
    (db : PackedDB) (sha : Bytes) : PackedDB × Res (PyName × Nat) :=
  match db.packInfo order dir sha with
  | (db, .error e) => (db, .error e)
  | (db, .ok (it, i)) =>
    match it.entity (dirFiles dir) with
    | .error e => (db, .error e)
    | .ok p => (db, p.infoAt zl fuel i)

/-- `stream(sha)`, `gitdb/db/pack.py` 101-103.  The name in the result is the one in the index. -/
def PackedDB.stream (fuel : Nat) (order : List Bytes → List Bytes) (dir : Option PackDir) (db : PackedDB)
    (sha : Bytes) : PackedDB × Res OStream :=
  match db.packInfo order dir sha with
  | (db, .error e) => (db, .error e)
  | (db, .ok (it, i)) =>
    match it.entity (dirFiles dir) with
    | .error e => (db, .error e)
    | .ok p => (db, p.streamAt fuel (p.index.sha i) i)

/-- The indices of all items, loading them in order, stopping at the first failure. -/
def loadIndices (dir : PackDir) : List PackItem → List PackItem × Res (List IndexFile)
  | [] => ([], .ok [])
  | it :: l =>
    match it.index dir with
    | (it, .error e) => (it :: l, .error e)
    | (it, .ok x) =>
      match loadIndices dir l with
      | (l, .error e) => (it :: l, .error e)
      | (l, .ok xs) => (it :: l, .ok (x :: xs))

/-- `size()`, `gitdb/db/pack.py` 114-116. -/
def PackedDB.size (order : List Bytes → List Bytes) (dir : Option PackDir) (db : PackedDB) : PackedDB × Res Nat :=
  match db.load order dir with
  | (db, .error e) => (db, .error e)
  | (db, .ok l) =>
    match loadIndices (dirFiles dir) l with
    | (l, .error e) => ({ db with entities := some l }, .error e)
    | (l, .ok xs) => ({ db with entities := some l }, .ok ((xs.map IndexFile.size).foldl (· + ·) 0))

/-- `sha_iter()`, `gitdb/db/pack.py` 105-110, as a list (an exception in the middle of the iteration counts as an
exception of the whole). -/
def PackedDB.shaIter (order : List Bytes → List Bytes) (dir : Option PackDir) (db : PackedDB) :
    PackedDB × Res (List Bytes) :=
  match db.load order dir with
  | (db, .error e) => (db, .error e)
  | (db, .ok l) =>
    match loadIndices (dirFiles dir) l with
    | (l, .error e) => ({ db with entities := some l }, .error e)
    | (l, .ok xs) => ({ db with entities := some l }, .ok (xs.flatMap fun x => (List.range x.size).map x.sha))

/-- One step of `partial_to_complete_sha`: `partial_sha_to_index` and `sha` of one pack,
`gitdb/db/pack.py` 191-193.  The length is checked before the index is loaded. -/
def PackItem.complete (dir : PackDir) (it : PackItem) (part : Bytes) (n : Nat) : PackItem × Res (Option Bytes) :=
  if part.length < 2 then (it, .error .valueError)
  else
    match it.index dir with
    | (it, .error e) => (it, .error e)
    | (it, .ok x) =>
      match x.partialShaToIndex part n with
      | .error e => (it, .error e)
      | .ok none => (it, .ok none)
      | .ok (some i) => (it, .ok (some (x.sha i)))

/-- The loop of `partial_to_complete_sha`, `gitdb/db/pack.py` 190-197.  A name is never empty. -/
def completeLoop (dir : PackDir) (part : Bytes) (n : Nat) :
    List PackItem → Option Bytes → List PackItem × Res (Option Bytes)
  | [], cand => ([], .ok cand)
  | it :: l, cand =>
    match it.complete dir part n with
    | (it, .error e) => (it :: l, .error e)
    | (it, .ok none) => let r := completeLoop dir part n l cand; (it :: r.1, r.2)
    | (it, .ok (some sha)) =>
      if cand.any (fun c => decide (c ≠ [] ∧ c ≠ sha)) then (it :: l, .error .ambiguousObjectName)
      else let r := completeLoop dir part n l (some sha); (it :: r.1, r.2)

/-- `partial_to_complete_sha(partial_binsha, canonical_length)`, `gitdb/db/pack.py` 181-204. -/
def PackedDB.partialToComplete (order : List Bytes → List Bytes) (dir : Option PackDir) (db : PackedDB)
    (part : Bytes) (n : Nat) : PackedDB × Res Bytes :=
  match db.load order dir with
  | (db, .error e) => (db, .error e)
  | (db, .ok l) =>
    match completeLoop (dirFiles dir) part n l none with
    | (l, .error e) => ({ db with entities := some l }, .error e)
    | (l, .ok (some [])) | (l, .ok none) => ({ db with entities := some l }, .error .badObject)
    | (l, .ok (some sha)) => ({ db with entities := some l }, .ok sha)

end GitDB
