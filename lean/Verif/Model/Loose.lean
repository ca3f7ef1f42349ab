import Verif.Model.Fs
import Verif.Model.Writers
import Verif.Model.Decomp
/-!
# `LooseObjectDB`: `gitdb/db/loose.py` 63-268
-/
set_option autoImplicit false

namespace GitDB

/-- An `IStream` (`gitdb/base.py` 202-280) around a stream of type `σ`; the attribute `error` is not
used. -/
structure IStream (σ : Type) where
  type : Bytes
  size : Nat
  binsha : Option Bytes := none
  strm : σ

/-- `stream_chunk_size = chunk_size`, `gitdb/db/loose.py` 69, `gitdb/fun.py` 54. -/
def looseChunk : Int := 1000 * PAGESIZE

/-- `sys.maxsize`. -/
def maxsize : Int := 2 ^ 63 - 1

/-- `new_objects_mode`, `gitdb/db/loose.py` 73. -/
def newObjectsMode : Nat := 0o444

/-- Result of one `chmod`. -/
inductive ChmodOutcome where
  | ok
  /-- `PermissionError` -/
  | denied
  /-- another `OSError` -/
  | fail
  deriving DecidableEq, Repr

/-- Everything the operating system decides during one `store`. -/
structure StoreEnv where
  /-- random part of the name chosen by `mkstemp`; `none`: it raises -/
  tmp : Option Bytes
  /-- the `write(2)`s -/
  plan : List WriteOutcome := []
  /-- does the `remove` after an exception succeed? -/
  cleanup : Bool := true
  /-- does `makedirs` succeed? -/
  mkdir : Bool := true
  /-- answer of `isfile` -/
  isfile : Bool
  /-- does the following `remove` or `rename` succeed? -/
  move : Bool := true
  /-- the `chmod`s (`ok` when the list is used up) -/
  chmods : List ChmodOutcome := []
  deriving DecidableEq, Repr

/-- `object_path(hexsha)`, `gitdb/db/loose.py` 86-90. -/
def objectPath (hexsha : Bytes) : Path := [hexsha.take 2, hexsha.drop 2]

/-- `mkstemp(prefix='obj', dir=root)`, `gitdb/db/loose.py` 183. -/
def tmpPath (rnd : Bytes) : Path := [[0x6f, 0x62, 0x6a] ++ rnd]

/-- `FDCompressedSha1Writer.write` with the kind of result `write_object` expects. -/
def fdWrite {zl : Zlib} (w : FDCompressedSha1Writer zl) (d : Bytes) :
    FDCompressedSha1Writer zl × Res (Option Int) :=
  match w.write d with
  | (w, .ok n) => (w, .ok (some n))
  | (w, .error e) => (w, .error e)

/-- `finally: writer.close()`, `gitdb/db/loose.py` 203-205: an exception raised by `close` replaces the
first one. -/
def afterClose {α : Type} (r : Res α) (close : Res Unit) : Res Unit :=
  match close, r with
  | .error e, _ => .error e
  | .ok (), .error e => .error e
  | .ok (), .ok _ => .ok ()

variable {σ : Type}

/-- `gitdb/db/loose.py` 185-205 for an object without a name: the data is compressed and hashed.  Results: the pieces
written to the file, the source stream, the outcome, and `writer.sha(as_hex=True)`. -/
def writeNew (H : Hash) (zl : Zlib) (fuel : Nat) (plan : List WriteOutcome)
    (read : σ → Int → σ × Res Bytes) (i : IStream σ) : List Bytes × σ × Res Unit × Bytes :=
  let r := writeObject fuel i.type i.size read fdWrite looseChunk i.strm
    (FDCompressedSha1Writer.new zl { plan := plan })
  let c := r.2.1.close
  (c.1.fd.chunks, r.1, afterClose r.2.2 c.2, c.1.sha1.sha H true)

/-- `gitdb/db/loose.py` 187-205 for an object with a name: the stream is copied as it is. -/
def writeRaw (fuel : Nat) (plan : List WriteOutcome) (read : σ → Int → σ × Res Bytes) (i : IStream σ) :
    List Bytes × σ × Res Unit :=
  let r := streamCopy fuel read FDStream.write maxsize looseChunk i.strm
    ({ fd := { plan := plan } } : FDStream)
  let c := r.2.1.fd.close
  (c.1.chunks, r.1, afterClose r.2.2 c.2)

/-- The retry loop, `gitdb/db/loose.py` 236-246: 14 attempts, continuing only after a
`PermissionError`. -/
def chmodLoop (p : Path) : Nat → List ChmodOutcome → List Ev × Res Unit
  | 0, _ => ([], .error .permissionError)
  | _ + 1, [] => ([.chmod p newObjectsMode], .ok ())
  | _ + 1, .ok :: _ => ([.chmod p newObjectsMode], .ok ())
  | _ + 1, .fail :: _ => ([], .error .osError)
  | n + 1, .denied :: cs => chmodLoop p n cs

/-- `gitdb/db/loose.py` 220-246: move the finished file to its place.  `makedirs` creates the only missing level. -/
def publish (env : StoreEnv) (tmp obj : Path) : List Ev × Res Unit :=
  if env.mkdir = false then ([], .error .osError)
  else
    let pre := [.mkdir obj.dropLast, .isfile obj env.isfile]
    if env.move = false then (pre, .error .osError)
    else
      let mv := if env.isfile then .remove tmp else .rename tmp obj
      let c := chmodLoop obj 14 env.chmods
      (pre ++ mv :: c.1, c.2)

/-- `gitdb/db/loose.py` 213-218: the name.  An `FDStream` has no method `sha`; a name of length 0 is false. -/
def storedName (preset : Option Bytes) (sha : Bytes) : Res Bytes :=
  match preset with
  | none => .ok sha
  | some [] => .error .attributeError
  | some b => .ok (binToHex b)

/-- `store(istream)` without a custom output stream, `gitdb/db/loose.py` 177-251: the system calls made,
the stream afterwards and the outcome. -/
def looseStore (H : Hash) (zl : Zlib) (fuel : Nat) (env : StoreEnv) (read : σ → Int → σ × Res Bytes)
    (i : IStream σ) : List Ev × IStream σ × Res Unit :=
  match env.tmp with
  | none => ([], i, .error .osError)
  | some rnd =>
    let tmp := tmpPath rnd
    let (chunks, s, res, sha) :=
      match i.binsha with
      | none => writeNew H zl fuel env.plan read i
      | some _ => let r := writeRaw fuel env.plan read i; (r.1, r.2.1, r.2.2, [])
    let i := { i with strm := s }
    let evs := .create tmp :: chunks.map (.append tmp)
    match res with
    | .error e =>
      if env.cleanup then (evs ++ [.remove tmp], i, .error e) else (evs, i, .error .osError)
    | .ok () =>
      match storedName i.binsha sha with
      | .error e => (evs, i, .error e)
      | .ok hexsha =>
        let p := publish env tmp (objectPath hexsha)
        match p.2 with
        | .error e => (evs ++ p.1, i, .error e)
        | .ok () =>
          match hexToBin hexsha with
          | .error e => (evs ++ p.1, i, .error e)
          | .ok b => (evs ++ p.1, { i with binsha := some b }, .ok ())

/-- `store(istream)` with a custom output stream (`set_ostream`), `gitdb/db/loose.py` 177-251: no file is involved. -/
def looseStoreTo {ω : Type} (fuel : Nat) (read : σ → Int → σ × Res Bytes)
    (write : ω → Bytes → ω × Res (Option Int)) (sha : ω → Bytes) (i : IStream σ) (w : ω) :
    ω × IStream σ × Res Unit :=
  let r := match i.binsha with
    | some _ => streamCopy fuel read write maxsize looseChunk i.strm w
    | none => writeObject fuel i.type i.size read write looseChunk i.strm w
  let j := { i with strm := r.1 }
  match r.2.2 with
  | .error e => (r.2.1, j, .error e)
  | .ok _ =>
    let hexsha := match i.binsha with
      | none | some [] => sha r.2.1
      | some b => binToHex b
    match hexToBin hexsha with
    | .error e => (r.2.1, j, .error e)
    | .ok b => (r.2.1, { j with binsha := some b }, .ok ())

/-! ## Lookups -/

/-- The state of a `LooseObjectDB`: the keys of `_hexsha_to_file` (the value of a key is its path). -/
structure LooseDB where
  known : List Bytes := []
  deriving DecidableEq, Repr

/-- `readable_db_object_path(hexsha)`, `gitdb/db/loose.py` 92-106. -/
def LooseDB.readablePath (fs : Fs) (db : LooseDB) (hexsha : Bytes) : LooseDB × Res Path :=
  if hexsha ∈ db.known then (db, .ok (objectPath hexsha))
  else if (fs (objectPath hexsha)).isSome then
    ({ known := hexsha :: db.known }, .ok (objectPath hexsha))
  else (db, .error .badObject)

/-- `has_object(sha)`, `gitdb/db/loose.py` 169-175. -/
def LooseDB.hasObject (fs : Fs) (db : LooseDB) (sha : Bytes) : LooseDB × Bool :=
  match db.readablePath fs (binToHex sha) with
  | (db, .ok _) => (db, true)
  | (db, .error _) => (db, false)

/-- `file_contents_ro_filepath(path)`, `gitdb/util.py` 163-209, when the file can be opened.  An empty
file cannot be mapped (`ValueError`); reading a directory fails.  Simplification: `mmap` itself succeeds
(otherwise the contents are read; `C75_loose`). -/
def mapFile (n : Option Node) : Res Bytes :=
  match n with
  | none => .error .fileNotFound
  | some .dir => .error .osError
  | some (.file [] _) => .error .valueError
  | some (.file d _) => .ok d

/-- `_map_loose_object(sha)`, `gitdb/db/loose.py` 127-146.  `noatime`, `second`: would opening an existing
file with `O_NOATIME` and without it succeed?  (`self._fd_open_flags = 0` in line 142 is never
reached, so every call tries both.) -/
def mapLooseObject (fs : Fs) (noatime second : Bool) (sha : Bytes) : Res Bytes :=
  match fs (objectPath (binToHex sha)) with
  | none => .error .badObject
  | some n =>
    match (if noatime then mapFile (some n) else .error .osError) with
    | .error .osError =>
      match (if second then mapFile (some n) else .error .osError) with
      | .error .osError => .error .badObject
      | r => r
    | r => r

/-- `info(sha)`, `gitdb/db/loose.py` 154-162: type and size. -/
def looseInfo (zl : Zlib) (fs : Fs) (noatime second : Bool) (sha : Bytes) : Res (Bytes × Int) :=
  match mapLooseObject fs noatime second sha with
  | .error e => .error e
  | .ok m => looseObjectHeaderInfo zl m

/-- `stream(sha)`, `gitdb/db/loose.py` 164-167: type, size and the decompressing stream. -/
def looseStream (zl : Zlib) (fs : Fs) (noatime second : Bool) (sha : Bytes) :
    Res (Bytes × Int × Reader) :=
  match mapLooseObject fs noatime second sha with
  | .error e => .error e
  | .ok m => Reader.new zl m

/-- The inner loop of `sha_iter()`, `gitdb/db/loose.py` 260-263.  An exception of `hex_to_bin` is an element
of the list; consumers stop there. -/
def shaIterFiles (base : Bytes) : List Bytes → List (Res Bytes)
  | [] => []
  | f :: fs => if f.length ≠ 38 then shaIterFiles base fs else hexToBin (base ++ f) :: shaIterFiles base fs

/-- `sha_iter()`, `gitdb/db/loose.py` 253-265, given what `os.walk` yields: base name of each directory and
names of its files (in file system encoding).  Simplification: the lengths 2 and 38 are counted in characters by the code and in bytes
here; they agree for names in ASCII (`Model/AbbrevText.lean`). -/
def shaIter (walk : List (Bytes × List Bytes)) : List (Res Bytes) :=
  walk.flatMap fun d => if d.1.length ≠ 2 then [] else shaIterFiles d.1 d.2

/-- `size()`, `gitdb/db/loose.py` 267-268: an exception of the iteration comes through. -/
def shaCount : List (Res Bytes) → Res Nat
  | [] => .ok 0
  | .error e :: _ => .error e
  | .ok _ :: r =>
    match shaCount r with
    | .ok n => .ok (n + 1)
    | .error e => .error e

/-- The loop of `partial_to_complete_sha_hex(partial)`, `gitdb/db/loose.py` 108-123. -/
def partialLoop (part : Bytes) : Option Bytes → List (Res Bytes) → Res Bytes
  | none, [] => .error .badObject
  | some c, [] => .ok c
  | _, .error e :: _ => .error e
  | cand, .ok b :: r =>
    if part.isPrefixOf (binToHex b) then
      match cand with
      | some _ => .error .ambiguousObjectName
      | none => partialLoop part (some b) r
    else partialLoop part cand r

/-- `partial_to_complete_sha_hex(partial)`, `gitdb/db/loose.py` 108-123. -/
def loosePartial (walk : List (Bytes × List Bytes)) (part : Bytes) : Res Bytes :=
  partialLoop part none (shaIter walk)

end GitDB
