import Verif.Model.Loose
import Verif.Model.DeltaReader
/-!
# Memory: `gitdb/util.py` 97-189

`_RandomAccessBytesIO`, `allocate_memory` with the branch for a failing `mmap`, and what `file_contents_ro` returns.
Which system calls fail, and how much one `os.read` returns, is arbitrary.
-/
set_option autoImplicit false

namespace GitDB

/-- An open file: its bytes and the position of the descriptor. -/
structure OpenFile where
  bytes : Bytes
  pos : Nat
  deriving DecidableEq, Repr

/-- What the system does during `file_contents_ro`: does mapping work (176, 179), which size does `fstat`
report (`none`: `OSError`), and how many bytes does `os.read` return at most (`none`: `OSError`). -/
structure FileEnv where
  map1 : Bool
  stat1 : Option Nat
  map2 : Bool
  stat2 : Option Nat
  read : Option Nat
  deriving DecidableEq, Repr

/-- The objects that `file_contents_ro` returns: an `mmap`, `bytes`, or a `_RandomAccessBytesIO`; the first
and the last with their file position. -/
inductive Contents where
  | map (data : Bytes) (pos : Nat)
  | bytes (data : Bytes)
  | wrapped (data : Bytes) (pos : Nat)
  deriving DecidableEq, Repr

/-- `mmap.mmap(fd, n, access=ACCESS_READ)`: `n = 0` stands for the size of the file; an empty file and
a length beyond the end raise `ValueError`. -/
def mapFd (works : Bool) (n : Nat) (f : OpenFile) : Res Contents :=
  if f.bytes = [] then .error .valueError
  else if n > f.bytes.length then .error .valueError
  else if works = false then .error .osError
  else .ok (.map (if n = 0 then f.bytes else f.bytes.take n) 0)

/-- The manual part of `file_contents_ro`, `gitdb/util.py` 185-189: one `os.read` from the position of the
descriptor. -/
def readManually (env : FileEnv) (stream : Bool) (f : OpenFile) : OpenFile × Res Contents :=
  match env.stat2, env.read with
  | some n, some k =>
    let d := ((f.bytes.drop f.pos).take n).take k
    ({ f with pos := f.pos + d.length }, .ok (if stream then .wrapped d 0 else .bytes d))
  | _, _ => (f, .error .osError)

/-- `file_contents_ro(fd, stream, allow_mmap)`, `gitdb/util.py` 163-189. -/
def fileContents (env : FileEnv) (stream allowMmap : Bool) (f : OpenFile) : OpenFile × Res Contents :=
  if allowMmap then
    match mapFd env.map1 0 f with
    | .ok c => (f, .ok c)
    | .error .osError =>
      match env.stat1 with
      | none => readManually env stream f
      | some n =>
        match mapFd env.map2 n f with
        | .ok c => (f, .ok c)
        | .error .osError => readManually env stream f
        | .error e => (f, .error e)
    | .error e => (f, .error e)
  else readManually env stream f

/-- `len(m)`; `_RandomAccessBytesIO.__len__`, `gitdb/util.py` 109-110. -/
def Contents.len : Contents → Nat
  | .map d _ => d.length
  | .bytes d => d.length
  | .wrapped d _ => d.length

/-- `m[i]` for `i ≥ 0`; `_RandomAccessBytesIO.__getitem__`, `gitdb/util.py` 112-113. -/
def Contents.item (m : Contents) (i : Nat) : Res Nat :=
  match m with
  | .map d _ => pyIndex d i
  | .bytes d => pyIndex d i
  | .wrapped d _ => pyIndex d i

/-- `m[i:j]` for `i, j ≥ 0`; a slice is passed to `__getitem__`, `gitdb/util.py` 112-113 (`__getslice__`, 115-116, is
not called by Python 3). -/
def Contents.slice (m : Contents) (i j : Nat) : Bytes :=
  match m with
  | .map d _ => pySlice d i j
  | .bytes d => pySlice d i j
  | .wrapped d _ => pySlice d i j

/-- `m.read(n)`: of the map, of the `BytesIO` (through `__getattr__`, `gitdb/util.py` 106-107); `bytes` has none.
Negative `n`: everything. -/
def Contents.read (m : Contents) (n : Int) : Contents × Res Bytes :=
  let upto (d : Bytes) (pos : Nat) : Bytes :=
    if n < 0 then d.drop pos else (d.drop pos).take n.toNat
  match m with
  | .map d pos => (.map d (pos + (upto d pos).length), .ok (upto d pos))
  | .bytes d => (.bytes d, .error .attributeError)
  | .wrapped d pos => (.wrapped d (pos + (upto d pos).length), .ok (upto d pos))

/-- `file_contents_ro_filepath(path, flags=flags)`, `gitdb/util.py` 192-209, as `_map_loose_object` uses it, when the
file can be opened; a directory can be opened, but neither mapped nor read. -/
def contentsOfNode (env : FileEnv) (n : Node) : Res Contents :=
  match n with
  | .dir => .error .osError
  | .file d _ => (fileContents env false true ⟨d, 0⟩).2

/-- The bytes behind a memory object, to be read through `m[i:j]` only. -/
def Contents.data : Contents → Bytes
  | .map d _ => d
  | .bytes d => d
  | .wrapped d _ => d

/-- `_map_loose_object(sha)`, `gitdb/db/loose.py` 127-146, as `mapLooseObject`, with what the system does during the two
attempts. -/
def mapLooseObjectIn (fs : Fs) (noatime second : Bool) (env1 env2 : FileEnv) (sha : Bytes) : Res Contents :=
  match fs (objectPath (binToHex sha)) with
  | none => .error .badObject
  | some n =>
    match (if noatime then contentsOfNode env1 n else .error .osError) with
    | .error .osError =>
      match (if second then contentsOfNode env2 n else .error .osError) with
      | .error .osError => .error .badObject
      | r => r
    | r => r

/-- `stream(sha)`, `gitdb/db/loose.py` 164-167, as `looseStream`, with what the system does. -/
def looseStreamIn (zl : Zlib) (fs : Fs) (noatime second : Bool) (env1 env2 : FileEnv) (sha : Bytes) :
    Res (Bytes × Int × Reader) :=
  match mapLooseObjectIn fs noatime second env1 env2 sha with
  | .error e => .error e
  | .ok m => Reader.new zl m.data

/-- `allocate_memory(size)`, `gitdb/util.py` 146-160; `works`: does `mmap` succeed.  (Memory for the replacement is
always available.) -/
def allocateIn (works : Bool) (size : Int) : Res Buf :=
  if size = 0 then .ok ⟨[], 0, false⟩
  else if size < 0 then .error .overflowError
  else if works then .ok ⟨List.replicate size.toNat 0, 0, true⟩
  else .ok ⟨List.replicate size.toNat 0, 0, false⟩

variable {σ : Type}

/-- `applyOne` (`gitdb/stream.py` 446-469) with `allocateIn`. -/
def applyOneIn (works : Bool) (fuel : Nat) (read : σ → Int → σ × Res Bytes) (bbuf tbuf : Buf) (d : DeltaInfo σ) :
    Res (Buf × Buf) := do
  let ddata ← allocateIn works ((d.size : Int) - d.offset)
  let ddata ← match ddata.write d.dbuf with
    | (b, .ok ()) => Except.ok b
    | (_, .error e) => Except.error e
  let ddata ← match streamCopy fuel read Buf.write d.size (256 * PAGESIZE : Nat) d.strm ddata with
    | (_, b, .ok _) => Except.ok b
    | (_, _, .error e) => Except.error e
  let tbuf ← match applyDeltaData bbuf.data d.srcSize ddata.data ddata.data.length Buf.write tbuf with
    | (b, .ok ()) => Except.ok b
    | (_, .error e) => Except.error e
  return (tbuf.seek0, bbuf.seek0)

/-- `applyAll` (`gitdb/stream.py` 446-470) with `allocateIn`; `works i`: the call for the i-th delta. -/
def applyAllIn (works : Nat → Bool) (fuel : Nat) (read : σ → Int → σ × Res Bytes) :
    Nat → List (DeltaInfo σ) → Buf → Buf → Res (Buf × Buf)
  | _, [], bbuf, tbuf => .ok (bbuf, tbuf)
  | i, d :: ds, bbuf, tbuf => do
    let (bbuf, tbuf) ← applyOneIn (works i) fuel read bbuf tbuf d
    applyAllIn works fuel read (i + 1) ds bbuf tbuf

/-- `setCacheBrute` (`gitdb/stream.py` 404-476) with `allocateIn`; `works i`: does the i-th call of `mmap` succeed. -/
def setCacheBruteIn (works : Nat → Bool) (fuel : Nat) (read : σ → Int → σ × Res Bytes)
    (dstreams : List (σ × Nat)) (bstream : σ × Nat) : Res (Buf × Nat) := do
  let infos ← readDeltaHeads read dstreams
  let maxTargetSize := infos.foldl (fun m d => max m d.targetSize) 0
  let baseSize := bstream.2
  let targetSize := maxTargetSize
  let (baseSize, targetSize) :=
    if dstreams.length > 1 then (max baseSize maxTargetSize, max baseSize maxTargetSize)
    else (baseSize, targetSize)
  let bbuf ← allocateIn (works 0) baseSize
  let bbuf ← match streamCopy fuel read Buf.write baseSize (256 * PAGESIZE : Nat) bstream.1 bbuf with
    | (_, b, .ok _) => Except.ok b
    | (_, _, .error e) => Except.error e
  let tbuf ← allocateIn (works 1) targetSize
  let (bbuf, _) ← applyAllIn works fuel read 2 infos.reverse bbuf tbuf
  match infos with
  | [] => .error .typeError
  | d :: _ => return (bbuf, d.targetSize)

/-- `newDeltaReader` (`gitdb/stream.py` 360-368) with `allocateIn`. -/
def newDeltaReaderIn (works : Nat → Bool) (fuel : Nat) (read : σ → Int → σ × Res Bytes)
    (streams : List (σ × Nat)) : Res DeltaReader :=
  match streams.reverse with
  | base :: d :: ds => do
    let (t, n) ← setCacheBruteIn works fuel read (d :: ds).reverse base
    return ⟨t, n, 0⟩
  | _ => .error .assertionError

end GitDB
