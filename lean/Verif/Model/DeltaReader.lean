import Verif.Model.Copy
import Verif.Model.Delta
import Verif.Model.Varint
/-!
# `DeltaApplyReader`: `gitdb/stream.py` 322-548

Only the path without the C extension (`_set_cache_ = _set_cache_brute_`, 479-480).
-/
set_option autoImplicit false

namespace GitDB

/-- Memory returned by `allocate_memory` (`gitdb/util.py` 146-160) with its file position.
`fixed`: an anonymous `mmap` of constant size; otherwise (`size == 0`) a growing `BytesIO`.
(The branch for a failing `mmap` is in `Model/FileMemory.lean`.) -/
structure Buf where
  data : Bytes
  pos : Nat
  fixed : Bool
  deriving DecidableEq, Repr

/-- `allocate_memory(size)`, `gitdb/util.py` 146-160.  `mmap.mmap(-1, size)` with a negative size raises
`OverflowError`.  Simplification: so does one of `2 ^ 63` or more, which is in `Model/DeltaMemory.lean` only. -/
def allocateMemory (size : Int) : Res Buf :=
  if size = 0 then .ok ⟨[], 0, false⟩
  else if size < 0 then .error .overflowError
  else .ok ⟨List.replicate size.toNat 0, 0, true⟩

/-- `mmap.write` / `BytesIO.write` at the current position: `mmap` raises `ValueError` if the data does not
fit; both return the number of bytes. -/
def Buf.write (b : Buf) (d : Bytes) : Buf × Res Unit :=
  if b.fixed ∧ b.data.length < b.pos + d.length then (b, .error .valueError)
  else ({ b with data := b.data.take b.pos ++ d ++ b.data.drop (b.pos + d.length),
                 pos := b.pos + d.length }, .ok ())

/-- `read(n)` for `n ≥ 0`. -/
def Buf.read (b : Buf) (n : Nat) : Buf × Bytes :=
  let d := (b.data.drop b.pos).take n
  ({ b with pos := b.pos + d.length }, d)

/-- `seek(0)`. -/
def Buf.seek0 (b : Buf) : Buf := { b with pos := 0 }

variable {σ : Type}

/-- An entry of `buffer_info_list` (`gitdb/stream.py` 415) together with the state of its stream:
`(buf[offset:], offset, src_size, target_size)`, stream size, stream. -/
structure DeltaInfo (σ : Type) where
  dbuf : Bytes
  offset : Nat
  srcSize : Nat
  targetSize : Nat
  size : Nat
  strm : σ

/-- `gitdb/stream.py` 412-415 for one delta stream of the given `size`. -/
def readDeltaHead (read : σ → Int → σ × Res Bytes) (strm : σ) (size : Nat) : Res (DeltaInfo σ) :=
  match read strm 512 with
  | (_, .error e) => .error e
  | (s, .ok buf) => do
    let (offset, srcSize) ← msbSize buf 0
    let (offset, targetSize) ← msbSize buf offset
    return ⟨buf.drop offset, offset, srcSize, targetSize, size, s⟩

/-- `gitdb/stream.py` 411-417: the heads of all delta streams, topmost first. -/
def readDeltaHeads (read : σ → Int → σ × Res Bytes) : List (σ × Nat) → Res (List (DeltaInfo σ))
  | [] => .ok []
  | (s, n) :: rest => do
    let d ← readDeltaHead read s n
    let ds ← readDeltaHeads read rest
    return d :: ds

/-- One iteration of the loop `gitdb/stream.py` 446-469: returns the swapped buffers `(bbuf, tbuf)`. -/
def applyOne (fuel : Nat) (read : σ → Int → σ × Res Bytes) (bbuf tbuf : Buf) (d : DeltaInfo σ) :
    Res (Buf × Buf) := do
  let ddata ← allocateMemory ((d.size : Int) - d.offset)
  let ddata ← match ddata.write d.dbuf with
    | (b, .ok ()) => Except.ok b
    | (_, .error e) => Except.error e
  let ddata ← match streamCopy fuel read Buf.write d.size (256 * PAGESIZE : Nat) d.strm ddata with
    | (_, b, .ok _) => Except.ok b
    | (_, _, .error e) => Except.error e
  let tbuf ← match applyDeltaData bbuf.data d.srcSize ddata.data ddata.data.length Buf.write tbuf with
    | (b, .ok ()) => Except.ok b
    | (_, .error e) => Except.error e
  return (tbuf.seek0, bbuf.seek0)

/-- The loop `gitdb/stream.py` 446-470 over the deltas in order of application. -/
def applyAll (fuel : Nat) (read : σ → Int → σ × Res Bytes) :
    List (DeltaInfo σ) → Buf → Buf → Res (Buf × Buf)
  | [], bbuf, tbuf => .ok (bbuf, tbuf)
  | d :: ds, bbuf, tbuf => do
    let (bbuf, tbuf) ← applyOne fuel read bbuf tbuf d
    applyAll fuel read ds bbuf tbuf

/-- `_set_cache_brute_`, `gitdb/stream.py` 404-476: `(_mm_target, _size)`.
`dstreams` (topmost first) and `bstream` come with their `size` attribute.
After an exception the streams have been read in part: that is in `Model/DeltaRetry.lean`. -/
def setCacheBrute (fuel : Nat) (read : σ → Int → σ × Res Bytes) (dstreams : List (σ × Nat))
    (bstream : σ × Nat) : Res (Buf × Nat) := do
  let infos ← readDeltaHeads read dstreams
  let maxTargetSize := infos.foldl (fun m d => max m d.targetSize) 0
  let baseSize := bstream.2
  let targetSize := maxTargetSize
  let (baseSize, targetSize) :=
    if dstreams.length > 1 then (max baseSize maxTargetSize, max baseSize maxTargetSize)
    else (baseSize, targetSize)
  let bbuf ← allocateMemory baseSize
  let bbuf ← match streamCopy fuel read Buf.write baseSize (256 * PAGESIZE : Nat) bstream.1 bbuf with
    | (_, b, .ok _) => Except.ok b
    | (_, _, .error e) => Except.error e
  let tbuf ← allocateMemory targetSize
  let (bbuf, _) ← applyAll fuel read infos.reverse bbuf tbuf
  match infos with
  | [] => .error .typeError   -- `_size` would be None; excluded by the assertion in `__init__`
  | d :: _ => return (bbuf, d.targetSize)

/-- State of a `DeltaApplyReader` whose cache has been set. -/
structure DeltaReader where
  target : Buf
  size : Nat
  br : Nat
  deriving DecidableEq, Repr

/-- `read(count)`, `gitdb/stream.py` 486-494. -/
def DeltaReader.read (r : DeltaReader) (count : Int) : DeltaReader × Bytes :=
  let bl : Int := (r.size : Int) - r.br
  let count := if count < 1 ∨ count > bl then bl else count
  let (t, data) := r.target.read count.toNat
  ({ r with target := t, br := r.br + data.length }, data)

/-- `seek(offset, whence)`, `gitdb/stream.py` 496-504. -/
def DeltaReader.seek (r : DeltaReader) (offset whence : Int) : Res DeltaReader :=
  if offset ≠ 0 ∨ whence ≠ 0 then .error .valueError
  else .ok { r with br := 0, target := r.target.seek0 }

/-- `DeltaApplyReader(stream_list)` (`gitdb/stream.py` 360-368) followed by the first access to `_size`
or `_mm_target`. -/
def newDeltaReader (fuel : Nat) (read : σ → Int → σ × Res Bytes) (streams : List (σ × Nat)) :
    Res DeltaReader :=
  match streams.reverse with
  | base :: d :: ds => do
    let (t, n) ← setCacheBrute fuel read (d :: ds).reverse base
    return ⟨t, n, 0⟩
  | _ => .error .assertionError

end GitDB
