import Verif.Model.DeltaReader
/-!
# Applying deltas when memory is limited

`Model/DeltaReader.lean` allocates whatever is asked for.  Here an allocation may fail: for sizes above `limit` the exception `e` is
raised.  With `limit = 2 ^ 63 - 1` and `OverflowError` this is `mmap.mmap(-1, size)` itself, which cannot take larger numbers (only
`OSError` is caught, `gitdb/util.py` 152-154).  Simplification: whether an allocation fails depends on its size alone.
-/
set_option autoImplicit false

namespace GitDB

/-- `allocate_memory(size)`, `gitdb/util.py` 146-160, where sizes above `limit` raise `e`. -/
def allocateUpTo (limit : Nat) (e : Err) (size : Int) : Res Buf :=
  if size > limit then .error e else allocateMemory size

variable {σ : Type}

/-- `applyOne` (`gitdb/stream.py` 446-469) with `allocateUpTo`. -/
def applyOneUpTo (limit : Nat) (e : Err) (fuel : Nat) (read : σ → Int → σ × Res Bytes) (bbuf tbuf : Buf) (d : DeltaInfo σ) :
    Res (Buf × Buf) :=
  if (d.size : Int) - d.offset > limit then .error e else applyOne fuel read bbuf tbuf d

/-- `applyAll` (`gitdb/stream.py` 446-470) with `allocateUpTo`. -/
def applyAllUpTo (limit : Nat) (e : Err) (fuel : Nat) (read : σ → Int → σ × Res Bytes) :
    List (DeltaInfo σ) → Buf → Buf → Res (Buf × Buf)
  | [], bbuf, tbuf => .ok (bbuf, tbuf)
  | d :: ds, bbuf, tbuf => do
    let (bbuf, tbuf) ← applyOneUpTo limit e fuel read bbuf tbuf d
    applyAllUpTo limit e fuel read ds bbuf tbuf

/-- `setCacheBrute` (`gitdb/stream.py` 404-476) with `allocateUpTo`. -/
def setCacheBruteUpTo (limit : Nat) (e : Err) (fuel : Nat) (read : σ → Int → σ × Res Bytes) (dstreams : List (σ × Nat))
    (bstream : σ × Nat) : Res (Buf × Nat) := do
  let infos ← readDeltaHeads read dstreams
  let maxTargetSize := infos.foldl (fun m d => max m d.targetSize) 0
  let baseSize := bstream.2
  let targetSize := maxTargetSize
  let (baseSize, targetSize) :=
    if dstreams.length > 1 then (max baseSize maxTargetSize, max baseSize maxTargetSize)
    else (baseSize, targetSize)
  let bbuf ← allocateUpTo limit e baseSize
  let bbuf ← match streamCopy fuel read Buf.write baseSize (256 * PAGESIZE : Nat) bstream.1 bbuf with
    | (_, b, .ok _) => Except.ok b
    | (_, _, .error e) => Except.error e
  let tbuf ← allocateUpTo limit e targetSize
  let (bbuf, _) ← applyAllUpTo limit e fuel read infos.reverse bbuf tbuf
  match infos with
  | [] => .error .typeError
  | d :: _ => return (bbuf, d.targetSize)

/-- `newDeltaReader` (`gitdb/stream.py` 360-368) with `allocateUpTo`. -/
def newDeltaReaderUpTo (limit : Nat) (e : Err) (fuel : Nat) (read : σ → Int → σ × Res Bytes) (streams : List (σ × Nat)) :
    Res DeltaReader :=
  match streams.reverse with
  | base :: d :: ds => do
    let (t, n) ← setCacheBruteUpTo limit e fuel read (d :: ds).reverse base
    return ⟨t, n, 0⟩
  | _ => .error .assertionError

end GitDB
