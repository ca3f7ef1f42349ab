import Verif.Model.DeltaReader
import Verif.Model.MergeDeltas
/-!
# `DeltaApplyReader` with merged deltas: `_set_cache_too_slow_without_c`, `gitdb/stream.py` 370-402

The alternative to `_set_cache_brute_`, used if the C extension is present (479-482).  Modelled with the
Python version of `connect_deltas` (`gitdb/fun.py` 536-618); the C extension itself is not modelled.
-/
set_option autoImplicit false

namespace GitDB

variable {σ : Type}

/-- `db = ds.read()` and `ds.size` for every stream, `gitdb/fun.py` 548, 558.
Simplification: all streams are read at once, while `connect_deltas` reads one after the other, and the last
ones not at all if no chunk refers to them. -/
def readContents (read : σ → Int → σ × Res Bytes) : List (σ × Nat) → Res (List (Bytes × Nat))
  | [] => .ok []
  | (s, n) :: rest =>
    match read s (-1) with
    | (_, .error e) => .error e
    | (_, .ok db) => do
      let l ← readContents read rest
      return (db, n) :: l

/-- `_set_cache_too_slow_without_c`, `gitdb/stream.py` 370-402: `(_mm_target, _size)`.
A negative `rbound()` (impossible for lists made by `connect_deltas`) would make `allocate_memory` raise. -/
def setCacheMerged (o : PyOps) (fuel : Nat) (read : σ → Int → σ × Res Bytes) (dstreams : List (σ × Nat))
    (bstream : σ × Nat) : Res (Buf × Nat) :=
  if dstreams.length = 1 then setCacheBrute fuel read dstreams bstream
  else do
    let contents ← readContents read dstreams
    let dcl ← connectDeltas o contents
    if listRbound dcl = 0 then
      let t ← allocateMemory 0
      return (t, 0)
    else
      let target ← allocateMemory (listRbound dcl)
      let bbuf ← allocateMemory bstream.2
      let bbuf ← match streamCopy fuel read Buf.write bstream.2 (256 * PAGESIZE : Nat) bstream.1 bbuf with
        | (_, b, .ok _) => Except.ok b
        | (_, _, .error e) => Except.error e
      match listApply bbuf.data Buf.write target dcl with
      | (t, .ok ()) => return (t.seek0, (listRbound dcl).toNat)
      | (_, .error e) => .error e

/-- `DeltaApplyReader(stream_list)` (`gitdb/stream.py` 360-368) followed by the first access to `_size` or
`_mm_target`, where `_set_cache_` is `_set_cache_too_slow_without_c` (481-482). -/
def newMergedReader (o : PyOps) (fuel : Nat) (read : σ → Int → σ × Res Bytes) (streams : List (σ × Nat)) :
    Res DeltaReader :=
  match streams.reverse with
  | base :: d :: ds => do
    let (t, n) ← setCacheMerged o fuel read (d :: ds).reverse base
    return ⟨t, n, 0⟩
  | _ => .error .assertionError

end GitDB
