import Verif.Model.FileMemory
/-!
# `DeltaApplyReader` with the streams it consumes: `gitdb/stream.py` 322-548

`Model/DeltaReader.lean` describes the first access to `_size` or `_mm_target` as a function of the streams.  Here the
state of the streams is kept, also after an exception, so that further calls can be described: as `_set_cache_brute_`
assigns `_mm_target` and `_size` in its last two lines (475-476), after an exception the next access calls it again
(`LazyMixin.__getattr__`, `gitdb/util.py` 248-255), with streams that have been read
already.
-/
set_option autoImplicit false

namespace GitDB

/-- What happens in a call of `allocate_memory` (`gitdb/util.py` 146-160): `mmap` succeeds, or it raises `OSError` and
ordinary memory is used (153-160), or there is no memory and an exception (`MemoryError`, which is not in `Err`; any
stands for it) leaves the function. -/
inductive Alloc where
  | mapped
  | heap
  | fails (e : Err)
  deriving DecidableEq, Repr

/-- `allocate_memory(size)`, `gitdb/util.py` 146-160.  The list says what happens in this and in the following calls;
when it is at its end, `mmap` succeeds. -/
def allocateNext : List Alloc → Int → List Alloc × Res Buf
  | [], size => ([], allocateIn true size)
  | .mapped :: as, size => (as, allocateIn true size)
  | .heap :: as, size => (as, allocateIn false size)
  | .fails e :: as, _ => (as, .error e)

variable {σ : Type}

/-- `gitdb/stream.py` 412-415 for one delta stream: as `readDeltaHead`, with the stream afterwards. -/
def tryHead (read : σ → Int → σ × Res Bytes) (strm : σ) (size : Nat) : σ × Res (DeltaInfo σ) :=
  match read strm 512 with
  | (s, .error e) => (s, .error e)
  | (s, .ok buf) =>
    match msbSize buf 0 with
    | .error e => (s, .error e)
    | .ok (offset, srcSize) =>
      match msbSize buf offset with
      | .error e => (s, .error e)
      | .ok (offset, targetSize) => (s, .ok ⟨buf.drop offset, offset, srcSize, targetSize, size, s⟩)

/-- `gitdb/stream.py` 411-417, as `readDeltaHeads`, with the streams afterwards. -/
def tryHeads (read : σ → Int → σ × Res Bytes) : List (σ × Nat) → List (σ × Nat) × Res (List (DeltaInfo σ))
  | [] => ([], .ok [])
  | (s, n) :: rest =>
    match tryHead read s n with
    | (s, .error e) => ((s, n) :: rest, .error e)
    | (s, .ok d) =>
      match tryHeads read rest with
      | (rest, .error e) => ((s, n) :: rest, .error e)
      | (rest, .ok ds) => ((s, n) :: rest, .ok (d :: ds))

/-- One iteration of the loop `gitdb/stream.py` 446-469, as `applyOne`, with the stream afterwards. -/
def tryOne (fuel : Nat) (read : σ → Int → σ × Res Bytes) (as : List Alloc) (bbuf tbuf : Buf) (d : DeltaInfo σ) :
    List Alloc × σ × Res (Buf × Buf) :=
  match allocateNext as ((d.size : Int) - d.offset) with
  | (as, .error e) => (as, d.strm, .error e)
  | (as, .ok ddata) =>
    match ddata.write d.dbuf with
    | (_, .error e) => (as, d.strm, .error e)
    | (ddata, .ok ()) =>
      match streamCopy fuel read Buf.write d.size (256 * PAGESIZE : Nat) d.strm ddata with
      | (s, _, .error e) => (as, s, .error e)
      | (s, ddata, .ok _) =>
        match applyDeltaData bbuf.data d.srcSize ddata.data ddata.data.length Buf.write tbuf with
        | (_, .error e) => (as, s, .error e)
        | (tbuf, .ok ()) => (as, s, .ok (tbuf.seek0, bbuf.seek0))

/-- The loop `gitdb/stream.py` 446-470, as `applyAll`; the streams afterwards in the order of `infos` (order of
application). -/
def tryAll (fuel : Nat) (read : σ → Int → σ × Res Bytes) :
    List Alloc → List (DeltaInfo σ) → Buf → Buf → List Alloc × List (σ × Nat) × Res (Buf × Buf)
  | as, [], bbuf, tbuf => (as, [], .ok (bbuf, tbuf))
  | as, d :: ds, bbuf, tbuf =>
    match tryOne fuel read as bbuf tbuf d with
    | (as, s, .error e) => (as, (s, d.size) :: ds.map (fun x => (x.strm, x.size)), .error e)
    | (as, s, .ok (bbuf, tbuf)) =>
      let r := tryAll fuel read as ds bbuf tbuf
      (r.1, (s, d.size) :: r.2.1, r.2.2)

/-- A `DeltaApplyReader`: `_dstreams` (topmost first) and `_bstream` with their `size` attributes, `_br`, and
`(_mm_target, _size)` if these have been set. -/
structure LazyDelta (σ : Type) where
  dstreams : List (σ × Nat)
  bstream : σ × Nat
  br : Nat
  cache : Option (Buf × Nat)

/-- `_set_cache_brute_`, `gitdb/stream.py` 404-476, as `setCacheBrute`, with the streams afterwards. -/
def trySetCache (fuel : Nat) (read : σ → Int → σ × Res Bytes) (as : List Alloc) (r : LazyDelta σ) :
    List Alloc × LazyDelta σ × Res (Buf × Nat) :=
  match tryHeads read r.dstreams with
  | (ds, .error e) => (as, { r with dstreams := ds }, .error e)
  | (ds, .ok infos) =>
    let maxTargetSize := infos.foldl (fun m d => max m d.targetSize) 0
    let sizes := if r.dstreams.length > 1 then (max r.bstream.2 maxTargetSize, max r.bstream.2 maxTargetSize)
      else (r.bstream.2, maxTargetSize)
    match allocateNext as sizes.1 with
    | (as, .error e) => (as, { r with dstreams := ds }, .error e)
    | (as, .ok bbuf) =>
      match streamCopy fuel read Buf.write sizes.1 (256 * PAGESIZE : Nat) r.bstream.1 bbuf with
      | (s, _, .error e) => (as, { r with dstreams := ds, bstream := (s, r.bstream.2) }, .error e)
      | (s, bbuf, .ok _) =>
        match allocateNext as sizes.2 with
        | (as, .error e) => (as, { r with dstreams := ds, bstream := (s, r.bstream.2) }, .error e)
        | (as, .ok tbuf) =>
          match tryAll fuel read as infos.reverse bbuf tbuf with
          | (as, ds, .error e) => (as, { r with dstreams := ds.reverse, bstream := (s, r.bstream.2) }, .error e)
          | (as, ds, .ok (bbuf, _)) =>
            match infos with
            | [] => (as, { r with dstreams := ds.reverse, bstream := (s, r.bstream.2) }, .error .typeError)
            | d :: _ => (as, { r with dstreams := ds.reverse, bstream := (s, r.bstream.2),
                                      cache := some (bbuf, d.targetSize) }, .ok (bbuf, d.targetSize))

/-- Access to `_size` or `_mm_target`: `LazyMixin.__getattr__` calls `_set_cache_` only if they are not set. -/
def LazyDelta.need (fuel : Nat) (read : σ → Int → σ × Res Bytes) (as : List Alloc) (r : LazyDelta σ) :
    List Alloc × LazyDelta σ × Res (Buf × Nat) :=
  match r.cache with
  | some c => (as, r, .ok c)
  | none => trySetCache fuel read as r

/-- A call of a method or property of a `DeltaApplyReader`. -/
inductive DeltaCall where
  | read (count : Int)
  | seek (offset whence : Int)
  | size
  deriving DecidableEq, Repr

/-- What it returns. -/
inductive DeltaOut where
  | data (d : Bytes)
  | done
  | num (n : Nat)
  deriving DecidableEq, Repr

/-- `read` (486-494), `seek` (496-504) and `size` (543-546) of `gitdb/stream.py`. -/
def LazyDelta.call (fuel : Nat) (read : σ → Int → σ × Res Bytes) (as : List Alloc) (r : LazyDelta σ) :
    DeltaCall → List Alloc × LazyDelta σ × Res DeltaOut
  | .read count =>
    match r.need fuel read as with
    | (as, r, .error e) => (as, r, .error e)
    | (as, r, .ok (t, n)) =>
      let x := DeltaReader.read ⟨t, n, r.br⟩ count
      (as, { r with br := x.1.br, cache := some (x.1.target, n) }, .ok (.data x.2))
  | .seek offset whence =>
    if offset ≠ 0 ∨ whence ≠ 0 then (as, r, .error .valueError)
    else match LazyDelta.need fuel read as { r with br := 0 } with
      | (as, r, .error e) => (as, r, .error e)
      | (as, r, .ok (t, n)) => (as, { r with cache := some (t.seek0, n) }, .ok .done)
  | .size =>
    match r.need fuel read as with
    | (as, r, .error e) => (as, r, .error e)
    | (as, r, .ok (_, n)) => (as, r, .ok (.num n))

/-- Calls one after the other; the caller catches the exceptions. -/
def LazyDelta.calls (fuel : Nat) (read : σ → Int → σ × Res Bytes) :
    List Alloc → LazyDelta σ → List DeltaCall → LazyDelta σ × List (Res DeltaOut)
  | _, r, [] => (r, [])
  | as, r, c :: cs =>
    let x := r.call fuel read as c
    let y := LazyDelta.calls fuel read x.1 x.2.1 cs
    (y.1, x.2.2 :: y.2)

/-- `DeltaApplyReader(stream_list)`, `gitdb/stream.py` 360-368: streams with their sizes, the base last. -/
def newLazyDelta (streams : List (σ × Nat)) : Res (LazyDelta σ) :=
  match streams.reverse with
  | base :: d :: ds => .ok ⟨(d :: ds).reverse, base, 0, none⟩
  | _ => .error .assertionError

end GitDB
