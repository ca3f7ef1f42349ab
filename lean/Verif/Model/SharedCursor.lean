import Verif.Model.Outside
/-!
# Several threads reading one pack

A `PackFile` has one cursor, `_cursor` (`gitdb/pack.py` 534).  Every look at the pack is `cursor.use_region(offset).buffer()` (86, 588, 727):
`use_region` moves the cursor and returns it, `buffer()` is the data at the place where the cursor is at that time.  Between these two calls
another thread may move the same cursor.  smmap is not part of the repository; what is assumed of it is that `use_region` moves the cursor
itself and that `buffer()` depends on the last offset given to `use_region` only.

Simplifications: each of the two calls is one step (in smmap they are several assignments); the pack is open; its index is read by
functions that move nothing (`_cursor.map()` of the index, 310-360).
-/
set_option autoImplicit false

namespace GitDB

/-- A call in progress: it has ended, or it goes on with `use_region(off).buffer()` or with `use_region(off)` alone. -/
inductive Look (α : Type) where
  | ret (r : Res α)
  | look (off : Nat) (k : Bytes → Look α)
  | touch (off : Nat) (k : Look α)

/-- One piece of code after another; exceptions end the call. -/
def Look.bind {α β : Type} (l : Look α) (f : α → Look β) : Look β :=
  match l with
  | .ret (.error e) => .ret (.error e)
  | .ret (.ok a) => f a
  | .look off k => .look off fun d => (k d).bind f
  | .touch off k => .touch off (k.bind f)

/-- A call that gets what it asks for: nobody else moves the cursor. -/
def Look.alone {α : Type} (view : Nat → Bytes) : Look α → Res α
  | .ret r => r
  | .look off k => (k (view off)).alone view
  | .touch _ k => k.alone view

/-- `pack_object_at(cursor, offset, as_stream)`, `gitdb/pack.py` 76-127. -/
def packObjectL (offset : Nat) : Look PackObj := .look offset fun data => .ret (packObjectFrom data offset)

/-- `stream(offset)`, `gitdb/pack.py` 633-638. -/
def packStreamL (offset : Nat) : Look PackObj := packObjectL (if offset = 0 then 12 else offset)

/-- `collect_streams(offset)`, `gitdb/pack.py` 596-622; offsets before the beginning of the file as in `PackFile.collectStreams`. -/
def collectStreamsL : Nat → Nat → Look (List PackObj)
  | 0, _ => .ret (.error .diverge)
  | fuel + 1, offset => (packObjectL offset).bind fun o =>
    match o.info with
    | .ofs d =>
      if o.packOffset < d then .ret (.error .indexError)
      else (collectStreamsL fuel (o.packOffset - d)).bind fun l => .ret (.ok (o :: l))
    | _ => .ret (.ok [o])

/-- The loop resolving `REF_DELTA`s, `gitdb/pack.py` 877-896. -/
def resolveRefsL (idx : IndexFile) : Nat → PackObj → Look (List PackObj)
  | 0, _ => .ret (.error .diverge)
  | fuel + 1, o =>
    match o.info with
    | .none => .ret (.ok [])
    | .ref sha =>
      match idx.shaToIndex sha with
      | .error e => .ret (.error e)
      | .ok none => .ret (.ok [])
      | .ok (some i) =>
        match idx.offset i with
        | .error e => .ret (.error e)
        | .ok ofs => (packStreamL ofs).bind fun o' => (resolveRefsL idx fuel o').bind fun l => .ret (.ok (o' :: l))
    | .ofs d => (packStreamL d).bind fun o' => (resolveRefsL idx fuel o').bind fun l => .ret (.ok (o' :: l))

/-- `collect_streams_at_offset(offset)`, `gitdb/pack.py` 865-898. -/
def collectAtOffsetL (idx : IndexFile) (fuel offset : Nat) : Look (List PackObj) :=
  (collectStreamsL fuel offset).bind fun streams =>
    match streams.getLast? with
    | none => .ret (.error .indexError)
    | some last =>
      if last.typeId = REF_DELTA then (resolveRefsL idx fuel last).bind fun l => .ret (.ok (streams ++ l))
      else .ret (.ok streams)

/-- `_sha_to_index`, `gitdb/pack.py` 702-707, and `self._index.offset(index)`, 726. -/
def nameToOffset (idx : IndexFile) (sha : Bytes) : Res Nat :=
  match idx.shaToIndex sha with
  | .error e => .error e
  | .ok none => .error .badObject
  | .ok (some i) => idx.offset i

/-- `stream(sha)`, `gitdb/pack.py` 717-740, 769-775. -/
def entityStreamL (idx : IndexFile) (fuel : Nat) (sha : Bytes) : Look OStream :=
  match nameToOffset idx sha with
  | .error e => .ret (.error e)
  | .ok ofs => .look ofs fun data =>
    match packObjectHeaderInfo data with
    | .error e => .ret (.error e)
    | .ok (typeId, _, _) =>
      if typeId ≠ OFS_DELTA ∧ typeId ≠ REF_DELTA then
        (packStreamL ofs).bind fun o =>
          match typeIdToType o.typeId with
          | .error e => .ret (.error e)
          | .ok t => .ret (.ok ⟨sha, t, some o.size, .base o.stream⟩)
      else
        (collectAtOffsetL idx fuel ofs).bind fun streams =>
          match deltaNew streams with
          | .error e => .ret (.error e)
          | .ok (t, s) => .ret (.ok ⟨sha, t, none, s⟩)

/-- The end of `info` for deltas, `gitdb/pack.py` 748-755: type and size from the streams of the chain. -/
def deltaInfo (zl : Zlib) (streams : List PackObj) : Res (PyName × Nat) :=
  match streams.head?, streams.getLast? with
  | some first, some last =>
    match first.stream.read zl 512 with
    | (_, .error e) => .error e
    | (_, .ok buf) =>
      match msbSize buf 0 with
      | .error e => .error e
      | .ok (offset, _) =>
        match msbSize buf offset with
        | .error e => .error e
        | .ok (_, targetSize) =>
          if last.typeId = OFS_DELTA ∨ last.typeId = REF_DELTA then .error .badObject
          else
            match typeIdToType last.typeId with
            | .error e => .error e
            | .ok t => .ok (t, targetSize)
  | _, _ => .error .indexError

/-- `info(sha)`, `gitdb/pack.py` 717-727, 742-756, 761-767. -/
def entityInfoL (zl : Zlib) (idx : IndexFile) (fuel : Nat) (sha : Bytes) : Look (PyName × Nat) :=
  match nameToOffset idx sha with
  | .error e => .ret (.error e)
  | .ok ofs => .look ofs fun data =>
    match packObjectHeaderInfo data with
    | .error e => .ret (.error e)
    | .ok (typeId, size, _) =>
      if typeId ≠ OFS_DELTA ∧ typeId ≠ REF_DELTA then
        match typeIdToType typeId with
        | .error e => .ret (.error e)
        | .ok t => .ret (.ok (t, size))
      else (collectAtOffsetL idx fuel ofs).bind fun streams => .ret (deltaInfo zl streams)

/-- What threads call. -/
inductive CursorCall where
  | stream (sha : Bytes)
  | info (sha : Bytes)
  /-- `data()`, `gitdb/pack.py` 578-584, also in `is_valid_stream(sha, use_crc=True)` (826): `use_region()` moves the cursor to the
  beginning, `map()` does not depend on where the cursor is -/
  | data
  /-- `checksum()`, `gitdb/pack.py` 586-588 -/
  | checksum

/-- What a call returns.  That `data()` returns the whole file is not repeated here. -/
inductive CursorOut where
  | stream (o : OStream)
  | info (t : PyName) (size : Nat)
  | data
  | checksum (b : Bytes)

/-- The code of a call on a pack of `length` bytes. -/
def CursorCall.code (zl : Zlib) (idx : IndexFile) (fuel length : Nat) : CursorCall → Look CursorOut
  | .stream sha => (entityStreamL idx fuel sha).bind fun o => .ret (.ok (.stream o))
  | .info sha => (entityInfoL zl idx fuel sha).bind fun x => .ret (.ok (.info x.1 x.2))
  | .data => .touch 0 (.ret (.ok .data))
  | .checksum => .look (length - 20) fun b => .ret (.ok (.checksum b))

/-- A thread: between its steps, or after `use_region` and before `buffer()`. -/
inductive CThread where
  | at (l : Look CursorOut)
  | moved (k : Bytes → Look CursorOut)

/-- The cursor and the threads. -/
structure CSys where
  pos : Nat
  threads : List CThread

/-- One step of thread `i`; `view off` is what `buffer()` returns after `use_region(off)`. -/
def CSys.step (view : Nat → Bytes) (s : CSys) (i : Nat) : CSys :=
  match s.threads[i]? with
  | none => s
  | some (.at (.ret _)) => s
  | some (.at (.look off k)) => ⟨off, s.threads.set i (.moved k)⟩
  | some (.at (.touch off k)) => ⟨off, s.threads.set i (.at k)⟩
  | some (.moved k) => ⟨s.pos, s.threads.set i (.at (k (view s.pos)))⟩

/-- Steps in the order of a schedule. -/
def CSys.run (view : Nat → Bytes) (s : CSys) (sched : List Nat) : CSys := sched.foldl (CSys.step view) s

end GitDB
