import Verif.Model.Crc
import Verif.Model.Index
import Verif.Model.Decomp
import Verif.Model.DeltaReader
/-!
# Packs: `gitdb/pack.py` 76-168 and 503-1003 (`PackFile`, `PackEntity`)

The sliding memory map is simplified to the contents of the whole file: `use_region(o).buffer()` is the
file from `o` on.  `smmap` is not part of the repository; an offset outside the file gives an empty
buffer here, on which the first access raises `IndexError`.
-/
set_option autoImplicit false

namespace GitDB

/-! ## Writing -/

/-- `gitdb/fun.py` 54. -/
def chunkSize : Nat := 1000 * PAGESIZE

variable {σ ω ρ ω₂ ρ₂ : Type}

/-- The loop of `write_stream_to_pack`, `gitdb/pack.py` 145-161.  Results: bytes read, bytes written, crc
(if wanted) and the compressor. -/
def packCopyLoop (zl : Zlib) (read : σ → Int → σ × Res Bytes) (write : ω → Bytes → ω × Res ρ) :
    Nat → σ → ω → zl.Comp → Nat → Nat → Option Nat → σ × ω × Res (Nat × Nat × Option Nat × zl.Comp)
  | 0, s, w, _, _, _, _ => (s, w, .error .diverge)
  | fuel + 1, s, w, z, br, bw, crc =>
    match read s chunkSize with
    | (s, .error e) => (s, w, .error e)
    | (s, .ok chunk) =>
      let br := br + chunk.length
      let (z, compressed) := zl.ccompress z chunk
      let bw := bw + compressed.length
      match write w compressed with
      | (w, .error e) => (s, w, .error e)
      | (w, .ok _) =>
        let crc := crc.map (crc32 compressed)
        if chunk.length ≠ chunkSize then (s, w, .ok (br, bw, crc, z))
        else packCopyLoop zl read write fuel s w z br bw crc

/-- `write_stream_to_pack(read, write, zstream, base_crc)`, `gitdb/pack.py` 130-168: bytes read, bytes
written, crc (0 if not wanted). -/
def writeStreamToPack (zl : Zlib) (fuel : Nat) (read : σ → Int → σ × Res Bytes)
    (write : ω → Bytes → ω × Res ρ) (z : zl.Comp) (baseCrc : Option Nat) (s : σ) (w : ω) :
    σ × ω × Res (Nat × Nat × Nat) :=
  match packCopyLoop zl read write fuel s w z 0 0 baseCrc with
  | (s, w, .error e) => (s, w, .error e)
  | (s, w, .ok (br, bw, crc, z)) =>
    let compressed := zl.cflush z
    match write w compressed with
    | (w, .error e) => (s, w, .error e)
    | (w, .ok _) => (s, w, .ok (br, bw + compressed.length, (crc.map (crc32 compressed)).getD 0))

/-- An object given to `write_pack`: attributes `type_id`, `size`, `binsha`, `stream`. -/
structure PackIn (σ : Type) where
  typeId : Nat
  size : Nat
  sha : Bytes
  strm : σ

/-- The loop over the objects, `gitdb/pack.py` 959-991.  `ofs` and the accumulated index entries are
state; returns the number of objects written and the index entries. -/
def packObjects (zl : Zlib) (fuel : Nat) (read : σ → Int → σ × Res Bytes)
    (write : ω → Bytes → ω × Res ρ) (level : Int) (wantsIndex : Bool) (count : Nat) :
    List (PackIn σ) → FlexibleSha1Writer ω → Nat → Nat → List IdxObj →
    FlexibleSha1Writer ω × Res (Nat × List IdxObj)
  | [], w, actual, _, idx => (w, .ok (actual, idx))
  | obj :: objs, w, actual, ofs, idx =>
    let actual := actual + 1
    match createPackObjectHeader obj.typeId obj.size with
    | .error e => (w, .error e)
    | .ok hdr =>
      let crc := if wantsIndex then some (crc32 hdr 0) else none
      match FlexibleSha1Writer.write write w hdr with
      | (w, .error e) => (w, .error e)
      | (w, .ok _) =>
        match writeStreamToPack zl fuel read (FlexibleSha1Writer.write write) (zl.cinit level) crc obj.strm w with
        | (_, w, .error e) => (w, .error e)
        | (_, w, .ok (br, bw, crc)) =>
          if br ≠ obj.size then (w, .error .assertionError)
          else
            let idx := if wantsIndex then idx ++ [⟨obj.sha, crc, ofs⟩] else idx
            let ofs := ofs + hdr.length + bw
            if actual = count then (w, .ok (actual, idx))
            else packObjects zl fuel read write level wantsIndex count objs w actual ofs idx

/-- Signature `PACK`, `gitdb/pack.py` 518-523. -/
def packSignature : Nat := 0x5041434b

/-- `pack('>LLL', a, b, c)`. -/
def packLLL (a b c : Nat) : Res Bytes :=
  match packL a, packL b, packL c with
  | .ok x, .ok y, .ok z => .ok (x ++ y ++ z)
  | .error e, _, _ => .error e
  | _, .error e, _ => .error e
  | _, _, .error e => .error e

/-- The value of `object_count` after `gitdb/pack.py` 937-942 if `n` objects are given. -/
def packCount (objectCount : Option Nat) (n : Nat) : Nat :=
  match objectCount with
  | none => n
  | some 0 => n
  | some k => k

/-- `write_pack(object_iter, pack_write, index_write, object_count, zlib_compression)`,
`gitdb/pack.py` 914-1004.  `indexWrite = none` stands for `index_write=None`.  The streams of the objects
are independent of each other; their state afterwards is not described.  A negative `object_count` is not
modelled. -/
def writePack (H : Hash) (zl : Zlib) (fuel : Nat) (read : σ → Int → σ × Res Bytes)
    (packWrite : ω → Bytes → ω × Res ρ) (idxWrite : Option (ω₂ → Bytes → ω₂ × Res ρ₂))
    (objs : List (PackIn σ)) (objectCount : Option Nat) (level : Int) (w : ω) (iw : ω₂) :
    ω × ω₂ × Res (Bytes × Option Bytes) :=
  let count := packCount objectCount objs.length
  match packLLL packSignature 2 count with
  | .error e => (w, iw, .error e)
  | .ok hdr =>
    match FlexibleSha1Writer.write packWrite { inner := w } hdr with
    | (f, .error e) => (f.inner, iw, .error e)
    | (f, .ok _) =>
      match packObjects zl fuel read packWrite level idxWrite.isSome count objs f 0 12 [] with
      | (f, .error e) => (f.inner, iw, .error e)
      | (f, .ok (actual, idx)) =>
        if actual ≠ count then (f.inner, iw, .error .valueError)
        else
          let packSha := f.sha1.sha H false
          match packWrite f.inner packSha with
          | (w, .error e) => (w, iw, .error e)
          | (w, .ok _) =>
            match idxWrite with
            | none => (w, iw, .ok (packSha, none))
            | some iwr =>
              match indexWrite H idx packSha iwr iw with
              | (iw, .error e) => (w, iw, .error e)
              | (iw, .ok idxSha) => (w, iw, .ok (packSha, some idxSha))

/-! ## Reading -/

/-- `delta_info`. -/
inductive DeltaRef where
  | none
  | ofs (n : Nat)
  | ref (sha : Bytes)
  deriving DecidableEq, Repr

/-- `OPackStream` / `ODeltaPackStream` (`gitdb/base.py` 64-183) with the absolute offset of its data; the info
objects are the same without `stream`. -/
structure PackObj where
  packOffset : Nat
  typeId : Nat
  size : Nat
  info : DeltaRef
  dataOff : Nat
  stream : Reader
  deriving DecidableEq, Repr

/-- `pack_object_at(cursor, offset, as_stream)`, `gitdb/pack.py` 76-127. -/
def packObjectAt (pack : Bytes) (offset : Nat) : Res PackObj :=
  let data := pack.drop offset
  match packObjectHeaderInfo data with
  | .error e => .error e
  | .ok (typeId, size, rela) =>
    if typeId = OFS_DELTA then
      match ofsDecode data rela with
      | .error e => .error e
      | .ok (d, i) =>
        .ok ⟨offset, typeId, size, .ofs d, offset + i, Reader.ofSize (data.drop i) size⟩
    else if typeId = REF_DELTA then
      .ok ⟨offset, typeId, size, .ref (pySlice data rela (rela + 20)), offset + (rela + 20),
        Reader.ofSize (data.drop (rela + 20)) size⟩
    else .ok ⟨offset, typeId, size, .none, offset + rela, Reader.ofSize (data.drop rela) size⟩

/-- An opened `PackFile`. -/
structure PackFile where
  data : Bytes
  version : Nat
  size : Nat
  deriving DecidableEq, Repr

/-- First access to the attributes: `_set_cache_`, `gitdb/pack.py` 532-542.  A wrong signature is refused at the
first access only, because the attributes are set before the check; later accesses are described in
`Verif.Model.Lazy`. -/
def PackFile.load (data : Bytes) : Res PackFile :=
  match unpackL data 0, unpackL data 4, unpackL data 8 with
  | .ok t, .ok v, .ok n => if t ≠ packSignature then .error .parseError else .ok ⟨data, v, n⟩
  | _, _, _ => .error .structError

/-- `checksum()`, `gitdb/pack.py` 586-588. -/
def PackFile.checksum (p : PackFile) : Bytes := p.data.drop (p.data.length - 20)

/-- `stream(offset)`, `gitdb/pack.py` 633-638; `info(offset)` (626-631) is the same without the stream. -/
def PackFile.stream (p : PackFile) (offset : Nat) : Res PackObj :=
  packObjectAt p.data (if offset = 0 then 12 else offset)

/-- The loop of `collect_streams`, `gitdb/pack.py` 608-620.  An offset before the beginning of the file
is out of the model of `smmap`; it counts as outside of the file. -/
def PackFile.collectStreams (p : PackFile) : Nat → Nat → Res (List PackObj)
  | 0, _ => .error .diverge
  | fuel + 1, offset =>
    match packObjectAt p.data offset with
    | .error e => .error e
    | .ok o =>
      match o.info with
      | .ofs d =>
        if o.packOffset < d then .error .indexError
        else
          match p.collectStreams fuel (o.packOffset - d) with
          | .error e => .error e
          | .ok l => .ok (o :: l)
      | _ => .ok [o]

/-- `NullStream.write`, `gitdb/stream.py` 726-727. -/
def nullWrite (u : Unit) (d : Bytes) : Unit × Res Nat := (u, .ok d.length)

/-- `_iter_objects`, `gitdb/pack.py` 544-566: the objects yielded, and how the iteration ended.
`fuel` bounds the number of objects and the iterations of the inner loops. -/
def PackFile.iterObjects (zl : Zlib) (p : PackFile) (innerFuel : Nat) : Nat → Int → List PackObj × Res Unit
  | 0, _ => ([], .error .diverge)
  | fuel + 1, cur =>
    if cur < (p.data.length : Int) - 20 then
      if cur < 0 then ([], .error .indexError)
      else
      match packObjectAt p.data cur.toNat with
      | .error e => ([], .error e)
      | .ok o =>
        match streamCopy innerFuel (Reader.read zl) nullWrite o.size chunkSize o.stream () with
        | (_, _, .error e) => ([], .error e)
        | (r, _, .ok _) =>
          if r.br ≠ o.size then ([], .error .assertionError)
          else
            match r.compressedBytesRead zl innerFuel with
            | (_, .error e) => ([], .error e)
            | (r, .ok cbr) =>
              match r.seek 0 0 with
              | (_, .error e) => ([], .error e)
              | (r, .ok ()) =>
                let rest := p.iterObjects zl innerFuel fuel (cur + (((o.dataOff : Int) - o.packOffset) + cbr))
                ({ o with stream := r } :: rest.1, rest.2)
    else ([], .ok ())

/-- `stream_iter(start_offset)`, `gitdb/pack.py` 640-650. -/
def PackFile.streamIter (zl : Zlib) (p : PackFile) (innerFuel fuel : Nat) (start : Nat) :
    List PackObj × Res Unit :=
  p.iterObjects zl innerFuel fuel (if start = 0 then 12 else start)

/-- A `PackEntity` whose files have been opened. -/
structure PackEntity where
  index : IndexFile
  pack : PackFile

/-- `_sha_to_index`, `gitdb/pack.py` 702-707. -/
def PackEntity.shaToIndex (p : PackEntity) (sha : Bytes) : Res Nat :=
  match p.index.shaToIndex sha with
  | .error e => .error e
  | .ok none => .error .badObject
  | .ok (some i) => .ok i

/-- The loop resolving `REF_DELTA`s, `gitdb/pack.py` 877-896, from the last collected stream on. -/
def PackEntity.resolveRefs (p : PackEntity) : Nat → PackObj → Res (List PackObj)
  | 0, _ => .error .diverge
  | fuel + 1, o =>
    match o.info with
    | .none => .ok []
    | .ref sha =>
      match p.index.shaToIndex sha with
      | .error e => .error e
      | .ok none => .ok []
      | .ok (some i) =>
        match p.index.offset i with
        | .error e => .error e
        | .ok ofs =>
          match p.pack.stream ofs with
          | .error e => .error e
          | .ok o' =>
            match p.resolveRefs fuel o' with
            | .error e => .error e
            | .ok l => .ok (o' :: l)
    | .ofs d =>
      match p.pack.stream d with
      | .error e => .error e
      | .ok o' =>
        match p.resolveRefs fuel o' with
        | .error e => .error e
        | .ok l => .ok (o' :: l)

/-- `collect_streams_at_offset(offset)`, `gitdb/pack.py` 865-898. -/
def PackEntity.collectStreamsAtOffset (p : PackEntity) (fuel : Nat) (offset : Nat) : Res (List PackObj) :=
  match p.pack.collectStreams fuel offset with
  | .error e => .error e
  | .ok streams =>
    match streams.getLast? with
    | none => .error .indexError
    | some last =>
      if last.typeId = REF_DELTA then
        match p.resolveRefs fuel last with
        | .error e => .error e
        | .ok l => .ok (streams ++ l)
      else .ok streams

/-- `collect_streams(sha)`, `gitdb/pack.py` 900-912. -/
def PackEntity.collectStreams (p : PackEntity) (fuel : Nat) (sha : Bytes) : Res (List PackObj) :=
  match p.shaToIndex sha with
  | .error e => .error e
  | .ok i =>
    match p.index.offset i with
    | .error e => .error e
    | .ok ofs => p.collectStreamsAtOffset fuel ofs

/-- A stream as returned by `PackEntity.stream`: of a base object, or the unresolved list of a
`DeltaApplyReader` (its cache is set on first access). -/
inductive PStream where
  | base (r : Reader)
  | delta (streams : List PackObj)
  | resolved (r : DeltaReader)

/-- `OStream` / `ODeltaStream`: name, type, size (`none`: taken from the stream) and stream. -/
structure OStream where
  sha : Bytes
  type : PyName
  size : Option Nat
  stream : PStream

/-- `DeltaApplyReader.new(streams)`, `gitdb/stream.py` 508-533: `type` and stream. -/
def deltaNew (streams : List PackObj) : Res (PyName × PStream) :=
  if streams.length < 2 then .error .valueError
  else
    match streams.getLast? with
    | none => .error .valueError
    | some b =>
      if b.typeId = OFS_DELTA ∨ b.typeId = REF_DELTA then .error .valueError
      else
        match typeIdToType b.typeId with
        | .error e => .error e
        | .ok t => .ok (t, .delta streams)

/-- `_object(sha, True, index)`, `gitdb/pack.py` 717-740. -/
def PackEntity.streamAt (p : PackEntity) (fuel : Nat) (sha : Bytes) (i : Nat) : Res OStream :=
  match p.index.offset i with
  | .error e => .error e
  | .ok ofs =>
    match packObjectHeaderInfo (p.pack.data.drop ofs) with
    | .error e => .error e
    | .ok (typeId, _, _) =>
      if typeId ≠ OFS_DELTA ∧ typeId ≠ REF_DELTA then
        match p.pack.stream ofs with
        | .error e => .error e
        | .ok o =>
          match typeIdToType o.typeId with
          | .error e => .error e
          | .ok t => .ok ⟨sha, t, some o.size, .base o.stream⟩
      else
        match p.collectStreamsAtOffset fuel ofs with
        | .error e => .error e
        | .ok streams =>
          match deltaNew streams with
          | .error e => .error e
          | .ok (t, s) => .ok ⟨sha, t, none, s⟩

/-- `stream(sha)`, `gitdb/pack.py` 769-775. -/
def PackEntity.stream (p : PackEntity) (fuel : Nat) (sha : Bytes) : Res OStream :=
  match p.shaToIndex sha with
  | .error e => .error e
  | .ok i => p.streamAt fuel sha i

/-- `_object(sha, False, index)`, `gitdb/pack.py` 717-727, 742-756: type and size. -/
def PackEntity.infoAt (zl : Zlib) (p : PackEntity) (fuel : Nat) (i : Nat) : Res (PyName × Nat) :=
  match p.index.offset i with
  | .error e => .error e
  | .ok ofs =>
    match packObjectHeaderInfo (p.pack.data.drop ofs) with
    | .error e => .error e
    | .ok (typeId, size, _) =>
      if typeId ≠ OFS_DELTA ∧ typeId ≠ REF_DELTA then
        match typeIdToType typeId with
        | .error e => .error e
        | .ok t => .ok (t, size)
      else
        match p.collectStreamsAtOffset fuel ofs with
        | .error e => .error e
        | .ok streams =>
          match streams.head?, streams.getLast? with
          | some first, some last =>
            match first.stream.read zl 512 with
            | (_, .error e) => .error e
            | (_, .ok buf) =>
              match msbSize buf 0 with
              | .error e => .error e
              | .ok (offset, _) =>
                match msbSize buf offset with
                | .error e => .error e
                | .ok (_, targetSize) =>
                  if last.typeId = OFS_DELTA ∨ last.typeId = REF_DELTA then .error .badObject
                  else
                    match typeIdToType last.typeId with
                    | .error e => .error e
                    | .ok t => .ok (t, targetSize)
          | _, _ => .error .indexError

/-- `info(sha)`, `gitdb/pack.py` 761-767: type and size (the name is the argument). -/
def PackEntity.info (zl : Zlib) (p : PackEntity) (fuel : Nat) (sha : Bytes) : Res (PyName × Nat) :=
  match p.shaToIndex sha with
  | .error e => .error e
  | .ok i => p.infoAt zl fuel i

/-- First access to `_mm_target` / `_size` of a `DeltaApplyReader`. -/
def PStream.open (zl : Zlib) (fuel : Nat) : PStream → Res PStream
  | .delta streams =>
    match newDeltaReader fuel (Reader.read zl) (streams.map fun o => (o.stream, o.size)) with
    | .error e => .error e
    | .ok r => .ok (.resolved r)
  | s => .ok s

/-- `read(n)` of such a stream. -/
def PStream.read (zl : Zlib) (fuel : Nat) (s : PStream) (n : Int) : PStream × Res Bytes :=
  match s.open zl fuel with
  | .error e => (s, .error e)
  | .ok (.base r) => let (r, d) := r.read zl n; (.base r, d)
  | .ok (.resolved r) => let (r, d) := r.read n; (.resolved r, .ok d)
  | .ok (.delta l) => (.delta l, .error .diverge) -- not possible

/-- The `size` property of `OStream` and `ODeltaStream` (`gitdb/base.py`). -/
def OStream.getSize (zl : Zlib) (fuel : Nat) (o : OStream) : Res Nat :=
  match o.size with
  | some n => .ok n
  | none =>
    match o.stream.open zl fuel with
    | .error e => .error e
    | .ok (.resolved r) => .ok r.size
    | .ok _ => .error .attributeError

/-- `sorted(offsets)`. -/
def sortNats (l : List Nat) : List Nat := l.mergeSort

/-- The pairs put into `_offset_map`, in this order: `gitdb/pack.py` 677-700. -/
def offsetPairs (sorted : List Nat) (last : Nat) : List (Nat × Nat) :=
  sorted.zip (sorted.drop 1) ++ (match sorted.getLast? with | some o => [(o, last)] | none => [])

/-- Lookup in a dictionary filled with pairs in order: the last one counts. -/
def dictGet (pairs : List (Nat × Nat)) (k : Nat) : Res Nat :=
  match pairs.reverse.find? (fun p => p.1 == k) with
  | some p => .ok p.2
  | none => .error .keyError

/-- `_offset_map[offset]`. -/
def PackEntity.nextOffset (p : PackEntity) (offset : Nat) : Res Nat :=
  match p.index.offsets with
  | .error e => .error e
  | .ok offs =>
    if offs = [] then .error .assertionError
    else dictGet (offsetPairs (sortNats offs) (p.pack.data.length - 20)) offset

/-- The chunked crc loop, `gitdb/pack.py` 829-837. -/
def crcLoop (data : Bytes) (chunk : Nat) (next : Nat) : Nat → Nat → Nat → Res Nat
  | 0, _, _ => .error .diverge
  | fuel + 1, cur, crc =>
    if cur < next then
      let size := min (cur + chunk) next - cur
      crcLoop data chunk next fuel (cur + size) (crc32 (pySlice data cur (cur + size)) crc)
    else .ok crc

/-- `is_valid_stream(sha, use_crc=True)`, `gitdb/pack.py` 816-841. -/
def PackEntity.isValidCrc (p : PackEntity) (fuel : Nat) (sha : Bytes) : Res Bool :=
  if p.index.version < 2 then .error .unsupportedOperation
  else
    match p.shaToIndex sha with
    | .error e => .error e
    | .ok i =>
      match p.index.offset i with
      | .error e => .error e
      | .ok offset =>
        match p.nextOffset offset with
        | .error e => .error e
        | .ok next =>
          match p.index.crc i with
          | .error e => .error e
          | .ok crc =>
            match crcLoop p.pack.data chunkSize next fuel offset 0 with
            | .error e => .error e
            | .ok this => .ok ((this &&& 0xffffffff) == crc)

/-- `Sha1Writer.write` (`gitdb/stream.py` 567-574) in the form expected by `writeObject`. -/
def Sha1Writer.writeInt (w : Sha1Writer) (d : Bytes) : Sha1Writer × Res (Option Int) :=
  match w.write d with
  | (w, .ok n) => (w, .ok (some (n : Int)))
  | (w, .error e) => (w, .error e)

/-- `is_valid_stream(sha)`, `gitdb/pack.py` 842-849. -/
def PackEntity.isValidSha (H : Hash) (zl : Zlib) (p : PackEntity) (fuel : Nat) (sha : Bytes) : Res Bool :=
  match p.stream fuel sha with
  | .error e => .error e
  | .ok o =>
    match o.getSize zl fuel with
    | .error e => .error e
    | .ok size =>
      match writeObject fuel o.type.text size (PStream.read zl fuel)
          Sha1Writer.writeInt chunkSize o.stream {} with
      | (_, _, .error e) => .error e
      | (_, w, .ok _) => if w.sha H false = sha then .ok true else .error .assertionError

end GitDB
