import Verif.Model.Pack
/-!
# Offsets outside of the pack

`Model/Pack.lean` assumes that `cursor.use_region(offset).buffer()` is empty for an offset outside of the file.  smmap is not part of the
repository; it might as well raise, or leave the region of an earlier call in place.  Here the answer for such offsets is arbitrary, and
may depend on all offsets asked for before.  Inside of the file, regions reach to its end (see `Model/Window.lean` for other regions).
-/
set_option autoImplicit false

namespace GitDB

/-- What `use_region(offset).buffer()` does for an offset outside of the file: from the offsets asked for so far, the last first. -/
abbrev Outside := List Int → Res Bytes

/-- `cursor.use_region(offset).buffer()` (`gitdb/pack.py` 86, 727). -/
def regionAt (out : Outside) (pack : Bytes) (asked : List Int) (offset : Int) : Res Bytes :=
  if 0 ≤ offset ∧ offset < pack.length then .ok (pack.drop offset.toNat) else out (offset :: asked)

/-- `pack_object_at(cursor, offset, as_stream)`, `gitdb/pack.py` 87-127, from the buffer on.  The attribute `pack_offset` of an object at a
negative offset is not described. -/
def packObjectFrom (data : Bytes) (offset : Nat) : Res PackObj :=
  match packObjectHeaderInfo data with
  | .error e => .error e
  | .ok (typeId, size, rela) =>
    if typeId = OFS_DELTA then
      match ofsDecode data rela with
      | .error e => .error e
      | .ok (d, i) =>
        .ok ⟨offset, typeId, size, .ofs d, offset + i, Reader.ofSize (data.drop i) size⟩
    else if typeId = REF_DELTA then
      .ok ⟨offset, typeId, size, .ref (pySlice data rela (rela + 20)), offset + (rela + 20),
        Reader.ofSize (data.drop (rela + 20)) size⟩
    else .ok ⟨offset, typeId, size, .none, offset + rela, Reader.ofSize (data.drop rela) size⟩

/-- `pack_object_at(cursor, offset, as_stream)`, `gitdb/pack.py` 76-127. -/
def packObjectX (out : Outside) (pack : Bytes) (asked : List Int) (offset : Int) : List Int × Res PackObj :=
  (offset :: asked, match regionAt out pack asked offset with
    | .error e => .error e
    | .ok data => packObjectFrom data offset.toNat)

/-- `stream(offset)`, `gitdb/pack.py` 633-638. -/
def PackFile.streamX (out : Outside) (p : PackFile) (asked : List Int) (offset : Nat) : List Int × Res PackObj :=
  packObjectX out p.data asked (if offset = 0 then 12 else offset : Nat)

/-- `collect_streams(offset)`, `gitdb/pack.py` 596-622. -/
def PackFile.collectStreamsX (out : Outside) (p : PackFile) : Nat → List Int → Int → List Int × Res (List PackObj)
  | 0, asked, _ => (asked, .error .diverge)
  | fuel + 1, asked, offset =>
    match packObjectX out p.data asked offset with
    | (asked, .error e) => (asked, .error e)
    | (asked, .ok o) =>
      match o.info with
      | .ofs d =>
        match p.collectStreamsX out fuel asked (offset - d) with
        | (asked, .error e) => (asked, .error e)
        | (asked, .ok l) => (asked, .ok (o :: l))
      | _ => (asked, .ok [o])

/-- The loop resolving `REF_DELTA`s, `gitdb/pack.py` 877-896. -/
def PackEntity.resolveRefsX (out : Outside) (p : PackEntity) : Nat → List Int → PackObj → List Int × Res (List PackObj)
  | 0, asked, _ => (asked, .error .diverge)
  | fuel + 1, asked, o =>
    match o.info with
    | .none => (asked, .ok [])
    | .ref sha =>
      match p.index.shaToIndex sha with
      | .error e => (asked, .error e)
      | .ok none => (asked, .ok [])
      | .ok (some i) =>
        match p.index.offset i with
        | .error e => (asked, .error e)
        | .ok ofs =>
          match p.pack.streamX out asked ofs with
          | (asked, .error e) => (asked, .error e)
          | (asked, .ok o') =>
            match p.resolveRefsX out fuel asked o' with
            | (asked, .error e) => (asked, .error e)
            | (asked, .ok l) => (asked, .ok (o' :: l))
    | .ofs d =>
      match p.pack.streamX out asked d with
      | (asked, .error e) => (asked, .error e)
      | (asked, .ok o') =>
        match p.resolveRefsX out fuel asked o' with
        | (asked, .error e) => (asked, .error e)
        | (asked, .ok l) => (asked, .ok (o' :: l))

/-- `collect_streams_at_offset(offset)`, `gitdb/pack.py` 865-898. -/
def PackEntity.collectStreamsAtOffsetX (out : Outside) (p : PackEntity) (fuel : Nat) (asked : List Int) (offset : Nat) :
    List Int × Res (List PackObj) :=
  match p.pack.collectStreamsX out fuel asked offset with
  | (asked, .error e) => (asked, .error e)
  | (asked, .ok streams) =>
    match streams.getLast? with
    | none => (asked, .error .indexError)
    | some last =>
      if last.typeId = REF_DELTA then
        match p.resolveRefsX out fuel asked last with
        | (asked, .error e) => (asked, .error e)
        | (asked, .ok l) => (asked, .ok (streams ++ l))
      else (asked, .ok streams)

/-- `_object(sha, True, index)`, `gitdb/pack.py` 717-740. -/
def PackEntity.streamAtX (out : Outside) (p : PackEntity) (fuel : Nat) (asked : List Int) (sha : Bytes) (i : Nat) :
    List Int × Res OStream :=
  match p.index.offset i with
  | .error e => (asked, .error e)
  | .ok ofs =>
    match regionAt out p.pack.data asked ofs with
    | .error e => ((ofs : Int) :: asked, .error e)
    | .ok data =>
      let asked := (ofs : Int) :: asked
      match packObjectHeaderInfo data with
      | .error e => (asked, .error e)
      | .ok (typeId, _, _) =>
        if typeId ≠ OFS_DELTA ∧ typeId ≠ REF_DELTA then
          match p.pack.streamX out asked ofs with
          | (asked, .error e) => (asked, .error e)
          | (asked, .ok o) =>
            match typeIdToType o.typeId with
            | .error e => (asked, .error e)
            | .ok t => (asked, .ok ⟨sha, t, some o.size, .base o.stream⟩)
        else
          match p.collectStreamsAtOffsetX out fuel asked ofs with
          | (asked, .error e) => (asked, .error e)
          | (asked, .ok streams) =>
            match deltaNew streams with
            | .error e => (asked, .error e)
            | .ok (t, s) => (asked, .ok ⟨sha, t, none, s⟩)

/-- `stream(sha)`, `gitdb/pack.py` 769-775: the offsets asked for, and the result. -/
def PackEntity.streamX (out : Outside) (p : PackEntity) (fuel : Nat) (asked : List Int) (sha : Bytes) : List Int × Res OStream :=
  match p.shaToIndex sha with
  | .error e => (asked, .error e)
  | .ok i => p.streamAtX out fuel asked sha i

/-- `_object(sha, False, index)`, `gitdb/pack.py` 717-727, 742-756. -/
def PackEntity.infoAtX (out : Outside) (zl : Zlib) (p : PackEntity) (fuel : Nat) (asked : List Int) (i : Nat) :
    List Int × Res (PyName × Nat) :=
  match p.index.offset i with
  | .error e => (asked, .error e)
  | .ok ofs =>
    match regionAt out p.pack.data asked ofs with
    | .error e => ((ofs : Int) :: asked, .error e)
    | .ok data =>
      let asked := (ofs : Int) :: asked
      match packObjectHeaderInfo data with
      | .error e => (asked, .error e)
      | .ok (typeId, size, _) =>
        if typeId ≠ OFS_DELTA ∧ typeId ≠ REF_DELTA then
          match typeIdToType typeId with
          | .error e => (asked, .error e)
          | .ok t => (asked, .ok (t, size))
        else
          match p.collectStreamsAtOffsetX out fuel asked ofs with
          | (asked, .error e) => (asked, .error e)
          | (asked, .ok streams) =>
            (asked, match streams.head?, streams.getLast? with
            | some first, some last =>
              match first.stream.read zl 512 with
              | (_, .error e) => .error e
              | (_, .ok buf) =>
                match msbSize buf 0 with
                | .error e => .error e
                | .ok (offset, _) =>
                  match msbSize buf offset with
                  | .error e => .error e
                  | .ok (_, targetSize) =>
                    if last.typeId = OFS_DELTA ∨ last.typeId = REF_DELTA then .error .badObject
                    else
                      match typeIdToType last.typeId with
                      | .error e => .error e
                      | .ok t => .ok (t, targetSize)
            | _, _ => .error .indexError)

/-- `info(sha)`, `gitdb/pack.py` 761-767. -/
def PackEntity.infoX (out : Outside) (zl : Zlib) (p : PackEntity) (fuel : Nat) (asked : List Int) (sha : Bytes) :
    List Int × Res (PyName × Nat) :=
  match p.shaToIndex sha with
  | .error e => (asked, .error e)
  | .ok i => p.infoAtX out zl fuel asked i

/-- `_iter_objects`, `gitdb/pack.py` 544-566. -/
def PackFile.iterObjectsX (out : Outside) (zl : Zlib) (p : PackFile) (innerFuel : Nat) : Nat → List Int → Int → List PackObj × Res Unit
  | 0, _, _ => ([], .error .diverge)
  | fuel + 1, asked, cur =>
    if cur < (p.data.length : Int) - 20 then
      match packObjectX out p.data asked cur with
      | (_, .error e) => ([], .error e)
      | (asked, .ok o) =>
        match streamCopy innerFuel (Reader.read zl) nullWrite o.size chunkSize o.stream () with
        | (_, _, .error e) => ([], .error e)
        | (r, _, .ok _) =>
          if r.br ≠ o.size then ([], .error .assertionError)
          else
            match r.compressedBytesRead zl innerFuel with
            | (_, .error e) => ([], .error e)
            | (r, .ok cbr) =>
              match r.seek 0 0 with
              | (_, .error e) => ([], .error e)
              | (r, .ok ()) =>
                let rest := p.iterObjectsX out zl innerFuel fuel asked (cur + (((o.dataOff : Int) - o.packOffset) + cbr))
                ({ o with stream := r } :: rest.1, rest.2)
    else ([], .ok ())

end GitDB
