import Verif.Model.Pack
/-!
# Packs and indices seen through windows

`mman` (`gitdb/util.py` 22) is smmap's `SlidingWindowMapManager`: it does not map a file as a whole, but regions of it.
`cursor.use_region(offset)` makes a region current that contains the offset, `buffer()` is the part of the region from the offset to the
end of the region, and `map()` the region from its beginning.  Where a region ends depends on the size of windows (1 GiB on 64 bit
systems) and on the regions that exist already; smmap is not part of the repository, so the ends are arbitrary here.
-/
set_option autoImplicit false

namespace GitDB

/-- Where the region ends that is used for an offset.  Simplification: the same region is used whenever the same offset is asked for. -/
abbrev Regions := Nat → Nat

/-- What smmap promises: the region for an offset inside of the file contains that offset. -/
def Regions.Sound (w : Regions) (file : Bytes) : Prop := ∀ off, off < file.length → off < w off

/-- `pack_object_at(cursor, offset, as_stream)`, `gitdb/pack.py` 76-127, with `data = cursor.use_region(offset).buffer()` (86). -/
def packObjectAtW (w : Regions) (pack : Bytes) (offset : Nat) : Res PackObj := packObjectAt (pack.take (w offset)) offset

/-- `stream(offset)`, `gitdb/pack.py` 633-638. -/
def PackFile.streamW (w : Regions) (p : PackFile) (offset : Nat) : Res PackObj :=
  packObjectAtW w p.data (if offset = 0 then 12 else offset)

/-- `collect_streams(offset)`, `gitdb/pack.py` 596-622. -/
def PackFile.collectStreamsW (w : Regions) (p : PackFile) : Nat → Nat → Res (List PackObj)
  | 0, _ => .error .diverge
  | fuel + 1, offset =>
    match packObjectAtW w p.data offset with
    | .error e => .error e
    | .ok o =>
      match o.info with
      | .ofs d =>
        if o.packOffset < d then .error .indexError
        else
          match p.collectStreamsW w fuel (o.packOffset - d) with
          | .error e => .error e
          | .ok l => .ok (o :: l)
      | _ => .ok [o]

/-- `_iter_objects`, `gitdb/pack.py` 544-566.  The size of the file (547) is not that of a region. -/
def PackFile.iterObjectsW (zl : Zlib) (w : Regions) (p : PackFile) (innerFuel : Nat) : Nat → Int → List PackObj × Res Unit
  | 0, _ => ([], .error .diverge)
  | fuel + 1, cur =>
    if cur < (p.data.length : Int) - 20 then
      if cur < 0 then ([], .error .indexError)
      else
      match packObjectAtW w p.data cur.toNat with
      | .error e => ([], .error e)
      | .ok o =>
        match streamCopy innerFuel (Reader.read zl) nullWrite o.size chunkSize o.stream () with
        | (_, _, .error e) => ([], .error e)
        | (r, _, .ok _) =>
          if r.br ≠ o.size then ([], .error .assertionError)
          else
            match r.compressedBytesRead zl innerFuel with
            | (_, .error e) => ([], .error e)
            | (r, .ok cbr) =>
              match r.seek 0 0 with
              | (_, .error e) => ([], .error e)
              | (r, .ok ()) =>
                let rest := p.iterObjectsW zl w innerFuel fuel (cur + (((o.dataOff : Int) - o.packOffset) + cbr))
                ({ o with stream := r } :: rest.1, rest.2)
    else ([], .ok ())

/-- `data()`, `gitdb/pack.py` 578-584: the first region. -/
def PackFile.dataW (w : Regions) (p : PackFile) : Bytes := p.data.take (w 0)

/-- `is_valid_stream(sha, use_crc=True)`, `gitdb/pack.py` 816-841, and `_offset_map`, 674-700: both work on `data()`. -/
def PackEntity.isValidCrcW (w : Regions) (p : PackEntity) (fuel : Nat) (sha : Bytes) : Res Bool :=
  PackEntity.isValidCrc { p with pack := { p.pack with data := p.pack.dataW w } } fuel sha

/-- Opening an index, `gitdb/pack.py` 272-281 and 282-302: refused if larger than a window (`window` is `mman.window_size()`, 0 if
files are mapped as a whole). -/
def IndexFile.loadW (window : Nat) (file : Bytes) : Res IndexFile :=
  if 0 < window ∧ window < file.length then .error .assertionError else IndexFile.load file

end GitDB
