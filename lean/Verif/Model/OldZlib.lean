import Verif.Model.ReaderOps
import Verif.Model.Pack
/-!
# The branch for zlib 1.2.5 and 1.2.7: `gitdb/stream.py` 297-298

If the zlib library has version 1.2.5 or 1.2.7 (and the platform is not `darwin`), `DecompressMemMapReader.read` does not subtract the length of `unused_data` from the
number of compressed bytes read.  The functions below are those of `Model/Decomp.lean` and `Model/Pack.lean` with this one difference.  That `decompressobj` itself behaves as
described in `Model/Zlib.lean` is assumed for these versions too: `unconsumed_tail` and `unused_data` are set by CPython, not by zlib.
-/
set_option autoImplicit false

namespace GitDB

/-- The window and the call of zlib, `gitdb/stream.py` 257-304, with the branch 297-298. -/
def Reader.readZipOld (zl : Zlib) (r : Reader) (size : Int) : Reader × Res Bytes :=
  let tail := r.zip.tail
  let cws : Nat := if tail ≠ [] then r.cwe - tail.length else r.cwe
  let cwe : Int := if tail ≠ [] then cws + size else r.cws + size
  let cwe : Int := if cwe - cws < 8 then cws + 8 else cwe
  let indata := pySlice r.m cws cwe.toNat
  let r := { r with cws := cws, cwe := cws + indata.length }
  match r.zip.decompress zl indata size with
  | (z, .error e) => ({ r with zip := z }, .error e)
  | (z, .ok dcompdat) =>
    let unusedLen : Int := z.tail.length
    ({ r with zip := z, cbr := r.cbr + (indata.length - unusedLen), br := r.br + dcompdat.length },
      .ok dcompdat)

/-- `read(size)` when `_s` is present: `gitdb/stream.py` 214-319. -/
def Reader.readCoreOld (zl : Zlib) : Nat → Reader → Int → Reader × Res Bytes
  | 0, r, _ => (r, .error .diverge)
  | fuel + 1, r, size0 =>
    let size := if size0 < 1 then r.s - r.br else min size0 (r.s - r.br)
    if size = 0 then (r, .ok [])
    else
      let cont (r : Reader) (dat : Bytes) (size : Int) : Reader × Res Bytes :=
        match r.readZipOld zl size with
        | (r, .error e) => (r, .error e)
        | (r, .ok new) =>
          let dcompdat := dat ++ new
          if dcompdat ≠ [] ∧ (dcompdat.length : Int) - dat.length < size ∧ r.br < r.s then
            match readCoreOld zl fuel r (size - dcompdat.length) with
            | (r, .error e) => (r, .error e)
            | (r, .ok more) => (r, .ok (dcompdat ++ more))
          else (r, .ok dcompdat)
      match r.buf with
      | some b =>
        if r.buflen ≥ size then
          let dat := if size < 0 then b else b.take size.toNat
          let b := if size < 0 then [] else b.drop size.toNat
          ({ r with buf := some b, buflen := r.buflen - size, br := r.br + size }, .ok dat)
        else
          cont { r with br := r.br + r.buflen, buflen := 0, buf := none } b (size - r.buflen)
      | none => cont r [] size

/-- `_parse_header_info`, `gitdb/stream.py` 94-119. -/
def Reader.parseHeaderInfoOld (zl : Zlib) (r : Reader) : Reader × Res (Bytes × Int) :=
  let r := { r with s := maxHeader, hasS := true }
  match r.readCoreOld zl (r.fuel) maxHeader with
  | (r, .error e) => (r, .error e)
  | (r, .ok hdr) =>
    match parseObjectHeader hdr with
    | .error e => (r, .error e)
    | .ok (typ, size, hdrend) =>
      ({ r with s := size, br := 0, buf := some (hdr.drop hdrend), buflen := hdr.length - hdrend,
                phi := true }, .ok (typ, size))

/-- `DecompressMemMapReader.new(m)`, `gitdb/stream.py` 123-134. -/
def Reader.newOld (zl : Zlib) (m : Bytes) : Res (Bytes × Int × Reader) :=
  match (Reader.ofSize m 0).parseHeaderInfoOld zl with
  | (_, .error e) => .error e
  | (r, .ok (typ, size)) => .ok (typ, size, r)

/-- Access to `_s` (`LazyMixin`, `gitdb/util.py`, and `_set_cache_`, `gitdb/stream.py` 85-89). -/
def Reader.needSOld (zl : Zlib) (r : Reader) : Reader × Res Unit :=
  if r.hasS then (r, .ok ())
  else
    match r.parseHeaderInfoOld zl with
    | (r, .error e) => (r, .error e)
    | (r, .ok _) => (r, .ok ())

/-- `read(size)`, `gitdb/stream.py` 214-319. -/
def Reader.readOld (zl : Zlib) (r : Reader) (size : Int) : Reader × Res Bytes :=
  match r.needSOld zl with
  | (r, .error e) => (r, .error e)
  | (r, .ok ()) => r.readCoreOld zl r.fuel size

/-- The loop `gitdb/stream.py` 185-187. -/
def Reader.scrubOld (zl : Zlib) : Nat → Reader → Reader × Res Unit
  | 0, r => (r, .error .diverge)
  | fuel + 1, r =>
    if r.zip.unused = [] ∧ r.cbr ≠ r.m.length then
      match r.readCoreOld zl r.fuel PAGESIZE with
      | (r, .error e) => (r, .error e)
      | (r, .ok _) => scrubOld zl fuel r
    else (r, .ok ())

/-- `compressed_bytes_read()`, `gitdb/stream.py` 151-196. -/
def Reader.compressedBytesReadOld (zl : Zlib) (fuel : Nat) (r : Reader) : Reader × Res Int :=
  match r.needSOld zl with
  | (r, .error e) => (r, .error e)
  | (r, .ok ()) =>
    if r.br = r.s ∧ r.zip.unused = [] then
      match ({ r with br := 0 } : Reader).scrubOld zl fuel with
      | (r, .error e) => (r, .error e)
      | (r, .ok ()) => ({ r with br := r.s }, .ok r.cbr)
    else (r, .ok r.cbr)

/-- One call, see `Reader.step`. -/
def Reader.stepOld (zl : Zlib) (r : Reader) : ReaderOp → Reader × Res ReaderOut
  | .read n => match r.readOld zl n with
    | (r, .error e) => (r, .error e)
    | (r, .ok d) => (r, .ok (.data d))
  | .seek o w => match r.seek o w with
    | (r, .error e) => (r, .error e)
    | (r, .ok ()) => (r, .ok .nothing)
  | .count fuel => match r.compressedBytesReadOld zl fuel with
    | (r, .error e) => (r, .error e)
    | (r, .ok n) => (r, .ok (.number n))

/-- `_iter_objects`, `gitdb/pack.py` 544-566. -/
def PackFile.iterObjectsOld (zl : Zlib) (p : PackFile) (innerFuel : Nat) : Nat → Int → List PackObj × Res Unit
  | 0, _ => ([], .error .diverge)
  | fuel + 1, cur =>
    if cur < (p.data.length : Int) - 20 then
      if cur < 0 then ([], .error .indexError)
      else
      match packObjectAt p.data cur.toNat with
      | .error e => ([], .error e)
      | .ok o =>
        match streamCopy innerFuel (Reader.readOld zl) nullWrite o.size chunkSize o.stream () with
        | (_, _, .error e) => ([], .error e)
        | (r, _, .ok _) =>
          if r.br ≠ o.size then ([], .error .assertionError)
          else
            match r.compressedBytesReadOld zl innerFuel with
            | (_, .error e) => ([], .error e)
            | (r, .ok cbr) =>
              match r.seek 0 0 with
              | (_, .error e) => ([], .error e)
              | (r, .ok ()) =>
                let rest := p.iterObjectsOld zl innerFuel fuel (cur + (((o.dataOff : Int) - o.packOffset) + cbr))
                ({ o with stream := r } :: rest.1, rest.2)
    else ([], .ok ())

/-- `stream_iter(start_offset)`, `gitdb/pack.py` 640-650. -/
def PackFile.streamIterOld (zl : Zlib) (p : PackFile) (innerFuel fuel : Nat) (start : Nat) : List PackObj × Res Unit :=
  p.iterObjectsOld zl innerFuel fuel (if start = 0 then 12 else start)

end GitDB
