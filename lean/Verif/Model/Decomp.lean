import Verif.Model.Zlib
import Verif.Model.Header
import Verif.Model.Copy
/-!
# `DecompressMemMapReader`: `gitdb/stream.py` 46-319
-/
set_option autoImplicit false

namespace GitDB

/-- State of a `DecompressMemMapReader` (`gitdb/stream.py` 69-83).  `_buf` is represented by what is left
to read from the `BytesIO`.  `hasS = false` means that the attribute `_s` is deleted (then `s` is
meaningless).  `_close` and the map's own `close` are not modelled. -/
structure Reader where
  m : Bytes
  zip : ZDec := {}
  buf : Option Bytes := none
  buflen : Int := 0
  s : Int
  hasS : Bool := true
  br : Int := 0
  cws : Nat := 0
  cwe : Nat := 0
  cbr : Int := 0
  phi : Bool := false
  deriving DecidableEq, Repr

/-- `DecompressMemMapReader(m, close, size)`, `gitdb/stream.py` 69-83. -/
def Reader.ofSize (m : Bytes) (size : Int) : Reader := { m := m, s := size }

/-- The window and the call of zlib: `gitdb/stream.py` 257-304.  (The branch 297-298 for zlib 1.2.5/1.2.7
is in `Model/OldZlib.lean`.) -/
def Reader.readZip (zl : Zlib) (r : Reader) (size : Int) : Reader × Res Bytes :=
  let tail := r.zip.tail
  let cws : Nat := if tail ≠ [] then r.cwe - tail.length else r.cwe
  let cwe : Int := if tail ≠ [] then cws + size else r.cws + size
  let cwe : Int := if cwe - cws < 8 then cws + 8 else cwe
  let indata := pySlice r.m cws cwe.toNat
  let r := { r with cws := cws, cwe := cws + indata.length }
  match r.zip.decompress zl indata size with
  | (z, .error e) => ({ r with zip := z }, .error e)
  | (z, .ok dcompdat) =>
    let unusedLen : Int := z.tail.length + z.unused.length
    ({ r with zip := z, cbr := r.cbr + (indata.length - unusedLen), br := r.br + dcompdat.length },
      .ok dcompdat)

/-- `read(size)` when `_s` is present: `gitdb/stream.py` 214-319.  The recursion (317) takes fuel; Python's
limit on the recursion depth is not modelled. -/
def Reader.readCore (zl : Zlib) : Nat → Reader → Int → Reader × Res Bytes
  | 0, r, _ => (r, .error .diverge)
  | fuel + 1, r, size0 =>
    let size := if size0 < 1 then r.s - r.br else min size0 (r.s - r.br)
    if size = 0 then (r, .ok [])
    else
      let cont (r : Reader) (dat : Bytes) (size : Int) : Reader × Res Bytes :=
        match r.readZip zl size with
        | (r, .error e) => (r, .error e)
        | (r, .ok new) =>
          let dcompdat := dat ++ new
          if dcompdat ≠ [] ∧ (dcompdat.length : Int) - dat.length < size ∧ r.br < r.s then
            match readCore zl fuel r (size - dcompdat.length) with
            | (r, .error e) => (r, .error e)
            | (r, .ok more) => (r, .ok (dcompdat ++ more))
          else (r, .ok dcompdat)
      match r.buf with
      | some b =>
        if r.buflen ≥ size then
          -- `BytesIO.read` with a negative argument reads everything
          let dat := if size < 0 then b else b.take size.toNat
          let b := if size < 0 then [] else b.drop size.toNat
          ({ r with buf := some b, buflen := r.buflen - size, br := r.br + size }, .ok dat)
        else
          cont { r with br := r.br + r.buflen, buflen := 0, buf := none } b (size - r.buflen)
      | none => cont r [] size

/-- Enough fuel for every read on a sane state: every recursive call returns data or empties `_buf`. -/
def Reader.fuel (r : Reader) : Nat := (r.s - r.br).toNat + 3

/-- Number of bytes `_parse_header_info` asks for. -/
def maxHeader : Nat := 8192

/-- `_parse_header_info`, `gitdb/stream.py` 94-119. -/
def Reader.parseHeaderInfo (zl : Zlib) (r : Reader) : Reader × Res (Bytes × Int) :=
  let r := { r with s := maxHeader, hasS := true }
  match r.readCore zl (r.fuel) maxHeader with
  | (r, .error e) => (r, .error e)
  | (r, .ok hdr) =>
    match parseObjectHeader hdr with
    | .error e => (r, .error e)
    | .ok (typ, size, hdrend) =>
      ({ r with s := size, br := 0, buf := some (hdr.drop hdrend), buflen := hdr.length - hdrend,
                phi := true }, .ok (typ, size))

/-- `DecompressMemMapReader.new(m)`, `gitdb/stream.py` 123-134. -/
def Reader.new (zl : Zlib) (m : Bytes) : Res (Bytes × Int × Reader) :=
  match (Reader.ofSize m 0).parseHeaderInfo zl with
  | (_, .error e) => .error e
  | (r, .ok (typ, size)) => .ok (typ, size, r)

/-- Access to `_s` (`LazyMixin`, `gitdb/util.py`, and `_set_cache_`, `gitdb/stream.py` 85-89). -/
def Reader.needS (zl : Zlib) (r : Reader) : Reader × Res Unit :=
  if r.hasS then (r, .ok ())
  else
    match r.parseHeaderInfo zl with
    | (r, .error e) => (r, .error e)
    | (r, .ok _) => (r, .ok ())

/-- `read(size)`, `gitdb/stream.py` 214-319. -/
def Reader.read (zl : Zlib) (r : Reader) (size : Int) : Reader × Res Bytes :=
  match r.needS zl with
  | (r, .error e) => (r, .error e)
  | (r, .ok ()) => r.readCore zl r.fuel size

/-- `seek(offset, whence)`, `gitdb/stream.py` 200-212. -/
def Reader.seek (r : Reader) (offset whence : Int) : Reader × Res Unit :=
  if offset ≠ 0 ∨ whence ≠ 0 then (r, .error .valueError)
  else
    let r := { r with zip := {}, br := 0, cws := 0, cwe := 0, cbr := 0 }
    (if r.phi then { r with phi := false, hasS := false } else r, .ok ())

/-- The loop `gitdb/stream.py` 185-187 (`decompressobj` has no attribute `status`). -/
def Reader.scrub (zl : Zlib) : Nat → Reader → Reader × Res Unit
  | 0, r => (r, .error .diverge)
  | fuel + 1, r =>
    if r.zip.unused = [] ∧ r.cbr ≠ r.m.length then
      match r.readCore zl r.fuel PAGESIZE with
      | (r, .error e) => (r, .error e)
      | (r, .ok _) => scrub zl fuel r
    else (r, .ok ())

/-- `compressed_bytes_read()`, `gitdb/stream.py` 151-196. -/
def Reader.compressedBytesRead (zl : Zlib) (fuel : Nat) (r : Reader) : Reader × Res Int :=
  match r.needS zl with
  | (r, .error e) => (r, .error e)
  | (r, .ok ()) =>
    if r.br = r.s ∧ r.zip.unused = [] then
      match ({ r with br := 0 } : Reader).scrub zl fuel with
      | (r, .error e) => (r, .error e)
      | (r, .ok ()) => ({ r with br := r.s }, .ok r.cbr)
    else (r, .ok r.cbr)

/-- `loose_object_header_info(m)`, `gitdb/fun.py` 403-412. -/
def looseObjectHeaderInfo (zl : Zlib) (m : Bytes) : Res (Bytes × Int) :=
  match ZDec.decompress zl {} m maxHeader with
  | (_, .error e) => .error e
  | (_, .ok hdr) =>
    match parseObjectHeader hdr with
    | .error e => .error e
    | .ok (typ, size, _) => .ok (typ, size)

end GitDB
