import Verif.Model.ReaderOps
import Verif.Model.DeltaMemory
import Verif.Model.Pack
/-!
# Sizes that do not fit a machine word

`zlib`'s `decompress(data, max_length)`, `BytesIO.read(size)` and `mmap.mmap(-1, size)` take a `Py_ssize_t`: for numbers outside of
`-2 ^ 63 ≤ n < 2 ^ 63` they raise `OverflowError` before doing anything (64 bit platforms).  `Model/Decomp.lean` and `Model/Pack.lean` do
not have this limit.  Here are the same functions with it.  Slices (`self._m[cws:cwe]`) take numbers of any size.
-/
set_option autoImplicit false

namespace GitDB

/-- Numbers that fit a `Py_ssize_t`. -/
def fitsWord (n : Int) : Bool := decide (-(2 ^ 63 : Int) ≤ n) && decide (n < (2 ^ 63 : Int))

/-- `Decompress.decompress(data, max_length)` of CPython's `zlibmodule.c`, with the conversion of its argument (called in
`gitdb/stream.py` 283). -/
def ZDec.decompressWord (zl : Zlib) (z : ZDec) (w : Bytes) (max : Int) : ZDec × Res Bytes :=
  if fitsWord max then z.decompress zl w max else (z, .error .overflowError)

/-- `Reader.readZip` (`gitdb/stream.py` 257-304) with `decompressWord`. -/
def Reader.readZipWord (zl : Zlib) (r : Reader) (size : Int) : Reader × Res Bytes :=
  let tail := r.zip.tail
  let cws : Nat := if tail ≠ [] then r.cwe - tail.length else r.cwe
  let cwe : Int := if tail ≠ [] then cws + size else r.cws + size
  let cwe : Int := if cwe - cws < 8 then cws + 8 else cwe
  let indata := pySlice r.m cws cwe.toNat
  let r := { r with cws := cws, cwe := cws + indata.length }
  match r.zip.decompressWord zl indata size with
  | (z, .error e) => ({ r with zip := z }, .error e)
  | (z, .ok dcompdat) =>
    let unusedLen : Int := z.tail.length + z.unused.length
    ({ r with zip := z, cbr := r.cbr + (indata.length - unusedLen), br := r.br + dcompdat.length },
      .ok dcompdat)

/-- `Reader.readCore` (`gitdb/stream.py` 214-319) with `readZipWord`, and with `BytesIO.read(size)` (233). -/
def Reader.readCoreWord (zl : Zlib) : Nat → Reader → Int → Reader × Res Bytes
  | 0, r, _ => (r, .error .diverge)
  | fuel + 1, r, size0 =>
    let size := if size0 < 1 then r.s - r.br else min size0 (r.s - r.br)
    if size = 0 then (r, .ok [])
    else
      let cont (r : Reader) (dat : Bytes) (size : Int) : Reader × Res Bytes :=
        match r.readZipWord zl size with
        | (r, .error e) => (r, .error e)
        | (r, .ok new) =>
          let dcompdat := dat ++ new
          if dcompdat ≠ [] ∧ (dcompdat.length : Int) - dat.length < size ∧ r.br < r.s then
            match readCoreWord zl fuel r (size - dcompdat.length) with
            | (r, .error e) => (r, .error e)
            | (r, .ok more) => (r, .ok (dcompdat ++ more))
          else (r, .ok dcompdat)
      match r.buf with
      | some b =>
        if r.buflen ≥ size then
          if fitsWord size then
            let dat := if size < 0 then b else b.take size.toNat
            let b := if size < 0 then [] else b.drop size.toNat
            ({ r with buf := some b, buflen := r.buflen - size, br := r.br + size }, .ok dat)
          else (r, .error .overflowError)
        else
          cont { r with br := r.br + r.buflen, buflen := 0, buf := none } b (size - r.buflen)
      | none => cont r [] size

/-- `_parse_header_info`, `gitdb/stream.py` 94-119, with `readCoreWord`. -/
def Reader.parseHeaderInfoWord (zl : Zlib) (r : Reader) : Reader × Res (Bytes × Int) :=
  let r := { r with s := maxHeader, hasS := true }
  match r.readCoreWord zl (r.fuel) maxHeader with
  | (r, .error e) => (r, .error e)
  | (r, .ok hdr) =>
    match parseObjectHeader hdr with
    | .error e => (r, .error e)
    | .ok (typ, size, hdrend) =>
      ({ r with s := size, br := 0, buf := some (hdr.drop hdrend), buflen := hdr.length - hdrend,
                phi := true }, .ok (typ, size))

/-- `DecompressMemMapReader.new(m)`, `gitdb/stream.py` 123-134, with `readCoreWord`. -/
def Reader.newWord (zl : Zlib) (m : Bytes) : Res (Bytes × Int × Reader) :=
  match (Reader.ofSize m 0).parseHeaderInfoWord zl with
  | (_, .error e) => .error e
  | (r, .ok (typ, size)) => .ok (typ, size, r)

/-- Access to `_s` (`gitdb/stream.py` 85-89), with `readCoreWord`. -/
def Reader.needSWord (zl : Zlib) (r : Reader) : Reader × Res Unit :=
  if r.hasS then (r, .ok ())
  else
    match r.parseHeaderInfoWord zl with
    | (r, .error e) => (r, .error e)
    | (r, .ok _) => (r, .ok ())

/-- `read(size)`, `gitdb/stream.py` 214-319, with `readCoreWord`. -/
def Reader.readWord (zl : Zlib) (r : Reader) (size : Int) : Reader × Res Bytes :=
  match r.needSWord zl with
  | (r, .error e) => (r, .error e)
  | (r, .ok ()) => r.readCoreWord zl r.fuel size

/-- The loop `gitdb/stream.py` 185-187, with `readCoreWord`. -/
def Reader.scrubWord (zl : Zlib) : Nat → Reader → Reader × Res Unit
  | 0, r => (r, .error .diverge)
  | fuel + 1, r =>
    if r.zip.unused = [] ∧ r.cbr ≠ r.m.length then
      match r.readCoreWord zl r.fuel PAGESIZE with
      | (r, .error e) => (r, .error e)
      | (r, .ok _) => scrubWord zl fuel r
    else (r, .ok ())

/-- `compressed_bytes_read()`, `gitdb/stream.py` 151-196, with `readCoreWord`. -/
def Reader.compressedBytesReadWord (zl : Zlib) (fuel : Nat) (r : Reader) : Reader × Res Int :=
  match r.needSWord zl with
  | (r, .error e) => (r, .error e)
  | (r, .ok ()) =>
    if r.br = r.s ∧ r.zip.unused = [] then
      match ({ r with br := 0 } : Reader).scrubWord zl fuel with
      | (r, .error e) => (r, .error e)
      | (r, .ok ()) => ({ r with br := r.s }, .ok r.cbr)
    else (r, .ok r.cbr)

/-- One call on a reader (`Reader.step`), with `readCoreWord` (`gitdb/stream.py` 151-319). -/
def Reader.stepWord (zl : Zlib) (r : Reader) : ReaderOp → Reader × Res ReaderOut
  | .read n => match r.readWord zl n with
    | (r, .error e) => (r, .error e)
    | (r, .ok d) => (r, .ok (.data d))
  | .seek o w => match r.seek o w with
    | (r, .error e) => (r, .error e)
    | (r, .ok ()) => (r, .ok .nothing)
  | .count fuel => match r.compressedBytesReadWord zl fuel with
    | (r, .error e) => (r, .error e)
    | (r, .ok n) => (r, .ok (.number n))

/-- The largest number `mmap.mmap(-1, size)` takes (`gitdb/util.py` 153). -/
def maxWord : Nat := 2 ^ 63 - 1

/-- First access to `_mm_target` / `_size` of a `DeltaApplyReader` (`gitdb/stream.py` 404-476), with `readWord` and allocations of a size
that fits. -/
def PStream.openWord (zl : Zlib) (fuel : Nat) : PStream → Res PStream
  | .delta streams =>
    match newDeltaReaderUpTo maxWord .overflowError fuel (Reader.readWord zl) (streams.map fun o => (o.stream, o.size)) with
    | .error e => .error e
    | .ok r => .ok (.resolved r)
  | s => .ok s

/-- `read(n)` of a stream from a pack (`gitdb/stream.py` 214-319, 486-494), with `openWord` and `readWord`. -/
def PStream.readWord (zl : Zlib) (fuel : Nat) (s : PStream) (n : Int) : PStream × Res Bytes :=
  match s.openWord zl fuel with
  | .error e => (s, .error e)
  | .ok (.base r) => let (r, d) := r.readWord zl n; (.base r, d)
  | .ok (.resolved r) => let (r, d) := r.read n; (.resolved r, .ok d)
  | .ok (.delta l) => (.delta l, .error .diverge) -- not possible

/-- The `size` property of `OStream` and `ODeltaStream` (`gitdb/base.py`), with `openWord`. -/
def OStream.getSizeWord (zl : Zlib) (fuel : Nat) (o : OStream) : Res Nat :=
  match o.size with
  | some n => .ok n
  | none =>
    match o.stream.openWord zl fuel with
    | .error e => .error e
    | .ok (.resolved r) => .ok r.size
    | .ok _ => .error .attributeError

/-- `is_valid_stream(sha)`, `gitdb/pack.py` 842-849, with `getSizeWord` and `readWord`. -/
def PackEntity.isValidShaWord (H : Hash) (zl : Zlib) (p : PackEntity) (fuel : Nat) (sha : Bytes) : Res Bool :=
  match p.stream fuel sha with
  | .error e => .error e
  | .ok o =>
    match o.getSizeWord zl fuel with
    | .error e => .error e
    | .ok size =>
      match writeObject fuel o.type.text size (PStream.readWord zl fuel)
          Sha1Writer.writeInt chunkSize o.stream {} with
      | (_, _, .error e) => .error e
      | (_, w, .ok _) => if w.sha H false = sha then .ok true else .error .assertionError

end GitDB
