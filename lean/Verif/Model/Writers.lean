import Verif.Model.Zlib
import Verif.Model.Names
/-!
# Writers: `gitdb/stream.py` 556-727, with the pieces of `hashlib`, `io.BytesIO` and `os` they use
-/
set_option autoImplicit false

namespace GitDB

/-- SHA-1: an arbitrary function into the byte strings of length 20.  Nothing else is assumed about it. -/
structure Hash where
  digest : Bytes → Bytes
  len : ∀ x, (digest x).length = 20

/-- `io.BytesIO`: contents and position. -/
structure BytesIO where
  data : Bytes := []
  pos : Nat := 0
  deriving DecidableEq, Repr

/-- `BytesIO.write`: overwrites at the position; a gap is filled with NULs. -/
def BytesIO.write (b : BytesIO) (d : Bytes) : BytesIO :=
  if d = [] then b else
  { data := b.data.take b.pos ++ List.replicate (b.pos - b.data.length) 0 ++ d ++
      b.data.drop (b.pos + d.length),
    pos := b.pos + d.length }

/-- `BytesIO.read(n)`; negative `n`: everything. -/
def BytesIO.read (b : BytesIO) (n : Int) : BytesIO × Bytes :=
  let d := if n < 0 then b.data.drop b.pos else (b.data.drop b.pos).take n.toNat
  ({ b with pos := b.pos + d.length }, d)

/-- What the operating system does with one `write(2)`: everything, only the first bytes, or an error. -/
inductive WriteOutcome where
  | full
  | short (k : Nat)
  | fail
  deriving DecidableEq, Repr

/-- An open file descriptor of a fresh file: the pieces which have been written to it, whether it was
closed, and what the operating system is going to do with the coming writes (`full` when the list is used
up). -/
structure Fd where
  chunks : List Bytes := []
  plan : List WriteOutcome := []
  closed : Bool := false
  deriving DecidableEq, Repr

/-- The contents of the file. -/
def Fd.content (f : Fd) : Bytes := f.chunks.flatten

/-- `os.write(fd, data)`: number of bytes written or `OSError`. -/
def Fd.write (f : Fd) (d : Bytes) : Fd × Res Nat :=
  if f.closed then (f, .error .osError) else
  match f.plan with
  | [] => ({ f with chunks := f.chunks ++ [d] }, .ok d.length)
  | .full :: p => ({ f with chunks := f.chunks ++ [d], plan := p }, .ok d.length)
  | .short k :: p => ({ f with chunks := f.chunks ++ [d.take k], plan := p }, .ok (min k d.length))
  | .fail :: p => ({ f with plan := p }, .error .osError)

/-- `os.close(fd)`. -/
def Fd.close (f : Fd) : Fd × Res Unit :=
  if f.closed then (f, .error .osError) else ({ f with closed := true }, .ok ())

/-- `Sha1Writer`, `gitdb/stream.py` 556-586.  A `hashlib` object is the data it was updated with. -/
structure Sha1Writer where
  hashed : Bytes := []
  deriving DecidableEq, Repr

/-- `Sha1Writer.write`, `gitdb/stream.py` 567-574. -/
def Sha1Writer.write (w : Sha1Writer) (d : Bytes) : Sha1Writer × Res Nat :=
  ({ hashed := w.hashed ++ d }, .ok d.length)

/-- `Sha1Writer.sha(as_hex)`, `gitdb/stream.py` 580-585. -/
def Sha1Writer.sha (H : Hash) (w : Sha1Writer) (asHex : Bool) : Bytes :=
  if asHex then binToHex (H.digest w.hashed) else H.digest w.hashed

/-- `FlexibleSha1Writer`, `gitdb/stream.py` 590-602, around a write function with state `ω`. -/
structure FlexibleSha1Writer (ω : Type) where
  sha1 : Sha1Writer := {}
  inner : ω

/-- `FlexibleSha1Writer.write`, `gitdb/stream.py` 600-602.  It returns `None`. -/
def FlexibleSha1Writer.write {ω ρ : Type} (wr : ω → Bytes → ω × Res ρ) (w : FlexibleSha1Writer ω)
    (d : Bytes) : FlexibleSha1Writer ω × Res (Option Int) :=
  let s := (w.sha1.write d).1
  match wr w.inner d with
  | (i, .error e) => ({ sha1 := s, inner := i }, .error e)
  | (i, .ok _) => ({ sha1 := s, inner := i }, .ok none)

/-- `ZippedStoreShaWriter`, `gitdb/stream.py` 605-637. -/
structure ZippedStoreShaWriter (zl : Zlib) where
  sha1 : Sha1Writer := {}
  buf : BytesIO := {}
  zip : zl.Comp

/-- `ZippedStoreShaWriter()`, `gitdb/stream.py` 610-613 (`Z_BEST_SPEED` = 1). -/
def ZippedStoreShaWriter.new (zl : Zlib) : ZippedStoreShaWriter zl := { zip := zl.cinit 1 }

/-- `ZippedStoreShaWriter.write`, `gitdb/stream.py` 618-622. -/
def ZippedStoreShaWriter.write {zl : Zlib} (w : ZippedStoreShaWriter zl) (d : Bytes) :
    ZippedStoreShaWriter zl × Res Nat :=
  let c := zl.ccompress w.zip d
  ({ sha1 := (w.sha1.write d).1, buf := w.buf.write c.2, zip := c.1 }, .ok d.length)

/-- `ZippedStoreShaWriter.close`, `gitdb/stream.py` 624-625. -/
def ZippedStoreShaWriter.close {zl : Zlib} (w : ZippedStoreShaWriter zl) : ZippedStoreShaWriter zl :=
  { w with buf := w.buf.write (zl.cflush w.zip) }

/-- `ZippedStoreShaWriter.seek`, `gitdb/stream.py` 627-633. -/
def ZippedStoreShaWriter.seek {zl : Zlib} (w : ZippedStoreShaWriter zl) (offset whence : Int) :
    ZippedStoreShaWriter zl × Res Unit :=
  if offset ≠ 0 ∨ whence ≠ 0 then (w, .error .valueError)
  else ({ w with buf := { w.buf with pos := 0 } }, .ok ())

/-- `ZippedStoreShaWriter.getvalue`, `gitdb/stream.py` 635-637. -/
def ZippedStoreShaWriter.getvalue {zl : Zlib} (w : ZippedStoreShaWriter zl) : Bytes := w.buf.data

/-- `ZippedStoreShaWriter.read` through `__getattr__`, `gitdb/stream.py` 615-616. -/
def ZippedStoreShaWriter.read {zl : Zlib} (w : ZippedStoreShaWriter zl) (n : Int) :
    ZippedStoreShaWriter zl × Bytes :=
  let r := w.buf.read n
  ({ w with buf := r.1 }, r.2)

/-- `FDCompressedSha1Writer`, `gitdb/stream.py` 640-676. -/
structure FDCompressedSha1Writer (zl : Zlib) where
  sha1 : Sha1Writer := {}
  fd : Fd
  zip : zl.Comp

/-- `FDCompressedSha1Writer(fd)`, `gitdb/stream.py` 652-655. -/
def FDCompressedSha1Writer.new (zl : Zlib) (fd : Fd) : FDCompressedSha1Writer zl :=
  { fd := fd, zip := zl.cinit 1 }

/-- `FDCompressedSha1Writer.write`, `gitdb/stream.py` 659-669. -/
def FDCompressedSha1Writer.write {zl : Zlib} (w : FDCompressedSha1Writer zl) (d : Bytes) :
    FDCompressedSha1Writer zl × Res Nat :=
  let s := (w.sha1.write d).1
  let c := zl.ccompress w.zip d
  match w.fd.write c.2 with
  | (f, .error e) => ({ sha1 := s, fd := f, zip := c.1 }, .error e)
  | (f, .ok n) =>
    if n ≠ c.2.length then ({ sha1 := s, fd := f, zip := c.1 }, .error .osError)
    else ({ sha1 := s, fd := f, zip := c.1 }, .ok d.length)

/-- `FDCompressedSha1Writer.close`, `gitdb/stream.py` 671-675. -/
def FDCompressedSha1Writer.close {zl : Zlib} (w : FDCompressedSha1Writer zl) :
    FDCompressedSha1Writer zl × Res Unit :=
  let r := zl.cflush w.zip
  match w.fd.write r with
  | (f, .error e) => ({ w with fd := f }, .error e)
  | (f, .ok n) =>
    if n ≠ r.length then ({ w with fd := f }, .error .osError)
    else ({ w with fd := f.close.1 }, f.close.2)

/-- `FDStream`, `gitdb/stream.py` 680-711: wrapper that writes without looking at the result. -/
structure FDStream where
  fd : Fd
  pos : Nat := 0
  deriving DecidableEq, Repr

/-- `FDStream.write`, `gitdb/stream.py` 691-693.  It returns `None`. -/
def FDStream.write (s : FDStream) (d : Bytes) : FDStream × Res (Option Int) :=
  match s.fd.write d with
  | (f, .error e) => ({ fd := f, pos := s.pos + d.length }, .error e)
  | (f, .ok _) => ({ fd := f, pos := s.pos + d.length }, .ok none)

/-- `FDStream.read(count)`, `gitdb/stream.py` 695-702, with the descriptor's unread bytes given.  For
`count = 0` it uses the attribute `_filepath`, which does not exist. -/
def FDStream.read (s : FDStream) (unread : Bytes) (count : Nat) : FDStream × Res Bytes :=
  if count = 0 then (s, .error .attributeError)
  else ({ s with pos := s.pos + (unread.take count).length }, .ok (unread.take count))

/-- A sequence of write calls, stopping at the first exception. -/
def writeMany {ω ρ : Type} (write : ω → Bytes → ω × Res ρ) : ω → List Bytes → ω × Res (List ρ)
  | w, [] => (w, .ok [])
  | w, d :: ds =>
    match write w d with
    | (w, .error e) => (w, .error e)
    | (w, .ok r) =>
      match writeMany write w ds with
      | (w, .error e) => (w, .error e)
      | (w, .ok rs) => (w, .ok (r :: rs))

end GitDB
