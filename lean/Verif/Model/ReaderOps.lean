import Verif.Model.Decomp
/-!
# Calls on a `DecompressMemMapReader` whose exceptions are caught
-/
set_option autoImplicit false

namespace GitDB

/-- A call on a reader: `read(n)` (`gitdb/stream.py` 214-319), `seek(offset, whence)` (200-212), `compressed_bytes_read()` (151-196; the
argument bounds the model's loop). -/
inductive ReaderOp where
  | read (n : Int)
  | seek (offset whence : Int)
  | count (fuel : Nat)
  deriving DecidableEq, Repr

/-- What a call returns. -/
inductive ReaderOut where
  | data (d : Bytes)
  | nothing
  | number (n : Int)
  deriving DecidableEq, Repr

/-- One call: the reader afterwards, also if an exception was raised. -/
def Reader.step (zl : Zlib) (r : Reader) : ReaderOp → Reader × Res ReaderOut
  | .read n => match r.read zl n with
    | (r, .error e) => (r, .error e)
    | (r, .ok d) => (r, .ok (.data d))
  | .seek o w => match r.seek o w with
    | (r, .error e) => (r, .error e)
    | (r, .ok ()) => (r, .ok .nothing)
  | .count fuel => match r.compressedBytesRead zl fuel with
    | (r, .error e) => (r, .error e)
    | (r, .ok n) => (r, .ok (.number n))

/-- A sequence of calls; the caller goes on after an exception. -/
def Reader.steps (zl : Zlib) (r : Reader) (ops : List ReaderOp) : Reader := ops.foldl (fun r op => (r.step zl op).1) r

end GitDB
