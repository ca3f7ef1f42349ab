import Verif.Model.Writers
/-!
# Compressing writers after `close`

`compressobj.flush()` ends the compressor; CPython's `compress` and `flush` raise `zlib.error` from then on
(`zlibmodule.c`: `deflate` on an ended stream gives `Z_STREAM_ERROR`).  `Verif.Model.Writers` describes the writers up to there.
-/
set_option autoImplicit false

namespace GitDB

/-- A call on a writer: `write(data)` or `close()`. -/
inductive WriterOp where
  | write (d : Bytes)
  | close
  deriving DecidableEq, Repr

/-- A `ZippedStoreShaWriter` that may have been closed. -/
structure ZippedLife (zl : Zlib) where
  w : ZippedStoreShaWriter zl
  ended : Bool := false

/-- `write` and `close`, `gitdb/stream.py` 618-625; `write` hashes the data before it compresses them (619). -/
def ZippedLife.step {zl : Zlib} (s : ZippedLife zl) : WriterOp → ZippedLife zl × Res (Option Nat)
  | .write d =>
    if s.ended then ({ s with w := { s.w with sha1 := (s.w.sha1.write d).1 } }, .error .zlibError)
    else match s.w.write d with
      | (w, .error e) => ({ s with w := w }, .error e)
      | (w, .ok n) => ({ s with w := w }, .ok (some n))
  | .close =>
    if s.ended then (s, .error .zlibError) else ({ w := s.w.close, ended := true }, .ok none)

/-- An `FDCompressedSha1Writer` that may have been closed. -/
structure FdLife (zl : Zlib) where
  w : FDCompressedSha1Writer zl
  ended : Bool := false

/-- `write` and `close`, `gitdb/stream.py` 659-675.  `close` ends the compressor before it writes the rest (672). -/
def FdLife.step {zl : Zlib} (s : FdLife zl) : WriterOp → FdLife zl × Res (Option Nat)
  | .write d =>
    if s.ended then ({ s with w := { s.w with sha1 := (s.w.sha1.write d).1 } }, .error .zlibError)
    else match s.w.write d with
      | (w, .error e) => ({ s with w := w }, .error e)
      | (w, .ok n) => ({ s with w := w }, .ok (some n))
  | .close =>
    if s.ended then (s, .error .zlibError)
    else match s.w.close with
      | (w, .error e) => ({ w := w, ended := true }, .error e)
      | (w, .ok ()) => ({ w := w, ended := true }, .ok none)

/-- A sequence of calls whose exceptions are caught: the state and the results. -/
def runWriter {σ ρ : Type} (step : σ → WriterOp → σ × Res ρ) : σ → List WriterOp → σ × List (Res ρ)
  | s, [] => (s, [])
  | s, op :: ops => let r := runWriter step (step s op).1 ops; (r.1, (step s op).2 :: r.2)

end GitDB
