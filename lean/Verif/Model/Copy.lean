import Verif.Model.Header
/-!
# Copying streams: `gitdb/fun.py` 488-533

A stream is a state `σ` with a `read` method; a writer is a state `ω` with a `write` method.  Both
may raise; the state after the exception is part of the result.
-/
set_option autoImplicit false

namespace GitDB

variable {σ ω ρ : Type}

/-- The loop of `stream_copy`, `gitdb/fun.py` 515-532.  Each iteration uses one unit of fuel, since
nothing in the code bounds the number of iterations.  `chunk_size`, `size` and the argument of `read`
are Python integers and can be negative. -/
def streamCopyLoop (read : σ → Int → σ × Res Bytes) (write : ω → Bytes → ω × Res ρ)
    (size chunkSize : Int) : Nat → Int → σ → ω → σ × ω × Res Int
  | 0, _, s, w => (s, w, .error .diverge)
  | fuel + 1, dbw, s, w =>
    let cs := min chunkSize (size - dbw)
    match read s cs with
    | (s, .error e) => (s, w, .error e)
    | (s, .ok data) =>
      let dbw := dbw + data.length
      match write w data with
      | (w, .error e) => (s, w, .error e)
      | (w, .ok _) =>
        if (data.length : Int) < cs ∨ dbw = size then (s, w, .ok dbw)
        else streamCopyLoop read write size chunkSize fuel dbw s w

/-- `stream_copy(read, write, size, chunk_size)`, `gitdb/fun.py` 509-533. -/
def streamCopy (fuel : Nat) (read : σ → Int → σ × Res Bytes) (write : ω → Bytes → ω × Res ρ)
    (size chunkSize : Int) (s : σ) (w : ω) : σ × ω × Res Int :=
  streamCopyLoop read write size chunkSize fuel 0 s w

/-- `write_object(type, size, read, write, chunk_size)`, `gitdb/fun.py` 488-506.  The header's `write`
result is added to an integer, so a `write` returning `None` raises `TypeError` (after writing). -/
def writeObject (fuel : Nat) (type : Bytes) (size : Nat) (read : σ → Int → σ × Res Bytes)
    (write : ω → Bytes → ω × Res (Option Int)) (chunkSize : Int) (s : σ) (w : ω) :
    σ × ω × Res Int :=
  match looseObjectHeader type size with
  | .error e => (s, w, .error e)
  | .ok hdr =>
    match write w hdr with
    | (w, .error e) => (s, w, .error e)
    | (w, .ok none) => (s, w, .error .typeError)
    | (w, .ok (some n)) =>
      match streamCopy fuel read write size chunkSize s w with
      | (s, w, .error e) => (s, w, .error e)
      | (s, w, .ok m) => (s, w, .ok (n + m))

/-- `mmap.PAGESIZE` of the platform the model is about. -/
def PAGESIZE : Nat := 4096

/-- `io.BytesIO.read(n)` at a position: a stream over a byte string.  State: the bytes not yet read.
`read(n)` returns up to `n` bytes for `n ≥ 0` and everything for negative `n`. -/
def bytesIORead (rem : Bytes) (n : Int) : Bytes × Res Bytes :=
  if n < 0 then ([], .ok rem) else (rem.drop n.toNat, .ok (rem.take n.toNat))

end GitDB
