import Verif.Model.Basic
/-!
# zlib as seen through CPython's `zlib` module

zlib itself is a parameter: a structure of functions and a structure of laws about them.  What CPython's
wrapper does on top (`Modules/zlibmodule.c`: output limit, `unconsumed_tail`, `unused_data`, `eof`) is a
definition.
-/
set_option autoImplicit false

namespace GitDB

/-- The compression library. -/
structure Zlib where
  /-- the decompressed data that the compressed bytes seen so far determine -/
  out : Bytes → Bytes
  /-- if the bytes contain a complete compressed stream: its length -/
  stop : Bytes → Option Nat
  /-- the bytes are not the beginning of a compressed stream (noticed after `out` was produced) -/
  bad : Bytes → Bool
  /-- `taken fed window limit`: how many bytes of `window`, offered after `fed`, are consumed if the output
  has to stop at `limit` bytes in total -/
  taken : Bytes → Bytes → Nat → Nat
  /-- state of a compressor -/
  Comp : Type
  /-- `compressobj(level)` -/
  cinit : Int → Comp
  /-- `compress(data)` -/
  ccompress : Comp → Bytes → Comp × Bytes
  /-- `flush()` -/
  cflush : Comp → Bytes

/-- What a compressor emits for a sequence of pieces including the final flush. -/
def Zlib.emit (z : Zlib) : z.Comp → List Bytes → Bytes
  | c, [] => z.cflush c
  | c, d :: ds => (z.ccompress c d).2 ++ z.emit (z.ccompress c d).1 ds

/-- What is assumed about zlib. -/
structure ZlibLaws (z : Zlib) : Prop where
  /-- more input never changes output already determined -/
  out_append : ∀ x y, z.out x <+: z.out (x ++ y)
  /-- the empty string is not a compressed stream -/
  stop_nil : z.stop [] = none
  stop_le : ∀ x k, z.stop x = some k → k ≤ x.length
  /-- what follows a complete stream does not matter -/
  stop_append : ∀ x y k, z.stop x = some k → z.stop (x ++ y) = some k
  stop_out : ∀ x y k, z.stop x = some k → z.out (x ++ y) = z.out x
  stop_take : ∀ x k, z.stop x = some k → z.stop (x.take k) = some k
  stop_good : ∀ x k, z.stop x = some k → z.bad x = false
  bad_append : ∀ x y, z.bad x = true → z.bad (x ++ y) = true
  /-- if the output limit stops the decompressor, it has consumed enough input to determine
  the output up to the limit, but not the end of the stream -/
  taken_le : ∀ fed w lim, lim < (z.out (fed ++ w)).length → z.taken fed w lim ≤ w.length
  taken_out : ∀ fed w lim, lim < (z.out (fed ++ w)).length →
    lim ≤ (z.out (fed ++ w.take (z.taken fed w lim))).length
  taken_stop : ∀ fed w lim, lim < (z.out (fed ++ w)).length → z.stop fed = none →
    z.stop (fed ++ w.take (z.taken fed w lim)) = none
  /-- compressing and decompressing -/
  emit_stop : ∀ level ds, z.stop (z.emit (z.cinit level) ds) = some (z.emit (z.cinit level) ds).length
  emit_out : ∀ level ds, z.out (z.emit (z.cinit level) ds) = ds.flatten

/-- A `decompressobj`. -/
structure ZDec where
  /-- input consumed so far -/
  fed : Bytes := []
  /-- number of bytes returned so far -/
  produced : Nat := 0
  /-- attribute `unconsumed_tail` -/
  tail : Bytes := []
  /-- attribute `unused_data` -/
  unused : Bytes := []
  /-- attribute `eof` -/
  eof : Bool := false
  /-- an earlier call raised `zlib.error`; zlib's own state then is `BAD` for good (or still waits for a dictionary) -/
  broken : Bool := false
  deriving DecidableEq, Repr

/-- `decompress(w, max)`; `max = 0` means no limit.  CPython, `zlibmodule.c`: `zlib_Decompress_decompress_impl` and
`save_unconsumed_input`.  The latter, at the end of the stream, appends the left over input to
`unused_data`; if `unconsumed_tail` was not empty before, it also stores the left over input there.
After the end, all input is left over.  After an error every call raises it again, whatever it is given (`inflate.c`,
`case BAD`, `case DICT`).  What the error leaves in `unconsumed_tail` is not described: nothing is done with it any more. -/
def ZDec.decompress (zl : Zlib) (z : ZDec) (w : Bytes) (max : Int) : ZDec × Res Bytes :=
  if max < 0 then (z, .error .valueError)
  else if z.eof then
    ({ z with unused := z.unused ++ w, tail := if z.tail = [] then [] else w }, .ok [])
  else if z.broken then (z, .error .zlibError)
  else
    let x := z.fed ++ w
    let lim := z.produced + max.toNat
    if max ≠ 0 ∧ lim < (zl.out x).length then
      let n := zl.taken z.fed w lim
      ({ z with fed := z.fed ++ w.take n, produced := lim, tail := w.drop n },
        .ok (((zl.out x).drop z.produced).take max.toNat))
    else if zl.bad x then ({ z with broken := true }, .error .zlibError)
    else
      match zl.stop x with
      | some k =>
        ({ fed := x.take k, produced := (zl.out x).length,
           tail := if z.tail = [] then [] else x.drop k, unused := x.drop k, eof := true },
          .ok ((zl.out x).drop z.produced))
      | none =>
        ({ z with fed := x, produced := (zl.out x).length, tail := [] },
          .ok ((zl.out x).drop z.produced))

end GitDB
