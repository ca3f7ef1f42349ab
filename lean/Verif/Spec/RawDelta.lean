import Verif.Spec.Delta
import Verif.Spec.Varint
/-!
# Delta objects whose sizes need not be right and whose instructions need not be well formed

What becomes of a chain of such deltas if nobody checks the sizes they announce: two memory areas of fixed
size, the object built so far in one of them, the other one overwritten from its start.
-/
set_option autoImplicit false

namespace GitDB.Spec

/-- A delta object with arbitrary bytes in place of the instructions.  The two sizes are given by their
encodings. -/
structure RawDelta where
  src : Bytes
  tgt : Bytes
  body : Bytes

/-- The bytes of a delta object. -/
def RawDelta.bytes (d : RawDelta) : Bytes := d.src ++ (d.tgt ++ d.body)

/-- It begins with two numbers, which end within the first 512 bytes. -/
structure RawDelta.Headed (d : RawDelta) : Prop where
  src_term : Terminated d.src
  tgt_term : Terminated d.tgt
  short : d.src.length + d.tgt.length ≤ 512

/-- `body` consists of instructions that are valid for a source of `n` bytes, and possibly one last copy
from outside such a source, which counts for nothing; applied to `cur`, of whatever length, they produce
`out`. -/
def Applies (n : Nat) (cur body out : Bytes) : Prop :=
  ∃ is tail, (∀ x ∈ is, x.Valid n) ∧ body = encodeAll is ++ tail ∧ out = runAll cur is ∧
    (tail = [] ∨ ∃ o0 o1 o2 o3 s0 s1 s2, tail = (Instr.copy o0 o1 o2 o3 s0 s1 s2).encode ∧
      n < copyOff o0 o1 o2 o3 + copySize s0 s1 s2)

/-- `mem` after `out` has been written over its beginning. -/
def writtenOver (out mem : Bytes) : Bytes := out ++ mem.drop out.length

/-- `Replay grow cur other ds res`: with the object to start from in the memory `cur`, and a second memory
`other`, the deltas `ds` are applied in turn, each from one memory into the other; in the end the memory
written last holds `res`.  The results have to fit, unless the memory grows. -/
inductive Replay (grow : Bool) : Bytes → Bytes → List RawDelta → Bytes → Prop
  | nil (cur other : Bytes) : Replay grow cur other [] cur
  | cons (cur other out res : Bytes) (d : RawDelta) (ds : List RawDelta)
      (step : Applies (leValue d.src) cur d.body out)
      (fits : grow = true ∨ out.length ≤ other.length)
      (rest : Replay grow (writtenOver out other) cur ds res) : Replay grow cur other (d :: ds) res

/-- `Refused grow cur other ds e`: one of the deltas, after those before it have been applied, is malformed
or produces more than fits into the memory; `e` is the exception. -/
inductive Refused (grow : Bool) : Bytes → Bytes → List RawDelta → Err → Prop
  | malformed (cur other : Bytes) (d : RawDelta) (ds : List RawDelta) (e : Err)
      (step : ∀ out, ¬ Applies (leValue d.src) cur d.body out)
      (he : e = .valueError ∨ e = .indexError ∨ e = .assertionError) :
      Refused grow cur other (d :: ds) e
  | overrun (cur other out : Bytes) (d : RawDelta) (ds : List RawDelta)
      (step : Applies (leValue d.src) cur d.body out) (hg : grow = false)
      (hl : other.length < out.length) : Refused grow cur other (d :: ds) .valueError
  | later (cur other out : Bytes) (d : RawDelta) (ds : List RawDelta) (e : Err)
      (step : Applies (leValue d.src) cur d.body out)
      (fits : grow = true ∨ out.length ≤ other.length)
      (rest : Refused grow (writtenOver out other) cur ds e) : Refused grow cur other (d :: ds) e

/-- Fresh memory. -/
def blank (n : Nat) : Bytes := List.replicate n 0

/-- The largest of a list of numbers and `m`. -/
def largest (m : Nat) (l : List Nat) : Nat := l.foldl max m

/-- How much memory the chain gets: `(for the object to start from, for the first result)`. -/
def memorySizes (base : Nat) (ds : List RawDelta) : Nat × Nat :=
  let m := largest 0 (ds.map fun d => leValue d.tgt)
  if ds.length > 1 then (max base m, max base m) else (base, m)

end GitDB.Spec
