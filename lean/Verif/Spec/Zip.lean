import Verif.Model.Zlib
/-!
# Specification: compressed streams inside a larger buffer
-/
set_option autoImplicit false

namespace GitDB.Spec

/-- `m` begins with a compressed stream of length `clen` for `content`. -/
structure IsZip (zl : Zlib) (m : Bytes) (clen : Nat) (content : Bytes) : Prop where
  stop : zl.stop m = some clen
  out : zl.out m = content

/-- The stream never has eight bytes of compressed data that yield no output (before the end of the
content). -/
def NoStall (zl : Zlib) (m : Bytes) : Prop :=
  ∀ n, (zl.out (m.take n)).length < (zl.out m).length →
    (zl.out (m.take n)).length < (zl.out (m.take (n + 8))).length

/-- The same for the part of the stream behind the first `p` bytes of output. -/
def NoStallFrom (zl : Zlib) (p : Nat) (m : Bytes) : Prop :=
  ∀ n, p ≤ (zl.out (m.take n)).length → (zl.out (m.take n)).length < (zl.out m).length →
    (zl.out (m.take n)).length < (zl.out (m.take (n + 8))).length

/-- The stream comes out of a reader of which every call asks for at least `k` bytes, or for everything: the compressed
bytes taken by the first call have output, and there are no stalls behind it. -/
structure Flows (zl : Zlib) (k : Nat) (m : Bytes) : Prop where
  first : zl.out m = [] ∨ 0 < (zl.out (m.take (max 8 (min k (zl.out m).length)))).length
  rest : NoStallFrom zl 1 m

end GitDB.Spec
