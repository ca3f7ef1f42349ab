import Verif.Spec.Delta
import Verif.Spec.Varint
/-!
# Specification of delta objects and delta chains
-/
set_option autoImplicit false

namespace GitDB.Spec

/-- A delta object: source size, target size, instructions.  The two sizes are given by their encodings,
which need not be the shortest ones. -/
structure DeltaObj where
  src : Bytes
  tgt : Bytes
  instrs : List Instr

/-- The bytes of a delta object. -/
def DeltaObj.bytes (d : DeltaObj) : Bytes := d.src ++ (d.tgt ++ encodeAll d.instrs)

/-- The object obtained from `base`. -/
def DeltaObj.run (d : DeltaObj) (base : Bytes) : Bytes := runAll base d.instrs

/-- `d` is a correct delta for `base`: sizes as announced, instructions valid.  (git's sizes take at most
10 bytes each; all we need is that the two together are not longer than 512 bytes.) -/
structure DeltaObj.Fits (d : DeltaObj) (base : Bytes) : Prop where
  src_term : Terminated d.src
  tgt_term : Terminated d.tgt
  short : d.src.length + d.tgt.length ≤ 512
  src_size : leValue d.src = base.length
  tgt_size : leValue d.tgt = (d.run base).length
  valid : ∀ x ∈ d.instrs, x.Valid base.length

/-- Result of applying a chain, first delta first. -/
def resolveChain (base : Bytes) (ds : List DeltaObj) : Bytes := ds.foldl (fun b d => d.run b) base

/-- Every delta of the chain fits the result of the previous ones. -/
def ChainFits : Bytes → List DeltaObj → Prop
  | _, [] => True
  | base, d :: ds => d.Fits base ∧ ChainFits (d.run base) ds

end GitDB.Spec
