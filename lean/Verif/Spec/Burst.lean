import Verif.Model.Basic
/-!
# Damaged copies of data
-/
set_option autoImplicit false

namespace GitDB.Spec

/-- Bit `i` of a sequence of bytes, the least significant bit of each byte first. -/
def bitAt (d : Bytes) (i : Nat) : Bool := (d.getD (i / 8) 0).toNat.testBit (i % 8)

/-- `b` has been damaged: it is as long as `a` but different, and all different bits lie within 32
consecutive ones. -/
structure Burst (a b : Bytes) : Prop where
  len : b.length = a.length
  ne : a ≠ b
  bits : ∃ k, ∀ i, bitAt a i ≠ bitAt b i → k ≤ i ∧ i < k + 32

end GitDB.Spec
