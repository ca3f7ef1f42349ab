import Verif.Model.Basic
/-!
# Specification of git's variable length integers

Independent of the code: arithmetic only, following git's `Documentation/gitformat-pack.txt`.
-/
set_option autoImplicit false

namespace GitDB.Spec

/-- A byte whose most significant bit is set announces a further byte. -/
def more (b : UInt8) : Bool := decide (128 ≤ b.toNat)

/-- Every byte but the last announces a further byte, the last one does not. -/
def Terminated (bs : Bytes) : Prop :=
  ∃ pre last, bs = pre ++ [last] ∧ (∀ b ∈ pre, more b = true) ∧ more last = false

/-- Little endian base 128 value: the low 7 bits of the first byte are the least significant. -/
def leValue : Bytes → Nat
  | [] => 0
  | b :: bs => b.toNat % 128 + 128 * leValue bs

/-- Value of git's offset encoding (gitformat-pack, "offset encoding"):
the concatenated 7 bit groups, most significant first, and for a number of `k ≥ 2` bytes the sum
`2^7 + 2^14 + ... + 2^(7*(k-1))` added. -/
def ofsValue (bs : Bytes) : Nat :=
  bs.foldl (fun acc b => acc * 128 + b.toNat % 128) 0 +
    ((List.range bs.length).map (fun k => if k = 0 then 0 else 128 ^ k)).sum

/-- Git's encoder for offsets (`builtin/pack-objects.c`, `write_no_reuse_object`): fill the buffer
from the end.  `ofs` is the number still to be written, `acc` what is already there. -/
def ofsEncodeAux (ofs : Nat) (acc : Bytes) : Bytes :=
  if h : ofs = 0 then acc
  else ofsEncodeAux ((ofs - 1) / 128) (UInt8.ofNat (128 + (ofs - 1) % 128) :: acc)
termination_by ofs
decreasing_by omega

def ofsEncode (ofs : Nat) : Bytes :=
  ofsEncodeAux (ofs / 128) [UInt8.ofNat (ofs % 128)]

/-- A little endian base 128 encoder (git's `diff-delta.c`). -/
def leEncode (n : Nat) : Bytes :=
  if h : n < 128 then [UInt8.ofNat n]
  else UInt8.ofNat (128 + n % 128) :: leEncode (n / 128)
termination_by n
decreasing_by omega

end GitDB.Spec
