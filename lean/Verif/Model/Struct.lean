import Verif.Model.Basic
/-!
# The parts of the standard library module `struct` that are used
-/
set_option autoImplicit false

namespace GitDB

/-- Big endian representation with `k` bytes of `n` modulo `256 ^ k`. -/
def beBytes : Nat → Nat → Bytes
  | 0, _ => []
  | k + 1, n => beBytes k (n / 256) ++ [UInt8.ofNat (n % 256)]

/-- Value of a big endian byte string. -/
def beVal (b : Bytes) : Nat := b.foldl (fun a x => a * 256 + x.toNat) 0

/-- `struct.pack(">L", n)` for `n ≥ 0`. -/
def packL (n : Nat) : Res Bytes := if n < 2 ^ 32 then .ok (beBytes 4 n) else .error .structError

/-- `struct.pack(">Q", n)` for `n ≥ 0`. -/
def packQ (n : Nat) : Res Bytes := if n < 2 ^ 64 then .ok (beBytes 8 n) else .error .structError

/-- `struct.unpack_from(">L", b, off)[0]`. -/
def unpackL (b : Bytes) (off : Nat) : Res Nat :=
  if off + 4 ≤ b.length then .ok (beVal (pySlice b off (off + 4))) else .error .structError

/-- `struct.unpack_from(">Q", b, off)[0]`. -/
def unpackQ (b : Bytes) (off : Nat) : Res Nat :=
  if off + 8 ≤ b.length then .ok (beVal (pySlice b off (off + 8))) else .error .structError

end GitDB
