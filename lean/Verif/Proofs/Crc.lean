import Verif.Model.Crc
/-!
# CRC-32: chunks compose, values have 32 bits
-/
set_option autoImplicit false

namespace GitDB

theorem crc32_append (a b : Bytes) (v : Nat) : crc32 (a ++ b) v = crc32 b (crc32 a v) := by
  unfold crc32
  rw [List.foldl_append, Nat.xor_assoc (List.foldl crcByte (v ^^^ 0xffffffff) a), Nat.xor_self,
    Nat.xor_zero]

theorem crc32_nil (v : Nat) : crc32 [] v = v := by
  unfold crc32
  rw [List.foldl_nil, Nat.xor_assoc, Nat.xor_self, Nat.xor_zero]

theorem crcBit_lt (c : Nat) (h : c < 2 ^ 32) : crcBit c < 2 ^ 32 := by
  unfold crcBit
  have h1 : c >>> 1 < 2 ^ 32 := by rw [Nat.shiftRight_eq_div_pow]; omega
  split
  · exact Nat.xor_lt_two_pow h1 (by decide)
  · exact h1

theorem crcByte_lt (c : Nat) (b : UInt8) (h : c < 2 ^ 32) : crcByte c b < 2 ^ 32 := by
  have hb : b.toNat < 2 ^ 32 := Nat.lt_trans b.toNat_lt (by decide)
  unfold crcByte
  exact crcBit_lt _ (crcBit_lt _ (crcBit_lt _ (crcBit_lt _ (crcBit_lt _ (crcBit_lt _ (crcBit_lt _
    (crcBit_lt _ (Nat.xor_lt_two_pow h hb))))))))

theorem crc32_lt (a : Bytes) (v : Nat) (h : v < 2 ^ 32) : crc32 a v < 2 ^ 32 := by
  unfold crc32
  refine Nat.xor_lt_two_pow ?_ (by decide)
  have : ∀ (a : Bytes) (v : Nat), v < 2 ^ 32 → a.foldl crcByte v < 2 ^ 32 := by
    intro a
    induction a with
    | nil => intro v h; exact h
    | cons x a ih => intro v h; exact ih _ (crcByte_lt v x h)
  exact this a _ (Nat.xor_lt_two_pow h (by decide))

/-- The check value of CRC-32: the crc of `123456789`. -/
example : crc32 [49, 50, 51, 52, 53, 54, 55, 56, 57] 0 = 0xCBF43926 := by decide +kernel

end GitDB
