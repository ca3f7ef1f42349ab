import Verif.Model.Basic
import Verif.Spec.Varint
/-! Helper lemmas about masks and shifts on `Nat`. -/
set_option autoImplicit false

namespace GitDB

theorem and_7f (n : Nat) : n &&& 0x7f = n % 128 := Nat.and_two_pow_sub_one_eq_mod n 7
theorem and_0f (n : Nat) : n &&& 15 = n % 16 := Nat.and_two_pow_sub_one_eq_mod n 4
theorem and_7 (n : Nat) : n &&& 7 = n % 8 := Nat.and_two_pow_sub_one_eq_mod n 3
theorem and_ff32 (n : Nat) : n &&& 0xffffffff = n % 4294967296 :=
  Nat.and_two_pow_sub_one_eq_mod n 32

theorem and_two_pow_eq (n k : Nat) : n &&& 2 ^ k = if n.testBit k then 2 ^ k else 0 := by
  apply Nat.eq_of_testBit_eq
  intro i
  rw [Nat.testBit_and, Nat.testBit_two_pow]
  by_cases h : k = i
  · subst h
    by_cases h2 : n.testBit k <;> simp [h2, Nat.testBit_two_pow]
  · by_cases h2 : n.testBit k <;> simp [h2, h, Nat.testBit_two_pow]

theorem and_two_pow_eq_zero (n k : Nat) : n &&& 2 ^ k = 0 ↔ n / 2 ^ k % 2 = 0 := by
  rw [and_two_pow_eq, Nat.testBit_eq_decide_div_mod_eq]
  have h : 0 < 2 ^ k := Nat.pow_pos (by decide)
  by_cases h1 : n / 2 ^ k % 2 = 1
  · simp [h1]
  · simp [h1]; omega

theorem and_80_eq_zero {n : Nat} (h : n < 256) : n &&& 0x80 = 0 ↔ n < 128 := by
  have := and_two_pow_eq_zero n 7
  simp only [show (2:Nat)^7 = 128 by decide] at this
  rw [this]; omega

theorem or_80 {n : Nat} (h : n < 128) : n ||| 0x80 = n + 128 := by
  have := Nat.two_pow_add_eq_or_of_lt (i := 7) (b := n) (by simpa using h) 1
  simp at this
  rw [Nat.or_comm]; omega

theorem shl (n k : Nat) : n <<< k = n * 2 ^ k := Nat.shiftLeft_eq n k
theorem shr (n k : Nat) : n >>> k = n / 2 ^ k := Nat.shiftRight_eq_div_pow n k

/-- `a ||| (b <<< k) = a + b * 2^k` if `a` has no bits at or above `k`. -/
theorem or_shl {a k : Nat} (h : a < 2 ^ k) (b : Nat) : a ||| (b <<< k) = a + b * 2 ^ k := by
  rw [Nat.or_comm, ← Nat.shiftLeft_add_eq_or_of_lt h, shl]; omega

theorem toNat_lt (b : UInt8) : b.toNat < 256 := b.toNat_lt

theorem toNat_ofNat {n : Nat} (h : n < 256) : (UInt8.ofNat n).toNat = n := by
  simp [Nat.mod_eq_of_lt h]

theorem more_false {b : UInt8} : Spec.more b = false ↔ b.toNat < 128 := by
  simp [Spec.more]
theorem more_true {b : UInt8} : Spec.more b = true ↔ 128 ≤ b.toNat := by
  simp [Spec.more]

theorem and_80_more (b : UInt8) : b.toNat &&& 0x80 = 0 ↔ Spec.more b = false := by
  rw [and_80_eq_zero (toNat_lt b), more_false]

end GitDB
