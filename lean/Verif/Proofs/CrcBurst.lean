import Verif.Proofs.Crc
import Verif.Spec.Burst
/-!
# CRC-32 notices every burst of at most 32 bits

The crc is a linear function of the bits; a burst that ends where the data ends leaves a non-zero remainder.
-/
set_option autoImplicit false

namespace GitDB
open Spec

/-- The data as one number, first bit least significant. -/
def word : Bytes → Nat
  | [] => 0
  | b :: l => b.toNat ^^^ (word l <<< 8)

/-- `n` steps. -/
def crcIter : Nat → Nat → Nat
  | 0, c => c
  | n + 1, c => crcIter n (crcBit c)

theorem crcBit_xor (a b : Nat) : crcBit (a ^^^ b) = crcBit a ^^^ crcBit b := by
  unfold crcBit
  have h : (a ^^^ b) &&& 1 = (a &&& 1) ^^^ (b &&& 1) := Nat.and_xor_distrib_right
  have ha : a &&& 1 = 0 ∨ a &&& 1 = 1 := by rw [Nat.and_one_is_mod]; omega
  have hb : b &&& 1 = 0 ∨ b &&& 1 = 1 := by rw [Nat.and_one_is_mod]; omega
  have hs : (a ^^^ b) >>> 1 = (a >>> 1) ^^^ (b >>> 1) := Nat.shiftRight_xor_distrib
  have swap : ∀ x y z : Nat, x ^^^ y ^^^ z = x ^^^ z ^^^ y := by
    intro x y z; rw [Nat.xor_assoc, Nat.xor_comm y z, ← Nat.xor_assoc]
  rcases ha with ha | ha <;> rcases hb with hb | hb <;> rw [h, ha, hb, hs]
  · simp
  · simp [Nat.xor_assoc]
  · simp [swap]
  · simp only [Nat.xor_self, Nat.zero_ne_one, if_false, if_true]
    rw [swap (a >>> 1), ← Nat.xor_assoc, Nat.xor_assoc _ 0xEDB88320 0xEDB88320, Nat.xor_self, Nat.xor_zero]

theorem crcBit_shift (x k : Nat) : crcBit (x <<< (k + 1)) = x <<< k := by
  have h : x <<< (k + 1) = 2 * (x <<< k) := by
    rw [Nat.shiftLeft_eq, Nat.shiftLeft_eq, Nat.pow_succ]
    rw [← Nat.mul_assoc, Nat.mul_comm]
  unfold crcBit
  rw [h, Nat.and_one_is_mod, if_neg (by omega), Nat.shiftRight_eq_div_pow]
  omega

theorem crcIter_xor (n : Nat) : ∀ (a b : Nat), crcIter n (a ^^^ b) = crcIter n a ^^^ crcIter n b := by
  induction n with
  | zero => intro a b; rfl
  | succ n ih => intro a b; simp only [crcIter, crcBit_xor, ih]

theorem crcIter_shift (n : Nat) : ∀ (x k : Nat), crcIter n (x <<< (k + n)) = x <<< k := by
  induction n with
  | zero => intro x k; rfl
  | succ n ih =>
    intro x k
    rw [crcIter, show k + (n + 1) = (k + n) + 1 by omega, crcBit_shift, ih]

theorem crcIter_add (m n : Nat) : ∀ (c : Nat), crcIter (m + n) c = crcIter n (crcIter m c) := by
  induction m with
  | zero => intro c; rw [Nat.zero_add]; rfl
  | succ m ih => intro c; rw [show m + 1 + n = (m + n) + 1 by omega, crcIter, ih]; rfl

theorem crcByte_iter (c : Nat) (b : UInt8) : crcByte c b = crcIter 8 (c ^^^ b.toNat) := rfl

theorem foldl_crcByte (l : Bytes) : ∀ (c : Nat), l.foldl crcByte c = crcIter (8 * l.length) (c ^^^ word l) := by
  induction l with
  | nil => intro c; simp [word, crcIter]
  | cons b l ih =>
    intro c
    rw [List.foldl_cons, ih, List.length_cons, show 8 * (l.length + 1) = 8 + 8 * l.length by omega, crcIter_add]
    congr 1
    rw [crcByte_iter, word, ← Nat.xor_assoc, crcIter_xor 8 (c ^^^ b.toNat)]
    congr 1
    exact (crcIter_shift 8 (word l) 0).symm

theorem crcBit_zero (c : Nat) (hc : c < 2 ^ 32) (h : crcBit c = 0) : c = 0 := by
  unfold crcBit at h
  rw [Nat.and_one_is_mod] at h
  split at h
  · rename_i h1
    have h2 : c >>> 1 = 0xEDB88320 := by
      have := congrArg (· ^^^ 0xEDB88320) h
      simp only [Nat.xor_assoc, Nat.xor_self, Nat.xor_zero, Nat.zero_xor] at this
      exact this
    rw [Nat.shiftRight_eq_div_pow] at h2
    omega
  · rename_i h1
    rw [Nat.shiftRight_eq_div_pow] at h
    omega

theorem crcIter_zero (n : Nat) : ∀ (c : Nat), c < 2 ^ 32 → crcIter n c = 0 → c = 0 := by
  induction n with
  | zero => intro c _ h; exact h
  | succ n ih => intro c hc h; exact crcBit_zero c hc (ih _ (crcBit_lt c hc) h)

theorem byte_testBit (b : UInt8) (i : Nat) (h : 8 ≤ i) : b.toNat.testBit i = false :=
  Nat.testBit_lt_two_pow (Nat.lt_of_lt_of_le b.toNat_lt (Nat.pow_le_pow_right (by decide) h))

theorem word_testBit (l : Bytes) : ∀ (i : Nat), (word l).testBit i = bitAt l i := by
  induction l with
  | nil => intro i; simp [word, bitAt]
  | cons b l ih =>
    intro i
    rw [word, Nat.testBit_xor, Nat.testBit_shiftLeft, ih]
    by_cases h : 8 ≤ i
    · have h1 : i / 8 = (i - 8) / 8 + 1 := by omega
      have h2 : i % 8 = (i - 8) % 8 := by omega
      simp only [bitAt, byte_testBit b i h, h, decide_true, Bool.true_and, Bool.false_xor]
      rw [h1, h2, List.getD_cons_succ]
    · have h1 : i / 8 = 0 := by omega
      have h2 : i % 8 = i := by omega
      simp [bitAt, h, h1, h2]

theorem bitAt_beyond (l : Bytes) (i : Nat) (h : 8 * l.length ≤ i) : bitAt l i = false := by
  unfold bitAt
  rw [List.getD_eq_getElem?_getD, List.getElem?_eq_none (by omega)]
  simp

/-- Data is determined by its bits. -/
theorem eq_of_bits (a b : Bytes) (hl : b.length = a.length) (h : ∀ i, bitAt a i = bitAt b i) : a = b := by
  apply List.ext_getElem hl.symm
  intro j h1 h2
  apply UInt8.toNat_inj.1
  apply Nat.eq_of_testBit_eq
  intro i
  by_cases hi : 8 ≤ i
  · rw [byte_testBit _ i hi, byte_testBit _ i hi]
  · have := h (8 * j + i)
    have e1 : (8 * j + i) / 8 = j := by omega
    have e2 : (8 * j + i) % 8 = i := by omega
    simp only [bitAt, e1, e2, List.getD_eq_getElem?_getD, List.getElem?_eq_getElem h1, List.getElem?_eq_getElem h2,
      Option.getD_some] at this
    exact this

theorem crc32_burst (a b : Bytes) (v : Nat) (h : Burst a b) : crc32 b v ≠ crc32 a v := by
  intro he
  obtain ⟨k, hk⟩ := h.bits
  apply h.ne
  have hx : crcIter (8 * a.length) (word a ^^^ word b) = 0 := by
    have h1 := congrArg (· ^^^ 0xffffffff) he
    simp only [crc32, Nat.xor_assoc, Nat.xor_self, Nat.xor_zero] at h1
    rw [foldl_crcByte, foldl_crcByte, h.len, crcIter_xor _ (v ^^^ 0xffffffff), crcIter_xor _ (v ^^^ 0xffffffff)] at h1
    have h2 := congrArg (crcIter (8 * a.length) (v ^^^ 0xffffffff) ^^^ ·) h1
    simp only [← Nat.xor_assoc, Nat.xor_self, Nat.zero_xor] at h2
    rw [crcIter_xor, h2, Nat.xor_self]
  -- the different bits, as a number
  have hbit : ∀ i, (word a ^^^ word b).testBit i = true → k ≤ i ∧ i < k + 32 := by
    intro i hi
    rw [Nat.testBit_xor, word_testBit, word_testBit] at hi
    refine hk i (fun e => ?_)
    rw [e] at hi
    simp at hi
  have hshift : word a ^^^ word b = ((word a ^^^ word b) >>> k) <<< k := by
    apply Nat.eq_of_testBit_eq
    intro i
    rw [Nat.testBit_shiftLeft, Nat.testBit_shiftRight]
    by_cases hi : k ≤ i
    · simp [hi]
    · rcases hb : (word a ^^^ word b).testBit i with _ | _
      · simp [hi]
      · exact absurd (hbit i hb).1 hi
  have hlt : (word a ^^^ word b) >>> k < 2 ^ 32 := by
    apply Nat.lt_pow_two_of_testBit
    intro i hi
    rw [Nat.testBit_shiftRight]
    rcases hb : (word a ^^^ word b).testBit (k + i) with _ | _
    · rfl
    · have := (hbit _ hb).2; omega
  apply eq_of_bits a b h.len
  by_cases hkl : k ≤ 8 * a.length
  · have hz : (word a ^^^ word b) >>> k = 0 := by
      rw [hshift, show 8 * a.length = k + (8 * a.length - k) by omega, crcIter_add] at hx
      have := crcIter_shift k ((word a ^^^ word b) >>> k) 0
      rw [Nat.zero_add] at this
      rw [this] at hx
      exact crcIter_zero _ _ hlt (by simpa using hx)
    intro i
    have : (word a ^^^ word b).testBit i = false := by
      rw [hshift, hz]; simp
    rw [Nat.testBit_xor, word_testBit, word_testBit] at this
    revert this
    cases bitAt a i <;> cases bitAt b i <;> simp
  · intro i
    by_cases hi : k ≤ i
    · rw [bitAt_beyond a i (by omega), bitAt_beyond b i (by rw [h.len]; omega)]
    · rcases hb : (word a ^^^ word b).testBit i with _ | _
      · rw [Nat.testBit_xor, word_testBit, word_testBit] at hb
        revert hb
        cases bitAt a i <;> cases bitAt b i <;> simp
      · exact absurd (hbit i hb).1 hi

/-- A piece of damaged data is the same or damaged. -/
theorem burst_slice (a b : Bytes) (h : Burst a b) (o n : Nat) (hne : (a.drop o).take n ≠ (b.drop o).take n) :
    Burst ((a.drop o).take n) ((b.drop o).take n) := by
  obtain ⟨k, hk⟩ := h.bits
  refine ⟨by simp [h.len], hne, k - 8 * o, ?_⟩
  have hb : ∀ (d : Bytes) (i : Nat), bitAt ((d.drop o).take n) i = if i / 8 < n then bitAt d (8 * o + i) else false := by
    intro d i
    unfold bitAt
    have e1 : (8 * o + i) / 8 = o + i / 8 := by omega
    have e2 : (8 * o + i) % 8 = i % 8 := by omega
    rw [e1, e2]
    simp only [List.getD_eq_getElem?_getD, List.getElem?_take, List.getElem?_drop]
    split <;> simp
  intro i hi
  rw [hb, hb] at hi
  split at hi
  · have := hk _ hi
    omega
  · exact absurd rfl hi

end GitDB
