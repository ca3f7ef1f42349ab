import Verif.Proofs.Stall
import Verif.Proofs.Paced
/-!
# A large object in the real format

A zlib stream with the fixed codes whose first 8192 bytes yield exactly 8192 bytes.
-/
set_option autoImplicit false

namespace GitDB.Deflate
open Spec

/-- Header, block type, the codes of `blob 16371` and the first five bits of the code of a zero byte. -/
def realPre : Bytes := [0x78, 0x01, 0x4b, 0xca, 0xc9, 0x4f, 0x52, 0x30, 0x34, 0x33, 0x36, 0x37, 0x64]

/-- The state five bits into the code of a zero byte. -/
def modeA : Mode := (feed {} realPre).mode

/-- The state one bit into it. -/
def modeB : Mode := (feed {} (realPre ++ [0, 1])).mode

theorem feed_pre : feed {} realPre = ⟨[49, 55, 51, 54, 49, 32, 98, 111, 108, 98], modeA⟩ := by decide +kernel

set_option maxRecDepth 100000 in
theorem stepA (rout : Bytes) : stepByte ⟨rout, modeA⟩ 0x60 = ⟨0 :: rout, modeA⟩ := by rfl

set_option maxRecDepth 100000 in
theorem modeB_eq : modeB = .decode (.lit ⟨true, fixedLit, fixedDist⟩) (fixedLit.counts.drop 1) 0 0 0 := by decide +kernel

set_option maxRecDepth 100000 in
theorem stepB (rout : Bytes) : stepByte ⟨rout, modeB⟩ 0x06 = ⟨0 :: rout, modeB⟩ := by rfl

set_option maxRecDepth 100000 in
theorem stepMid1 (rout : Bytes) : stepByte ⟨rout, modeA⟩ 0 =
  ⟨0 :: rout, .decode (.lit ⟨true, fixedLit, fixedDist⟩) (fixedLit.counts.drop 5) 0 0 0⟩ := by rfl

set_option maxRecDepth 100000 in
theorem stepMid2 (x : UInt8) (rout : Bytes) :
   stepByte ⟨x :: rout, .decode (.lit ⟨true, fixedLit, fixedDist⟩) (fixedLit.counts.drop 5) 0 0 0⟩ 1 = ⟨x :: x :: x :: x :: x :: rout, modeB⟩ := by rfl

set_option maxRecDepth 100000 in
theorem stepEnd (rout : Bytes) : stepByte ⟨rout, modeB⟩ 0 = ⟨rout, .collect .check 32 0 0⟩ := by rfl

/-- `modeA` on: zero bytes, one for one. -/
theorem feed_A : ∀ (k : Nat) (rout : Bytes), feed ⟨rout, modeA⟩ (List.replicate k 0x60) = ⟨List.replicate k 0 ++ rout, modeA⟩ := by
  intro k
  induction k with
  | zero => intro rout; rfl
  | succ k ih =>
    intro rout
    rw [List.replicate_succ, feed_cons, stepA, ih, List.replicate_succ', List.append_assoc]
    rfl

/-- `modeB` on: zero bytes, one for one. -/
theorem feed_B : ∀ (k : Nat) (rout : Bytes), feed ⟨rout, modeB⟩ (List.replicate k 0x06) = ⟨List.replicate k 0 ++ rout, modeB⟩ := by
  intro k
  induction k with
  | zero => intro rout; rfl
  | succ k ih =>
    intro rout
    rw [List.replicate_succ, feed_cons, stepB, ih, List.replicate_succ', List.append_assoc]
    rfl

/-- The first 8192 bytes of the stream. -/
def realFirst : Bytes := realPre ++ (List.replicate 8177 0x60 ++ [0, 1])

/-- The object: `blob`, its size, and 16371 zero bytes. -/
def realHead : Bytes := [98, 108, 111, 98, 32, 49, 54, 51, 55, 49]

def realContent : Bytes := realHead ++ (0 :: List.replicate 16371 0)

/-- The stream. -/
def realZip : Bytes := realFirst ++ (List.replicate 8190 0x06 ++ (0 :: be4 (adler32 realContent)))

theorem realFirst_length : realFirst.length = 8192 := by
  unfold realFirst
  rw [List.length_append, List.length_append, List.length_replicate]
  rfl

theorem feed_first : feed {} realFirst = ⟨List.replicate 8182 0 ++ realHead.reverse, modeB⟩ := by
  unfold realFirst
  rw [feed_append, feed_pre, feed_append, feed_A, feed_cons, stepMid1, feed_cons, stepMid2]
  have : ∀ k (R : Bytes), (0 : UInt8) :: 0 :: 0 :: 0 :: 0 :: (List.replicate k 0 ++ R) = List.replicate (k + 5) 0 ++ R := by
    intro k R; simp [List.replicate_succ]
  rw [this]
  rfl

theorem feed_upto (k : Nat) : feed {} (realFirst ++ List.replicate k 0x06) = ⟨List.replicate (8182 + k) 0 ++ realHead.reverse, modeB⟩ := by
  rw [feed_append, feed_first, feed_B, ← List.append_assoc, List.replicate_append_replicate, Nat.add_comm]

theorem realContent_reverse : List.replicate (8182 + 8190) 0 ++ realHead.reverse = realContent.reverse := by
  unfold realContent
  rw [List.reverse_append, ← List.replicate_succ, List.reverse_replicate]

theorem realZip_eq : realZip = (realFirst ++ List.replicate 8190 0x06) ++ (0 :: be4 (adler32 realContent)) := by
  unfold realZip
  rw [List.append_assoc]

theorem feed_real : feed {} realZip = ⟨realContent.reverse, .done⟩ := by
  rw [realZip_eq, feed_append, feed_upto, feed_cons, stepEnd, realContent_reverse]
  have := feed_check realContent.reverse
  rw [List.reverse_reverse] at this
  exact this

theorem realContent_length : realContent.length = 16382 := by
  unfold realContent
  rw [List.length_append, ← List.replicate_succ, List.length_replicate]
  rfl

theorem realZip_length : realZip.length = 16387 := by
  unfold realZip
  rw [List.length_append, realFirst_length, List.length_append, List.length_replicate]
  rfl

theorem realZip_stop : stopFrom {} realZip = some 16387 := by
  have h : realZip = ((realFirst ++ List.replicate 8190 0x06) ++ (0 :: (be4 (adler32 realContent)).take 3)) ++ [UInt8.ofNat (adler32 realContent)] := by
    rw [realZip_eq, List.append_assoc _ _ [_]]
    rfl
  have hl := realZip_length
  have hd := feed_real
  rw [h] at hl hd ⊢
  rw [← hl]
  apply stop_of_last
  · rw [hd]
  · rw [feed_append, feed_upto, feed_cons, stepEnd]
    show (feed ⟨_, .collect .check 32 0 0⟩ [_, _, _]).mode ≠ _
    simp only [feed_cons]
    rw [stepByte_collect _ _ _ _ _ _ (by omega), stepByte_collect _ _ _ _ _ _ (by omega), stepByte_collect _ _ _ _ _ _ (by omega)]
    intro h; cases h

theorem realZip_take (k : Nat) (hk : k ≤ 8190) : realZip.take (8192 + k) = realFirst ++ List.replicate k 0x06 := by
  unfold realZip
  rw [List.take_append, realFirst_length, Nat.add_sub_cancel_left, List.take_of_length_le (by rw [realFirst_length]; omega),
    List.take_append_of_le_length (by rw [List.length_replicate]; exact hk), List.take_replicate, Nat.min_eq_left hk]

/-- From the 8192nd byte on it yields a byte for a byte. -/
theorem realZip_paced (c : Compressor) : Paced (zlib c) realZip 16387 realContent where
  zip := by
    constructor
    · rw [show (zlib c).stop = stopFrom {} from rfl, realZip_stop]
    · rw [show (zlib c).out = fun x => (feed {} x).rout.reverse from rfl]
      simp only [feed_real, List.reverse_reverse]
  noStall := oneBlock_noStall c realZip 0x4b rfl (.inr (by decide))
  clen_lt := by rw [realContent_length]; omega
  paced := by
    intro n hn hle
    show (feed {} (realZip.take n)).rout.reverse.length = n
    rcases hn with rfl | hn
    · rfl
    · rw [realContent_length] at hle
      rw [show maxHeader = 8192 from rfl] at hn
      obtain ⟨k, rfl⟩ : ∃ k, n = 8192 + k := ⟨n - 8192, by omega⟩
      rw [realZip_take k (by omega), feed_upto, List.length_reverse, List.length_append, List.length_replicate, List.length_reverse,
        show realHead.length = 10 from rfl]
      omega

end GitDB.Deflate
