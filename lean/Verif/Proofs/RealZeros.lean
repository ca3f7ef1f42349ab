import Verif.Proofs.RealZip
/-!
# A large, well compressed object in the real format

4560001 zero bytes: a literal, and 40000 matches of length 114 and distance 1 with the fixed codes, 16 bits each.
-/
set_option autoImplicit false

namespace GitDB.Deflate
open Spec

/-- Header, block type and the first bits of the literal. -/
def zerosPre : Bytes := [0x78, 0x01, 0x63, 0xa0]

/-- The state five bits into the code of length 114. -/
def modeM : Mode := (feed {} zerosPre).mode

theorem feed_zerosPre : feed {} zerosPre = ⟨[0], modeM⟩ := by decide +kernel

theorem copyBack_one (x : UInt8) : ∀ (len : Nat) (rout : Bytes), copyBack 1 len (x :: rout) = List.replicate len x ++ x :: rout := by
  intro len
  induction len with
  | zero => intro rout; rfl
  | succ len ih =>
    intro rout
    show copyBack 1 len (x :: x :: rout) = _
    rw [ih, List.replicate_succ', List.append_assoc]
    rfl

set_option maxRecDepth 100000 in
theorem stepM (rout : Bytes) : feed ⟨0 :: rout, modeM⟩ [0x3f, 0xa0] = ⟨copyBack 1 114 (0 :: rout), modeM⟩ := by rfl

set_option maxRecDepth 100000 in
theorem stepMEnd (rout : Bytes) : feed ⟨0 :: rout, modeM⟩ [0x3f, 0, 0] = ⟨copyBack 1 114 (0 :: rout), .collect .check 32 0 0⟩ := by rfl

/-- Matches. -/
def matches_ : Nat → Bytes
  | 0 => []
  | k + 1 => 0x3f :: 0xa0 :: matches_ k

theorem matches_length : ∀ k, (matches_ k).length = 2 * k := by
  intro k
  induction k with
  | zero => rfl
  | succ k ih => rw [matches_, List.length_cons, List.length_cons, ih]; omega

theorem feed_matches : ∀ (k n : Nat), feed ⟨List.replicate (n + 1) 0, modeM⟩ (matches_ k) = ⟨List.replicate (n + 1 + 114 * k) 0, modeM⟩ := by
  intro k
  induction k with
  | zero => intro n; rfl
  | succ k ih =>
    intro n
    have : matches_ (k + 1) = [0x3f, 0xa0] ++ matches_ k := rfl
    rw [this, feed_append, List.replicate_succ, stepM, copyBack_one, ← List.replicate_succ, List.replicate_append_replicate,
      show 114 + (n + 1) = (n + 114) + 1 by omega, ih]
    congr 2
    omega

/-- The object. -/
def zerosContent : Bytes := List.replicate 4560001 0

theorem zerosContent_eq : zerosContent = List.replicate 4560001 0 := by unfold zerosContent; exact rfl

theorem zerosContent_length : zerosContent.length = 4560001 := by unfold zerosContent; exact List.length_replicate

/-- All but the checksum. -/
def zerosBody : Bytes := zerosPre ++ (matches_ 39999 ++ [0x3f, 0, 0])

/-- The stream. -/
def zerosZip : Bytes := zerosBody ++ be4 (adler32 zerosContent)

theorem feed_zerosBody : feed {} zerosBody = ⟨zerosContent.reverse, .collect .check 32 0 0⟩ := by
  unfold zerosBody
  have h1 : feed {} zerosPre = ⟨List.replicate (0 + 1) 0, modeM⟩ := feed_zerosPre
  rw [feed_append, h1, feed_append, feed_matches, show 0 + 1 + 114 * 39999 = 4559886 + 1 by omega, List.replicate_succ,
    stepMEnd, copyBack_one, ← List.replicate_succ, List.replicate_append_replicate, zerosContent_eq, List.reverse_replicate]

theorem feed_zeros : feed {} zerosZip = ⟨zerosContent.reverse, .done⟩ := by
  unfold zerosZip
  rw [feed_append, feed_zerosBody]
  have := feed_check zerosContent.reverse
  rw [List.reverse_reverse] at this
  exact this

theorem zerosZip_length : zerosZip.length = 80009 := by
  unfold zerosZip zerosBody
  rw [List.length_append, List.length_append, List.length_append, matches_length]
  rfl

theorem zerosZip_stop : stopFrom {} zerosZip = some 80009 := by
  have h : zerosZip = (zerosBody ++ (be4 (adler32 zerosContent)).take 3) ++ [UInt8.ofNat (adler32 zerosContent)] := by
    unfold zerosZip
    rw [List.append_assoc]
    rfl
  have hl := zerosZip_length
  have hd := feed_zeros
  rw [h] at hl hd ⊢
  rw [← hl]
  apply stop_of_last
  · rw [hd]
  · rw [feed_append, feed_zerosBody]
    show (feed ⟨_, .collect .check 32 0 0⟩ [_, _, _]).mode ≠ _
    simp only [feed_cons]
    rw [stepByte_collect _ _ _ _ _ _ (by omega), stepByte_collect _ _ _ _ _ _ (by omega), stepByte_collect _ _ _ _ _ _ (by omega)]
    intro h; cases h

end GitDB.Deflate
