import Verif.Props.LargeIter
import Verif.Props.LargeLoose
/-!
# C14: a large loose object in the real format

The header of the object is in a stored block, its content, 20065 zero bytes, in a block with the fixed codes.
-/
set_option autoImplicit false

namespace GitDB.Props
open GitDB Spec Deflate

def realDigits : Bytes := natToDec 20065
def realData : Bytes := List.replicate 20065 0

theorem realDigits_eq : realDigits = [50, 48, 48, 54, 53] := by
  unfold realDigits
  simp [natToDec_eq]

/-- `blob 20065\0` -/
def realHead : Bytes := [98, 108, 111, 98, 32, 50, 48, 48, 54, 53, 0]

theorem realHead_eq : objHead blob realDigits = realHead := by rw [realDigits_eq]; decide

def realPre : Bytes := [0x78, 0x01, 0x00, 11, 0, 0xf4, 0xff] ++ realHead ++ [0x63, 0xa0]

theorem feed_realPre : feed {} realPre = ⟨0 :: realHead.reverse, modeM⟩ := by decide +kernel

theorem feed_matches_on (base : Bytes) : ∀ (k n : Nat), feed ⟨List.replicate (n + 1) 0 ++ base, modeM⟩ (matches_ k) =
    ⟨List.replicate (n + 1 + 114 * k) 0 ++ base, modeM⟩
  | 0, _ => rfl
  | k + 1, n => by
    have : matches_ (k + 1) = [0x3f, 0xa0] ++ matches_ k := rfl
    rw [this, feed_append, List.replicate_succ, List.cons_append, stepM, copyBack_one, ← List.cons_append, ← List.replicate_succ,
      ← List.append_assoc, List.replicate_append_replicate, show 114 + (n + 1) = (n + 114) + 1 by omega, feed_matches_on base k]
    congr 3
    omega

def realBody : Bytes := realPre ++ (matches_ 175 ++ [0x3f, 0, 0])
def realZip : Bytes := realBody ++ be4 (adler32 (object blob realDigits realData))

theorem feed_realBody : feed {} realBody = ⟨(object blob realDigits realData).reverse, .collect .check 32 0 0⟩ := by
  unfold realBody
  have h1 : feed {} realPre = ⟨List.replicate (0 + 1) 0 ++ realHead.reverse, modeM⟩ := feed_realPre
  rw [feed_append, h1, feed_append, feed_matches_on, show 0 + 1 + 114 * 175 = 19950 + 1 by omega, List.replicate_succ, List.cons_append,
    stepMEnd, copyBack_one, ← List.cons_append, ← List.replicate_succ, ← List.append_assoc, List.replicate_append_replicate,
    show object blob realDigits realData = objHead blob realDigits ++ realData from rfl, List.reverse_append, realHead_eq]
  unfold realData
  rw [List.reverse_replicate]

theorem feed_realZip : feed {} realZip = ⟨(object blob realDigits realData).reverse, .done⟩ := by
  unfold realZip
  rw [feed_append, feed_realBody]
  have := feed_check (object blob realDigits realData).reverse
  rw [List.reverse_reverse] at this
  exact this

theorem realBody_length : realBody.length = 373 := by
  unfold realBody
  rw [List.length_append, List.length_append, matches_length]
  rfl

theorem realZip_length : realZip.length = 377 := by
  unfold realZip
  rw [List.length_append, realBody_length]
  rfl

theorem realZip_stop : stopFrom {} realZip = some 377 := by
  have h : realZip = (realBody ++ (be4 (adler32 (object blob realDigits realData))).take 3) ++
      [UInt8.ofNat (adler32 (object blob realDigits realData))] := by
    unfold realZip
    rw [List.append_assoc]
    rfl
  have hl := realZip_length
  have hd := feed_realZip
  rw [h] at hl hd ⊢
  rw [← hl]
  apply stop_of_last
  · rw [hd]
  · rw [feed_append, feed_realBody]
    show (feed ⟨_, .collect .check 32 0 0⟩ [_, _, _]).mode ≠ _
    simp only [feed_cons]
    rw [stepByte_collect _ _ _ _ _ _ (by omega), stepByte_collect _ _ _ _ _ _ (by omega), stepByte_collect _ _ _ _ _ _ (by omega)]
    intro h; cases h

theorem real_size : (object blob realDigits realData).length = 20076 := by
  have h := object_size blob realDigits realData
  rw [h, realHead_eq, realData, List.length_replicate]
  rfl

theorem real_isZip (c : Compressor) : IsZip (Deflate.zlib c) realZip 377 (object blob realDigits realData) := by
  refine ⟨?_, ?_⟩
  · rw [zlib_stop]
    exact realZip_stop
  · rw [zlib_out, feed_realZip, List.reverse_reverse]

/-- All but the checksum is enough for the whole content. -/
example := C14_large_real (Deflate.storing) storedZlib_laws realZip 377 blob realDigits realData
  (by unfold realData; rw [List.length_replicate]; exact natToDec_isDecimal _) (by decide) (real_isZip _)
  (by rw [realHead_eq]; decide) 373 (by rw [realZip_length]; decide)
  (by
    rw [zlib_out]
    have : realZip.take 373 = realBody := by
      unfold realZip
      rw [← realBody_length, List.take_left]
    rw [this, feed_realBody, List.reverse_reverse, real_size]
    omega)
  (fun k _ => by rw [real_size]; omega) (-1) (by decide)

end GitDB.Props
