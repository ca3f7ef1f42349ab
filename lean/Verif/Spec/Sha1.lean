import Verif.Model.Basic
/-!
# SHA-1 as in FIPS 180-4

Sections 4.1.1, 4.2.1, 5.1.1, 5.2.1, 5.3.1 and 6.1.2 of the standard, on numbers below 2^32.
-/
set_option autoImplicit false

namespace GitDB.Spec.Sha1
open GitDB

/-- Rotation of a 32-bit word to the left. -/
def rot (n x : Nat) : Nat := x * 2 ^ n % 2 ^ 32 + x / 2 ^ (32 - n)

/-- The functions of 4.1.1. -/
def f (t x y z : Nat) : Nat :=
  if t < 20 then (x &&& y) ^^^ ((2 ^ 32 - 1 - x) &&& z)
  else if t < 40 then x ^^^ y ^^^ z
  else if t < 60 then (x &&& y) ^^^ (x &&& z) ^^^ (y &&& z)
  else x ^^^ y ^^^ z

/-- The constants of 4.2.1. -/
def K (t : Nat) : Nat :=
  if t < 20 then 0x5a827999 else if t < 40 then 0x6ed9eba1 else if t < 60 then 0x8f1bbcdc else 0xca62c1d6

/-- The five words of a hash value, or the five working variables. -/
structure Words where
  a : Nat
  b : Nat
  c : Nat
  d : Nat
  e : Nat
  deriving DecidableEq, Repr

/-- The initial hash value, 5.3.1. -/
def H0 : Words := ⟨0x67452301, 0xefcdab89, 0x98badcfe, 0x10325476, 0xc3d2e1f0⟩

/-- A big-endian number. -/
def be (bs : Bytes) : Nat := bs.foldl (fun v b => 256 * v + b.toNat) 0

/-- The message schedule `W` of a block, 6.1.2 step 1. -/
structure Schedule (block : Bytes) (W : Nat → Nat) : Prop where
  first : ∀ t, t < 16 → W t = be ((block.drop (4 * t)).take 4)
  next : ∀ t, 16 ≤ t → t < 80 → W t = rot 1 (W (t - 3) ^^^ W (t - 8) ^^^ W (t - 14) ^^^ W (t - 16))

/-- 6.1.2 step 3. -/
def round (W : Nat → Nat) (t : Nat) (s : Words) : Words :=
  ⟨(rot 5 s.a + f t s.b s.c s.d + s.e + K t + W t) % 2 ^ 32, s.a, rot 30 s.b, s.c, s.d⟩

/-- The working variables before round `t`. -/
def rounds (W : Nat → Nat) (s : Words) : Nat → Words
  | 0 => s
  | t + 1 => round W t (rounds W s t)

/-- 6.1.2 step 4. -/
def add (s r : Words) : Words :=
  ⟨(s.a + r.a) % 2 ^ 32, (s.b + r.b) % 2 ^ 32, (s.c + r.c) % 2 ^ 32, (s.d + r.d) % 2 ^ 32, (s.e + r.e) % 2 ^ 32⟩

/-- The blocks, one after the other. -/
inductive Run : Words → List Bytes → Words → Prop
  | nil (s : Words) : Run s [] s
  | cons {s s' : Words} {block : Bytes} {blocks : List Bytes} (W : Nat → Nat) (hl : block.length = 64) (hW : Schedule block W)
      (t : Run (add s (rounds W s 80)) blocks s') : Run s (block :: blocks) s'

/-- The message with its padding, 5.1.1: a one bit, the least number of zero bits, and the length in bits as a 64-bit number. -/
def Padded (msg padded : Bytes) : Prop :=
  ∃ k len, k < 64 ∧ padded = msg ++ 0x80 :: (List.replicate k 0 ++ len) ∧ len.length = 8 ∧ be len = 8 * msg.length ∧
    padded.length % 64 = 0

/-- `digest` is the SHA-1 of `msg`. -/
def IsSha1 (msg digest : Bytes) : Prop :=
  ∃ blocks s, Padded msg blocks.flatten ∧ Run H0 blocks s ∧ digest.length = 20 ∧
    be (digest.take 4) = s.a ∧ be ((digest.drop 4).take 4) = s.b ∧ be ((digest.drop 8).take 4) = s.c ∧
    be ((digest.drop 12).take 4) = s.d ∧ be (digest.drop 16) = s.e

end GitDB.Spec.Sha1
