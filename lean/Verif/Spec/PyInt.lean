import Verif.Spec.Names
/-!
# What Python's `int()` accepts, and which bytes count as the header of an object

Independent of the model: numbers and headers are described by their form.
-/
set_option autoImplicit false

namespace GitDB.Spec

/-- White space for `int()`: blank, tab, newline, vertical tab, form feed, carriage return. -/
def AllSpace (b : Bytes) : Prop := ∀ c ∈ b, c.toNat ∈ [0x20, 9, 10, 11, 12, 13]

/-- A non-empty run of decimal digits. -/
def Digits (b : Bytes) : Prop := b ≠ [] ∧ ∀ c ∈ b, 48 ≤ c.toNat ∧ c.toNat ≤ 57

/-- `int(b)` is `n`: white space, a sign or none, groups of digits with single underscores between them, white space. -/
def IsPyInt (b : Bytes) (n : Int) : Prop :=
  ∃ (pre sign first : Bytes) (more : List Bytes) (post : Bytes), b = pre ++ (sign ++ (first ++ more.flatMap (0x5f :: ·)) ++ post) ∧ AllSpace pre ∧ AllSpace post ∧
    Digits first ∧ (∀ g ∈ more, Digits g) ∧
    ((sign = [] ∨ sign = [0x2b]) ∧ n = decValue (first ++ more.flatten) ∨ sign = [0x2d] ∧ n = -(decValue (first ++ more.flatten) : Int))

/-- What is made of the beginning `hdr` of decompressed data: a header up to the first NUL, of length `k`; or, in data without a
NUL, all but the last byte, and then nothing is skipped. -/
def HeaderRead (hdr typ : Bytes) (size : Int) (k : Nat) : Prop :=
  ∃ num, IsPyInt num size ∧ (∀ c ∈ typ, c ≠ 0x20) ∧ (∀ c ∈ num, c ≠ 0x20) ∧
    ((0 ∉ typ ∧ 0 ∉ num ∧ k ≤ hdr.length ∧ hdr.take k = typ ++ 0x20 :: num ++ [0]) ∨
      (k = 0 ∧ 0 ∉ hdr ∧ hdr.dropLast = typ ++ 0x20 :: num))

end GitDB.Spec
