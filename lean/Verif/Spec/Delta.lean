import Verif.Model.Basic
/-!
# Specification of delta instructions

As documented in git's `Documentation/gitformat-pack.txt` ("Deltified representation").
-/
set_option autoImplicit false

namespace GitDB.Spec

/-- An instruction.  A copy carries the operand bytes that are present: four offset bytes and three
size bytes, least significant first; an absent byte counts as 0. -/
inductive Instr where
  | copy (o0 o1 o2 o3 s0 s1 s2 : Option UInt8)
  | insert (data : Bytes)

/-- Value of an operand byte. -/
def opVal (o : Option UInt8) : Nat := match o with | some b => b.toNat | none => 0

/-- Offset of a copy. -/
def copyOff (o0 o1 o2 o3 : Option UInt8) : Nat :=
  opVal o0 + 256 * opVal o1 + 65536 * opVal o2 + 16777216 * opVal o3

/-- Size of a copy; 0 stands for 0x10000. -/
def copySize (s0 s1 s2 : Option UInt8) : Nat :=
  let s := opVal s0 + 256 * opVal s1 + 65536 * opVal s2
  if s = 0 then 65536 else s

/-- The bytes produced by an instruction on a base. -/
def Instr.run (base : Bytes) : Instr → Bytes
  | .copy o0 o1 o2 o3 s0 s1 s2 => (base.drop (copyOff o0 o1 o2 o3)).take (copySize s0 s1 s2)
  | .insert d => d

/-- A copy must lie in the source, an insert has 1 to 127 bytes. -/
def Instr.Valid (srcSize : Nat) : Instr → Prop
  | .copy o0 o1 o2 o3 s0 s1 s2 => copyOff o0 o1 o2 o3 + copySize s0 s1 s2 ≤ srcSize
  | .insert d => 1 ≤ d.length ∧ d.length ≤ 127

/-- Number of bytes produced by a valid instruction. -/
def Instr.size : Instr → Nat
  | .copy _ _ _ _ s0 s1 s2 => copySize s0 s1 s2
  | .insert d => d.length

/-- Presence bit. -/
def bit (o : Option UInt8) (k : Nat) : Nat := if o.isSome then k else 0

/-- The opcode of a copy: the high bit and one presence bit per operand byte. -/
def copyOp (o0 o1 o2 o3 s0 s1 s2 : Option UInt8) : Nat :=
  128 + bit o0 1 + bit o1 2 + bit o2 4 + bit o3 8 + bit s0 16 + bit s1 32 + bit s2 64

/-- Encoding of an instruction. -/
def Instr.encode : Instr → Bytes
  | .copy o0 o1 o2 o3 s0 s1 s2 =>
    UInt8.ofNat (copyOp o0 o1 o2 o3 s0 s1 s2) ::
      (o0.toList ++ o1.toList ++ o2.toList ++ o3.toList ++ s0.toList ++ s1.toList ++ s2.toList)
  | .insert d => UInt8.ofNat d.length :: d

/-- Result of a list of instructions. -/
def runAll (base : Bytes) (is : List Instr) : Bytes := is.flatMap (Instr.run base)

/-- Encoding of a list of instructions. -/
def encodeAll (is : List Instr) : Bytes := is.flatMap Instr.encode

end GitDB.Spec

namespace GitDB.Spec

/-- Number of operand bytes announced by a copy opcode. -/
def operands (c : Nat) : Nat :=
  c % 2 + c / 2 % 2 + c / 4 % 2 + c / 8 % 2 + c / 16 % 2 + c / 32 % 2 + c / 64 % 2

/-- A delta is well formed for a source size if it is a sequence of valid instructions. -/
def WellFormedDelta (srcSize : Nat) (db : Bytes) : Prop :=
  ∃ is, (∀ x ∈ is, x.Valid srcSize) ∧ db = encodeAll is

/-- What can follow the longest well formed part of a delta. -/
inductive Stuck (srcSize : Nat) : Bytes → Prop
  | nil : Stuck srcSize []
  | zero (rest : Bytes) : Stuck srcSize (0 :: rest)
  | copyTruncated (c : UInt8) (rest : Bytes) (h : 128 ≤ c.toNat)
      (ht : rest.length < operands c.toNat) : Stuck srcSize (c :: rest)
  | insertTruncated (c : UInt8) (rest : Bytes) (h : c.toNat < 128)
      (ht : rest.length < c.toNat) : Stuck srcSize (c :: rest)
  | copyOutside (o0 o1 o2 o3 s0 s1 s2 : Option UInt8) (rest : Bytes)
      (h : srcSize < copyOff o0 o1 o2 o3 + copySize s0 s1 s2) :
      Stuck srcSize ((Instr.copy o0 o1 o2 o3 s0 s1 s2).encode ++ rest)

end GitDB.Spec
