import Verif.Model.Basic
/-!
# `zlib.crc32` / `binascii.crc32`
-/
set_option autoImplicit false

namespace GitDB

/-- One bit of the CRC-32 used by zlib (reflected polynomial 0xEDB88320). -/
def crcBit (c : Nat) : Nat := if c &&& 1 = 1 then (c >>> 1) ^^^ 0xEDB88320 else c >>> 1

/-- One byte. -/
def crcByte (c : Nat) (b : UInt8) : Nat :=
  crcBit (crcBit (crcBit (crcBit (crcBit (crcBit (crcBit (crcBit (c ^^^ b.toNat))))))))

/-- `crc32(data, value)`. -/
def crc32 (data : Bytes) (value : Nat) : Nat :=
  data.foldl crcByte (value ^^^ 0xffffffff) ^^^ 0xffffffff

end GitDB
