import Verif.Model.Basic
/-!
# Object names, abbreviations and type tables

`gitdb/util.py` 46-47 (`binascii` aliases), 219-229; `gitdb/fun.py` 29-51, 681-698;
`gitdb/base.py` 56-58, 88-94; `gitdb/typ.py` 7-10.
-/
set_option autoImplicit false

namespace GitDB

/-- One lower case hex digit, as `binascii.b2a_hex` prints it. -/
def hexDigit (n : Nat) : UInt8 := if n < 10 then UInt8.ofNat (48 + n) else UInt8.ofNat (87 + n)

/-- Value of a hex digit for `binascii.a2b_hex`, which accepts both cases. -/
def hexVal (c : UInt8) : Option Nat :=
  if 48 ≤ c.toNat ∧ c.toNat ≤ 57 then some (c.toNat - 48)
  else if 97 ≤ c.toNat ∧ c.toNat ≤ 102 then some (c.toNat - 87)
  else if 65 ≤ c.toNat ∧ c.toNat ≤ 70 then some (c.toNat - 55)
  else none

/-- `bin_to_hex = binascii.b2a_hex`, `gitdb/util.py` 47. -/
def binToHex : Bytes → Bytes
  | [] => []
  | b :: bs => hexDigit (b.toNat / 16) :: hexDigit (b.toNat % 16) :: binToHex bs

/-- `hex_to_bin = binascii.a2b_hex`, `gitdb/util.py` 46: `binascii.Error` (a `ValueError`) for an odd
number of digits and for anything that is not a hex digit. -/
def hexToBin : Bytes → Res Bytes
  | [] => .ok []
  | [_] => .error .binasciiError
  | a :: b :: rest =>
    match hexVal a, hexVal b with
    | some x, some y =>
      match hexToBin rest with
      | .ok r => .ok (UInt8.ofNat (16 * x + y) :: r)
      | .error e => .error e
    | _, _ => .error .binasciiError

/-- `to_hex_sha`, `gitdb/util.py` 219-223. -/
def toHexSha (sha : Bytes) : Bytes := if sha.length = 40 then sha else binToHex sha

/-- `to_bin_sha`, `gitdb/util.py` 226-229. -/
def toBinSha (sha : Bytes) : Res Bytes := if sha.length = 20 then .ok sha else hexToBin sha

/-- `is_equal_canonical_sha(canonical_length, match, sha1)`, `gitdb/fun.py` 681-698.
`match[-1]` is the last byte (IndexError if there is none). -/
def isEqualCanonicalSha (canonicalLength : Nat) (mtch sha1 : Bytes) : Res Bool := do
  let binaryLength := canonicalLength / 2
  if mtch.take binaryLength ≠ sha1.take binaryLength then
    return false
  if canonicalLength - binaryLength ≠ 0 then
    let a ← match mtch.getLast? with
      | some x => Except.ok x.toNat
      | none => Except.error Err.indexError
    let b ← pyIndex sha1 (mtch.length - 1)
    if (a ^^^ b) &&& 0xf0 ≠ 0 then
      return false
  return true

/-- Values in the two type tables: Python `bytes` or `str`. -/
inductive PyName where
  | bytes (b : Bytes)
  | str (s : String)
  deriving DecidableEq, Repr

/-- The bytes of a type name in the header of an object, `force_text` (`gitdb/utils/encoding.py` 11-18) and
`encode('ascii')` (`gitdb/fun.py` 485).  All type names are ASCII. -/
def PyName.text : PyName → Bytes
  | .bytes b => b
  | .str s => s.toList.map fun c => UInt8.ofNat c.toNat

/-- `gitdb/typ.py` 8. -/
def strCommitType : Bytes := [99, 111, 109, 109, 105, 116]
/-- `gitdb/typ.py` 9. -/
def strTreeType : Bytes := [116, 114, 101, 101]
/-- `gitdb/typ.py` 7. -/
def strBlobType : Bytes := [98, 108, 111, 98]
/-- `gitdb/typ.py` 10. -/
def strTagType : Bytes := [116, 97, 103]

/-- `OFS_DELTA`, `gitdb/fun.py` 29. -/
def OFS_DELTA : Nat := 6
/-- `REF_DELTA`, `gitdb/fun.py` 30. -/
def REF_DELTA : Nat := 7

/-- `type_id_to_type_map[i]`, `gitdb/fun.py` 33-42; `KeyError` for other ids. -/
def typeIdToType (i : Nat) : Res PyName :=
  if i = 0 then .ok (.bytes [])
  else if i = 1 then .ok (.bytes strCommitType)
  else if i = 2 then .ok (.bytes strTreeType)
  else if i = 3 then .ok (.bytes strBlobType)
  else if i = 4 then .ok (.bytes strTagType)
  else if i = 5 then .ok (.bytes [])
  else if i = OFS_DELTA then .ok (.str "OFS_DELTA")
  else if i = REF_DELTA then .ok (.str "REF_DELTA")
  else .error .keyError

/-- `type_to_type_id_map[t]`, `gitdb/fun.py` 44-51; `KeyError` for other keys. -/
def typeToTypeId (t : PyName) : Res Nat :=
  if t = .bytes strCommitType then .ok 1
  else if t = .bytes strTreeType then .ok 2
  else if t = .bytes strBlobType then .ok 3
  else if t = .bytes strTagType then .ok 4
  else if t = .str "OFS_DELTA" then .ok OFS_DELTA
  else if t = .str "REF_DELTA" then .ok REF_DELTA
  else .error .keyError

end GitDB
