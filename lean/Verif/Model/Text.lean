import Verif.Model.Messages
import Verif.Model.MergeDeltas
/-!
# Text and bytes: `gitdb/utils/encoding.py`, `byte_ord`, `is_loose_object`
-/
set_option autoImplicit false

namespace GitDB

/-- `s.encode("utf-8")`.  (A Python `str` may also contain lone surrogates, for which it raises; these cannot be
represented here.) -/
def utf8 (s : List Char) : Bytes := s.flatMap String.utf8EncodeChar

/-- `b.decode("utf-8")`: strict, as in Python neither overlong forms nor surrogates are accepted. -/
def fromUtf8 (b : Bytes) : Res (List Char) :=
  match (ByteArray.mk b.toArray).utf8Decode? with
  | some a => .ok a.toList
  | none => .error .unicodeError

/-- `force_bytes(data)`, `gitdb/utils/encoding.py` 1-8, for `str` and `bytes`. -/
def forceBytes : PyText → Res Bytes
  | .bytes b => .ok b
  | .str s => .ok (utf8 s)

/-- `force_text(data)`, `gitdb/utils/encoding.py` 11-18, for `str` and `bytes`. -/
def forceText : PyText → Res (List Char)
  | .str s => .ok s
  | .bytes b => fromUtf8 b

/-- What indexing or slicing a buffer gives: an `int`, or `bytes`. -/
inductive PyByte where
  | int (n : Nat)
  | bytes (b : Bytes)
  deriving DecidableEq, Repr

/-- `byte_ord(b)`, `gitdb/util.py` 119-127: `ord` accepts `bytes` of length one; otherwise `TypeError` is caught
and the argument returned. -/
def byteOrd : PyByte → PyByte
  | .bytes [x] => .int x.toNat
  | b => b

/-- `is_loose_object(m)`, `gitdb/fun.py` 394-401: `map(ord, m[:2])` unpacked into two names (`ValueError` if there
are not two; `ord` is called first). -/
def isLooseObject (o : PyOps) (m : Bytes) : Res Bool :=
  match m with
  | [] => .error .valueError
  | [a] =>
    match o.ord a with
    | .error e => .error e
    | .ok _ => .error .valueError
  | a :: b :: _ => do
    let b0 ← o.ord a
    let b1 ← o.ord b
    let word := b0 * 2 ^ 8 + b1
    return decide (b0 = 0x78) && decide (word % 31 = 0)

end GitDB
