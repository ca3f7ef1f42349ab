import Verif.Model.Decomp
/-!
# The interpreter's limit on digits

Since Python 3.11 (and in security releases of older versions) conversions between `int` and decimal text raise `ValueError` if there are more
than `sys.get_int_max_str_digits()` digits: 4300 by default, 0 for no limit.  `int(size)` in `gitdb/fun.py` 412 and `gitdb/stream.py` 107, and
`'%i' % size` in `gitdb/fun.py` 485 are such conversions.  `Model/Header.lean` is without the limit; here are the same functions with it.
-/
set_option autoImplicit false

namespace GitDB

/-- The digits of a number in text; underscores and the sign are not counted (`long_from_string_base`, CPython's `longobject.c`). -/
def digitsIn (b : Bytes) : Nat := (b.filter fun c => decide (48 ≤ c.toNat ∧ c.toNat ≤ 57)).length

/-- Is a number of so many digits refused? -/
def tooManyDigits (limit digits : Nat) : Bool := decide (limit ≠ 0 ∧ limit < digits)

/-- `int(b)` with the limit; what it raises has the same type as for text that is no number. -/
def pyIntLim (limit : Nat) (b : Bytes) : Res Int :=
  match pyInt b with
  | .error e => .error e
  | .ok n => if tooManyDigits limit (digitsIn b) then .error .valueError else .ok n

/-- As `parseObjectHeader`: `gitdb/fun.py` 410-412 and `gitdb/stream.py` 105-107, 113. -/
def parseObjectHeaderLim (limit : Nat) (hdr : Bytes) : Res (Bytes × Int × Nat) :=
  let (text, stop) :=
    match hdr.findIdx? (· == 0) with
    | some i => (hdr.take i, i + 1)
    | none => (hdr.take (hdr.length - 1), 0)
  match pySplitSpace text with
  | [typ, size] =>
    match pyIntLim limit size with
    | .ok n => .ok (typ, n, stop)
    | .error e => .error e
  | _ => .error .valueError

/-- `loose_object_header_info(m)`, `gitdb/fun.py` 403-412. -/
def looseObjectHeaderInfoLim (limit : Nat) (zl : Zlib) (m : Bytes) : Res (Bytes × Int) :=
  match ZDec.decompress zl {} m maxHeader with
  | (_, .error e) => .error e
  | (_, .ok hdr) =>
    match parseObjectHeaderLim limit hdr with
    | .error e => .error e
    | .ok (typ, size, _) => .ok (typ, size)

/-- `_parse_header_info`, `gitdb/stream.py` 94-119. -/
def Reader.parseHeaderInfoLim (limit : Nat) (zl : Zlib) (r : Reader) : Reader × Res (Bytes × Int) :=
  let r := { r with s := maxHeader, hasS := true }
  match r.readCore zl (r.fuel) maxHeader with
  | (r, .error e) => (r, .error e)
  | (r, .ok hdr) =>
    match parseObjectHeaderLim limit hdr with
    | .error e => (r, .error e)
    | .ok (typ, size, hdrend) =>
      ({ r with s := size, br := 0, buf := some (hdr.drop hdrend), buflen := hdr.length - hdrend,
                phi := true }, .ok (typ, size))

/-- `DecompressMemMapReader.new(m)`, `gitdb/stream.py` 123-134. -/
def Reader.newLim (limit : Nat) (zl : Zlib) (m : Bytes) : Res (Bytes × Int × Reader) :=
  match (Reader.ofSize m 0).parseHeaderInfoLim limit zl with
  | (_, .error e) => .error e
  | (r, .ok (typ, size)) => .ok (typ, size, r)

/-- `loose_object_header(type, size)`, `gitdb/fun.py` 481-485.  The type is decoded first, then the number is formatted, then the result
encoded; as in `looseObjectHeader`, a type that cannot be decoded or encoded is `UnicodeError`, here whatever the number is.
Simplification: for a type that is UTF-8 and not ASCII the number is in fact looked at first. -/
def looseObjectHeaderLim (limit : Nat) (type : Bytes) (size : Nat) : Res Bytes :=
  if type.all (fun b => b.toNat < 128) then
    if tooManyDigits limit (natToDec size).length then .error .valueError
    else .ok (type ++ [0x20] ++ natToDec size ++ [0])
  else .error .unicodeError

end GitDB
