import Verif.Model.Basic
/-!
# Variable length integers: `gitdb/fun.py` 415-478 and `gitdb/pack.py` 91-104
-/
set_option autoImplicit false

namespace GitDB

/-- `fun.py` 426-430, the `while c & 0x80` loop of `pack_object_header_info`.
`rest` is `data[i:]`; reading past the end is Python's `IndexError`. -/
def headerLoop (rest : Bytes) (c i size s : Nat) : Res (Nat × Nat) :=
  if c &&& 0x80 = 0 then .ok (size, i)
  else match rest with
    | [] => .error .indexError
    | b :: rest => headerLoop rest b.toNat (i + 1) (size + ((b.toNat &&& 0x7f) <<< s)) (s + 7)

/-- `fun.py` 415-433 `pack_object_header_info`: `(type_id, size, byte_offset)`. -/
def packObjectHeaderInfo (data : Bytes) : Res (Nat × Nat × Nat) :=
  match data with
  | [] => .error .indexError
  | b :: rest =>
    let c := b.toNat
    let typeId := (c >>> 4) &&& 7
    match headerLoop rest c 1 (c &&& 15) 4 with
    | .ok (size, i) => .ok (typeId, size, i)
    | .error e => .error e

/-- Python `bytearray.append(c)`: `ValueError` unless `0 <= c < 256`. -/
def bytearrayAppend (hdr : Bytes) (c : Nat) : Res Bytes :=
  if c < 256 then .ok (hdr ++ [UInt8.ofNat c]) else .error .valueError

/-- `fun.py` 448-453, the `while obj_size` loop of `create_pack_object_header` and the final append. -/
def createHeaderLoop (hdr : Bytes) (c objSize : Nat) : Res Bytes :=
  if h : objSize = 0 then bytearrayAppend hdr c
  else match bytearrayAppend hdr (c ||| 0x80) with
    | .error e => .error e
    | .ok hdr => createHeaderLoop hdr (objSize &&& 0x7f) (objSize >>> 7)
termination_by objSize
decreasing_by
  simp only [Nat.shiftRight_eq_div_pow]
  exact Nat.div_lt_self (Nat.pos_of_ne_zero h) (by decide)

/-- `fun.py` 436-455 `create_pack_object_header`. -/
def createPackObjectHeader (objType objSize : Nat) : Res Bytes :=
  createHeaderLoop [] ((objType <<< 4) ||| (objSize &&& 0xf)) (objSize >>> 4)

/-- `fun.py` 466-474, the loop of `msb_size`; `n` is `l - i` (iterations left, `l = len(data)`),
`rest` is `data[i + offset:]`.  Note that the loop bound does not take `offset` into account. -/
def msbLoop : Nat → Bytes → Nat → Nat → Res (Nat × Nat)
  | 0, _, _, _ => .error .assertionError            -- 476-477: `not hit_msb`
  | _ + 1, [], _, _ => .error .indexError           -- 467: `data[i + offset]`
  | n + 1, b :: rest, i, size =>
    let c := b.toNat
    let size := size ||| ((c &&& 0x7f) <<< (i * 7))
    if c &&& 0x80 = 0 then .ok (i + 1, size)
    else msbLoop n rest (i + 1) size

/-- `fun.py` 458-478 `msb_size(data, offset)`: `(next offset, size)`. -/
def msbSize (data : Bytes) (offset : Nat) : Res (Nat × Nat) :=
  match msbLoop data.length (data.drop offset) 0 0 with
  | .ok (i, size) => .ok (i + offset, size)
  | .error e => .error e

/-- `pack.py` 97-102, the loop reading the back offset of an `OFS_DELTA` entry.
`rest` is `data[i:]`. -/
def ofsLoop (rest : Bytes) (c i deltaOffset : Nat) : Res (Nat × Nat) :=
  if c &&& 0x80 = 0 then .ok (deltaOffset, i)
  else match rest with
    | [] => .error .indexError
    | b :: rest =>
      ofsLoop rest b.toNat (i + 1) (((deltaOffset + 1) <<< 7) + (b.toNat &&& 0x7f))

/-- `pack.py` 92-104: decode the back offset that starts at `data[i]`:
`(delta_offset, position after it)`. -/
def ofsDecode (data : Bytes) (i : Nat) : Res (Nat × Nat) :=
  match data.drop i with
  | [] => .error .indexError
  | b :: rest => ofsLoop rest b.toNat (i + 1) (b.toNat &&& 0x7f)

end GitDB
