import Verif.Model.Struct
import Verif.Model.Writers
/-!
# Pack indices: `gitdb/pack.py` 173-499 (`IndexWriter`, `PackIndexFile`)
-/
set_option autoImplicit false

namespace GitDB

/-- One element of `IndexWriter._objs`: `(binsha, crc, offset)`, `gitdb/pack.py` 183-185. -/
structure IdxObj where
  sha : Bytes
  crc : Nat
  ofs : Nat
  deriving DecidableEq, Repr

/-- `self._objs.sort(key=lambda o: o[0])`, `gitdb/pack.py` 192: a stable sort by name.  Python compares
`bytes` lexicographically, which is `<` on lists. -/
def sortObjs (objs : List IdxObj) : List IdxObj := objs.mergeSort fun a b => decide (¬ b.sha < a.sha)

/-- The counting loop, `gitdb/pack.py` 200-202, for one slot: how many names have this first byte. -/
def slotCount (objs : List IdxObj) (b : Nat) : Nat :=
  (objs.filter fun o => o.sha.head?.map UInt8.toNat == some b).length

/-- The loop writing the fanout table, `gitdb/pack.py` 204-209: running sums over the slots. -/
def fanoutSteps : Nat → List Nat → List (Res Bytes)
  | _, [] => []
  | acc, c :: cs => packL (acc + c) :: fanoutSteps (acc + c) cs

/-- The 32 bit offsets, `gitdb/pack.py` 220-228; the first argument is `len(tmplist)`. -/
def ofs32Steps : Nat → List IdxObj → List (Res Bytes)
  | _, [] => []
  | k, o :: os =>
    if o.ofs > 0x7fffffff then packL ((0x80000000 + (k + 1) - 1) &&& 0xffffffff) :: ofs32Steps (k + 1) os
    else packL (o.ofs &&& 0xffffffff) :: ofs32Steps k os

/-- The argument of every `sha_write` call of `IndexWriter.write` in order, or the exception raised
while computing it; `gitdb/pack.py` 196-238.  `objs` are the sorted objects. -/
def indexSteps (objs : List IdxObj) (packSha : Bytes) : List (Res Bytes) :=
  [.ok [0xff, 0x74, 0x4f, 0x63], packL 2] ++
  (if objs.any (fun o => o.sha.isEmpty) then [.error .indexError]
   else fanoutSteps 0 ((List.range 256).map (slotCount objs))) ++
  [.ok (objs.map IdxObj.sha).flatten] ++
  objs.map (fun o => packL (o.crc &&& 0xffffffff)) ++
  ofs32Steps 0 objs ++
  ((objs.map IdxObj.ofs).filter (· > 0x7fffffff)).map packQ ++
  [if packSha.length = 20 then .ok packSha else .error .assertionError]

/-- Write calls whose arguments are computed one after the other. -/
def writeSteps {ω ρ : Type} (write : ω → Bytes → ω × Res ρ) : ω → List (Res Bytes) → ω × Res Unit
  | w, [] => (w, .ok ())
  | w, .error e :: _ => (w, .error e)
  | w, .ok d :: ds =>
    match write w d with
    | (w, .error e) => (w, .error e)
    | (w, .ok _) => writeSteps write w ds

/-- `IndexWriter.write(pack_sha, write)`, `gitdb/pack.py` 187-241. -/
def indexWrite {ω ρ : Type} (H : Hash) (objs : List IdxObj) (packSha : Bytes)
    (write : ω → Bytes → ω × Res ρ) (w : ω) : ω × Res Bytes :=
  match writeSteps (FlexibleSha1Writer.write write) { inner := w } (indexSteps (sortObjs objs) packSha) with
  | (f, .error e) => (f.inner, .error e)
  | (f, .ok ()) =>
    let sha := f.sha1.sha H false
    match write f.inner sha with
    | (w, .error e) => (w, .error e)
    | (w, .ok _) => (w, .ok sha)

/-- An opened `PackIndexFile`: the mapped file and the attributes set by `_set_cache_`/`_initialize`. -/
structure IndexFile where
  map : Bytes
  version : Nat
  fanout : List Nat
  crcOff : Nat := 0
  packOff : Nat := 0
  pack64Off : Nat := 0
  deriving DecidableEq, Repr

/-- `_sha_list_offset`, `gitdb/pack.py` 255. -/
def shaListOff : Nat := 8 + 1024

/-- `_read_fanout(byte_offset)`, `gitdb/pack.py` 368-376. -/
def readFanout (map : Bytes) (off : Nat) : Res (List Nat) :=
  (List.range 256).mapM fun i => unpackL map (off + i * 4)

/-- `size()`, `gitdb/pack.py` 384-386. -/
def IndexFile.size (x : IndexFile) : Nat := x.fanout.getD 255 0

/-- First access to an index: `_set_cache_` 282-302 and `_initialize` 358-366 of `gitdb/pack.py`. -/
def IndexFile.load (map : Bytes) : Res IndexFile :=
  let version := if map.take 4 = [0xff, 0x74, 0x4f, 0x63] then 2 else 1
  let check : Res Unit :=
    if version = 2 then
      match unpackL map 4 with
      | .error e => .error e
      | .ok v => if v = 2 then .ok () else .error .assertionError
    else .ok ()
  match check with
  | .error e => .error e
  | .ok () =>
    match readFanout map (if version = 2 then 8 else 0) with
    | .error e => .error e
    | .ok fanout =>
      let n := fanout.getD 255 0
      if version = 2 then
        .ok { map := map, version := 2, fanout := fanout, crcOff := shaListOff + n * 20,
              packOff := shaListOff + n * 20 + n * 4, pack64Off := shaListOff + n * 20 + n * 4 + n * 4 }
      else .ok { map := map, version := 1, fanout := fanout }

/-- `_sha_v1`, `_sha_v2`, `gitdb/pack.py` 315-318, 345-348: slices, shorter at the end of the file. -/
def IndexFile.sha (x : IndexFile) (i : Nat) : Bytes :=
  if x.version = 2 then pySlice x.map (shaListOff + i * 20) (shaListOff + i * 20 + 20)
  else pySlice x.map (1024 + i * 24 + 4) (1024 + i * 24 + 4 + 20)

/-- `_offset_v1`, `_offset_v2`, `gitdb/pack.py` 311-313, 331-343 (of `_offset_v2`: `offset & ~0x80000000`
on a 32 bit number with the top bit set is subtraction). -/
def IndexFile.offset (x : IndexFile) (i : Nat) : Res Nat :=
  if x.version = 2 then
    match unpackL x.map (x.packOff + i * 4) with
    | .error e => .error e
    | .ok offset =>
      if offset &&& 0x80000000 ≠ 0 then unpackQ x.map (x.pack64Off + (offset - 0x80000000) * 8)
      else .ok offset
  else unpackL x.map (1024 + i * 24)

/-- `_crc_v1`, `_crc_v2`, `gitdb/pack.py` 320-322, 350-352. -/
def IndexFile.crc (x : IndexFile) (i : Nat) : Res Nat :=
  if x.version = 2 then unpackL x.map (x.crcOff + i * 4) else .ok 0

/-- `_entry_v1`, `_entry_v2`, `gitdb/pack.py` 307-309, 327-329: `(offset, binsha, crc)`.  In version 1,
`unpack_from(">L20s")` needs all 24 bytes. -/
def IndexFile.entry (x : IndexFile) (i : Nat) : Res (Nat × Bytes × Nat) :=
  if x.version = 2 then
    match x.offset i with
    | .error e => .error e
    | .ok o =>
      match x.crc i with
      | .error e => .error e
      | .ok c => .ok (o, x.sha i, c)
  else if 1024 + i * 24 + 24 ≤ x.map.length then
    .ok (beVal (pySlice x.map (1024 + i * 24) (1024 + i * 24 + 4)), x.sha i, 0)
  else .error .structError

/-- `packfile_checksum()`, `gitdb/pack.py` 392-394: `map()[-40:-20]`. -/
def IndexFile.packfileChecksum (x : IndexFile) : Bytes :=
  pySlice x.map (x.map.length - 40) (x.map.length - 20)

/-- `indexfile_checksum()`, `gitdb/pack.py` 396-398: `map()[-20:]`. -/
def IndexFile.indexfileChecksum (x : IndexFile) : Bytes := x.map.drop (x.map.length - 20)

/-- Cut a byte string into words of four bytes; `array.frombytes` raises `ValueError` if bytes are
left over. -/
def words32 : Bytes → Res (List Nat)
  | [] => .ok []
  | a :: b :: c :: d :: t =>
    match words32 t with
    | .error e => .error e
    | .ok l => .ok (beVal [a, b, c, d] :: l)
  | _ => .error .valueError

/-- `offsets()`, `gitdb/pack.py` 400-415. -/
def IndexFile.offsets (x : IndexFile) : Res (List Nat) :=
  if x.version = 2 then words32 (pySlice x.map x.packOff x.pack64Off)
  else (List.range x.size).mapM x.offset

/-- The bisection of `sha_to_index`, `gitdb/pack.py` 429-441.  Structural recursion on the width bound. -/
def bisect (sha : Bytes) (get : Nat → Bytes) : Nat → Nat → Nat → Option Nat
  | 0, _, _ => none
  | k + 1, lo, hi =>
    if lo < hi then
      let mid := (lo + hi) / 2
      if sha < get mid then bisect sha get k lo mid
      else if sha = get mid then some mid
      else bisect sha get k (mid + 1) hi
    else none

/-- `lo` and `hi` before the bisection, `gitdb/pack.py` 422-427 and 455-461. -/
def IndexFile.bounds (x : IndexFile) (first : Nat) : Nat × Nat :=
  (if first ≠ 0 then x.fanout.getD (first - 1) 0 else 0, x.fanout.getD first 0)

/-- `sha_to_index(sha)`, `gitdb/pack.py` 417-441. -/
def IndexFile.shaToIndex (x : IndexFile) (sha : Bytes) : Res (Option Nat) :=
  match sha.head? with
  | none => .error .indexError
  | some b =>
    let (lo, hi) := x.bounds b.toNat
    .ok (bisect sha x.sha (hi - lo + 1) lo hi)

/-- The loop "find lowest" of `partial_sha_to_index`, `gitdb/pack.py` 466-479; returns `lo`. -/
def bisectLow (sha : Bytes) (get : Nat → Bytes) : Nat → Nat → Nat → Nat
  | 0, lo, _ => lo
  | k + 1, lo, hi =>
    if lo < hi then
      let mid := (lo + hi) / 2
      if sha < get mid then bisectLow sha get k lo mid
      else if sha = get mid then mid
      else bisectLow sha get k (mid + 1) hi
    else lo

/-- `partial_sha_to_index(partial_bin_sha, canonical_length)`, `gitdb/pack.py` 443-492. -/
def IndexFile.partialShaToIndex (x : IndexFile) (part : Bytes) (n : Nat) : Res (Option Nat) :=
  if part.length < 2 then .error .valueError
  else
    match part.head? with
    | none => .error .indexError
    | some b =>
      let (lo, hi) := x.bounds b.toNat
      let filled := part ++ List.replicate (20 - part.length) 0
      let lo := bisectLow filled x.sha (hi - lo + 1) lo hi
      if lo < x.size then
        let cur := x.sha lo
        match isEqualCanonicalSha n part cur with
        | .error e => .error e
        | .ok true =>
          let next := if lo + 1 < x.size then x.sha (lo + 1) else []
          if next ≠ [] ∧ next = cur then .error .ambiguousObjectName
          else .ok (some lo)
        | .ok false => .ok none
      else .ok none

end GitDB
