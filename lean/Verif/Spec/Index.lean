import Verif.Model.Basic
/-!
# Specification of pack indices, after git's `gitformat-pack`
-/
set_option autoImplicit false

namespace GitDB.Spec

/-- One object of an index. -/
structure Entry where
  name : Bytes
  crc : Nat
  ofs : Nat
  deriving DecidableEq, Repr

/-- Unsigned integers in network byte order. -/
def u32 (n : Nat) : Bytes :=
  [UInt8.ofNat (n / 2 ^ 24), UInt8.ofNat (n / 2 ^ 16), UInt8.ofNat (n / 2 ^ 8), UInt8.ofNat n]
def u64 (n : Nat) : Bytes := u32 (n / 2 ^ 32) ++ u32 (n % 2 ^ 32)

/-- The name begins with a byte `≤ k`. -/
def firstLe (k : Nat) (name : Bytes) : Bool :=
  match name with
  | [] => true
  | b :: _ => b.toNat ≤ k

/-- The fanout table: entry `k` counts the names whose first byte is at most `k`. -/
def fanoutTable (names : List Bytes) : List Nat := (List.range 256).map fun k => names.countP (firstLe k)

/-- Offsets that need the 64 bit table. -/
def isLarge (e : Entry) : Bool := decide (2 ^ 31 ≤ e.ofs)

/-- The 32 bit offset field of the entry at position `i`: the offset itself, or the most significant bit
and the position in the table of 64 bit offsets. -/
def ofsField (es : List Entry) (e : Entry) (i : Nat) : Nat :=
  if isLarge e then 2 ^ 31 + (es.take i).countP isLarge else e.ofs

/-- Version 2 index file. -/
def indexV2 (es : List Entry) (packSha idxSha : Bytes) : Bytes :=
  [255, 116, 79, 99] ++ u32 2 ++
  (fanoutTable (es.map Entry.name)).flatMap u32 ++
  (es.map Entry.name).flatten ++
  (es.map Entry.crc).flatMap u32 ++
  es.zipIdx.flatMap (fun p => u32 (ofsField es p.1 p.2)) ++
  (es.filter isLarge).flatMap (fun e => u64 e.ofs) ++
  packSha ++ idxSha

/-- Version 1 index file. -/
def indexV1 (es : List Entry) (packSha idxSha : Bytes) : Bytes :=
  (fanoutTable (es.map Entry.name)).flatMap u32 ++
  es.flatMap (fun e => u32 e.ofs ++ e.name) ++
  packSha ++ idxSha

/-- The names are in ascending order (equal names may be neighbours). -/
def Ascending (names : List Bytes) : Prop := names.Pairwise fun a b => ¬ b < a

/-- Entries that fit a version 2 index. -/
structure ValidV2 (es : List Entry) : Prop where
  name_len : ∀ e ∈ es, e.name.length = 20
  crc_lt : ∀ e ∈ es, e.crc < 2 ^ 32
  ofs_lt : ∀ e ∈ es, e.ofs < 2 ^ 64
  count : es.length < 2 ^ 32
  large : es.countP isLarge ≤ 2 ^ 31

/-- Entries that fit a version 1 index. -/
structure ValidV1 (es : List Entry) : Prop where
  name_len : ∀ e ∈ es, e.name.length = 20
  ofs_lt : ∀ e ∈ es, e.ofs < 2 ^ 32
  count : es.length < 2 ^ 32

end GitDB.Spec
