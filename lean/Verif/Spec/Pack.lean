import Verif.Spec.DeltaChain
import Verif.Spec.Index
import Verif.Spec.Varint
import Verif.Spec.Zip
/-!
# Specification of pack files, after git's `gitformat-pack`
-/
set_option autoImplicit false

namespace GitDB.Spec

/-- `hdr` is the header of an entry: three type bits and four size bits in the first byte, the other size
bits little endian in the following ones. -/
def EntryHead (hdr : Bytes) (typeId size : Nat) : Prop :=
  ∃ b bs, hdr = b :: bs ∧ Terminated hdr ∧ b.toNat / 16 % 8 = typeId ∧ b.toNat % 16 + 16 * leValue bs = size

/-- The kinds of entries: undeltified with one of the other type numbers, or a delta against the entry
the given number of bytes earlier in the pack, or against a named object. -/
inductive Kind where
  | whole (typeId : Nat)
  | ofs (back : Nat)
  | ref (name : Bytes)
  deriving DecidableEq, Repr

/-- The number in the header. -/
def Kind.typeId : Kind → Nat
  | .whole t => t
  | .ofs _ => 6
  | .ref _ => 7

/-- What stands between header and compressed data. -/
def Kind.Ext : Kind → Bytes → Prop
  | .whole t, ext => t ≠ 6 ∧ t ≠ 7 ∧ ext = []
  | .ofs back, ext => Terminated ext ∧ ofsValue ext = back
  | .ref name, ext => name.length = 20 ∧ ext = name

/-- One entry of a pack; `content` is the decompressed data (of a delta: the instructions), `name`
the name under which an index lists it. -/
structure Packed where
  name : Bytes
  kind : Kind
  content : Bytes
  hdr : Bytes
  ext : Bytes
  zip : Bytes

/-- The bytes of the entry. -/
def Packed.bytes (e : Packed) : Bytes := e.hdr ++ e.ext ++ e.zip

/-- Header and compressed data are those of the entry. -/
structure Packed.Valid (zl : Zlib) (e : Packed) : Prop where
  head : EntryHead e.hdr e.kind.typeId e.content.length
  ext : e.kind.Ext e.ext
  zip : IsZip zl e.zip e.zip.length e.content

/-- A pack without its trailing checksum. -/
def packBody (es : List Packed) : Bytes :=
  [80, 65, 67, 75] ++ u32 2 ++ u32 es.length ++ es.flatMap Packed.bytes

/-- A pack. -/
def packFile (es : List Packed) (sha : Bytes) : Bytes := packBody es ++ sha

/-- Offset of the entry at position `i`. -/
def offsetOf (es : List Packed) (i : Nat) : Nat := 12 + ((es.take i).flatMap Packed.bytes).length

/-- Offset of the first entry with this name. -/
def offsetIn (es : List Packed) (name : Bytes) : Option Nat :=
  (es.findIdx? fun e => e.name == name).map (offsetOf es)

/-- At this position of the file stands this entry. -/
def EntryAt (zl : Zlib) (pack : Bytes) (off : Nat) (e : Packed) : Prop :=
  e.Valid zl ∧ ∃ rest, pack.drop off = e.bytes ++ rest

/-- The delta chain of the entry at an offset, with offsets: each delta is followed by the entry it refers to,
up to an undeltified entry or to a name that is not known.  `find` gives the offset of a name. -/
inductive Chain (zl : Zlib) (pack : Bytes) (find : Bytes → Option Nat) : Nat → List (Nat × Packed) → Prop
  | whole {off : Nat} {e : Packed} {t : Nat} (h : EntryAt zl pack off e) (hk : e.kind = .whole t) :
      Chain zl pack find off [(off, e)]
  | missing {off : Nat} {e : Packed} {name : Bytes} (h : EntryAt zl pack off e) (hk : e.kind = .ref name)
      (hf : find name = none) : Chain zl pack find off [(off, e)]
  | ref {off off' : Nat} {e : Packed} {name : Bytes} {l : List (Nat × Packed)} (h : EntryAt zl pack off e)
      (hk : e.kind = .ref name) (hf : find name = some off') (t : Chain zl pack find off' l) :
      Chain zl pack find off ((off, e) :: l)
  | ofs {off back : Nat} {e : Packed} {l : List (Nat × Packed)} (h : EntryAt zl pack off e)
      (hk : e.kind = .ofs back) (hb : back ≤ off) (t : Chain zl pack find (off - back) l) :
      Chain zl pack find off ((off, e) :: l)

/-- An offset delta. -/
def Kind.isOfs : Kind → Bool
  | .ofs _ => true
  | _ => false

/-- All offset deltas come before all reference deltas. -/
def Straight (l : List (Nat × Packed)) : Prop :=
  ∃ a b, l = a ++ b ∧ (∀ x ∈ a, x.2.kind.isOfs = true) ∧ (∀ x ∈ b, x.2.kind.isOfs = false)

/-- `l`, the topmost delta first, consists of the deltas `ds` (first applied first) over an undeltified base
object with content `base` and type `t`; the compressed streams of them flow. -/
structure Deltified (zl : Zlib) (l : List (Nat × Packed)) (ds : List DeltaObj) (base : Bytes) (t : Nat) :
    Prop where
  nonempty : ds ≠ []
  fits : ChainFits base ds
  shape : ∃ dl bo be, l = dl ++ [(bo, be)] ∧ be.kind = .whole t ∧ be.content = base ∧
    dl.map (fun x => x.2.content) = ds.reverse.map DeltaObj.bytes
  flowing : ∀ x ∈ l, Flows zl 512 x.2.zip

/-- The names of the object types in git. -/
def typeName : Nat → Option Bytes
  | 1 => some [99, 111, 109, 109, 105, 116]
  | 2 => some [116, 114, 101, 101]
  | 3 => some [98, 108, 111, 98]
  | 4 => some [116, 97, 103]
  | _ => none

end GitDB.Spec
