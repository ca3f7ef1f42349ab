import Verif.Spec.Index
/-!
# Specification of a directory of packs
-/
set_option autoImplicit false

namespace GitDB.Spec

/-- A well-formed index file (version 1 or 2) listing these names.  (A version 1 file whose first fanout entry is the
magic number of version 2 would be ambiguous.) -/
def IsIndex (c : Bytes) (names : List Bytes) : Prop :=
  Ascending names ∧ ∃ es packSha idxSha, names = es.map Entry.name ∧
    ((ValidV2 es ∧ c = indexV2 es packSha idxSha) ∨
     (ValidV1 es ∧ names.countP (firstLe 0) ≠ 0xff744f63 ∧ c = indexV1 es packSha idxSha))

/-- `pack-` something `.pack`. -/
def IsPackName (name : Bytes) : Prop :=
  ∃ mid, name = [0x70, 0x61, 0x63, 0x6b, 0x2d] ++ mid ++ [0x2e, 0x70, 0x61, 0x63, 0x6b]

end GitDB.Spec
