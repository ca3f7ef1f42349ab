import Verif.Proofs.Names
/-!
# C04, C05, C24, C50: headers, names and types
-/
set_option autoImplicit false

namespace GitDB.Props
open GitDB Spec

/-! ## C04 -/

/-- **C04** the header is `<type> SP <decimal size> NUL`. -/
theorem C04_header_format (type : Bytes) (size : Nat) (ha : ∀ b ∈ type, b.toNat < 128) :
    ∃ ds, IsDecimal ds size ∧ looseObjectHeader type size = .ok (type ++ [0x20] ++ ds ++ [0]) := by
  refine ⟨natToDec size, natToDec_isDecimal size, ?_⟩
  rw [looseObjectHeader, if_pos (by simpa using ha)]

/-- **C04** a type name that is not ASCII is rejected when writing. -/
theorem C04_header_not_ascii (type : Bytes) (size : Nat) (b : UInt8) (hb : b ∈ type)
    (h : 128 ≤ b.toNat) : looseObjectHeader type size = .error .unicodeError := by
  rw [looseObjectHeader, if_neg]
  simp only [List.all_eq_true, decide_eq_true_eq]
  intro hh
  have := hh b hb
  omega

/-- **C04** round trip: whatever bytes follow the header, type, size and header length come back. -/
theorem C04_header_roundtrip (type : Bytes) (size : Nat) (rest : Bytes)
    (ha : ∀ b ∈ type, b.toNat < 128) (ht : ∀ b ∈ type, b ≠ 0x20 ∧ b ≠ 0) :
    ∃ hdr, looseObjectHeader type size = .ok hdr ∧
      parseObjectHeader (hdr ++ rest) = .ok (type, (size : Int), hdr.length) := by
  refine ⟨_, by rw [looseObjectHeader, if_pos (by simpa using ha)], ?_⟩
  exact parseObjectHeader_spec type _ rest size (natToDec_isDecimal size) ht

/-- **C04** without the side condition the header is not recovered: a space in the type. -/
theorem C04_header_space_needed :
    ∃ hdr, looseObjectHeader [97, 0x20, 98] 3 = .ok hdr ∧
      parseObjectHeader hdr = .error .valueError := by
  refine ⟨_, rfl, ?_⟩
  simp [natToDec_eq]
  decide

example : looseObjectHeader strBlobType 120 = .ok [98, 108, 111, 98, 32, 49, 50, 48, 0] := by
  simp [looseObjectHeader, strBlobType, natToDec_eq]
example : parseObjectHeader [98, 108, 111, 98, 32, 49, 50, 48, 0, 1, 32, 0] =
    .ok (strBlobType, 120, 9) := by decide
example : (∀ b ∈ strBlobType, b.toNat < 128) ∧ (∀ b ∈ strBlobType, b ≠ 0x20 ∧ b ≠ 0) := by decide

/-! ## C05 -/

/-- **C05** binary to hex to binary. -/
theorem C05_bin_hex_bin (b : Bytes) (h : b.length = 20) :
    (toHexSha b).length = 40 ∧ IsHexOf (toHexSha b) b ∧ toBinSha (toHexSha b) = .ok b := by
  have e : toHexSha b = binToHex b := by rw [toHexSha, if_neg (by omega)]
  rw [e]
  have hl := binToHex_length b
  refine ⟨by omega, binToHex_isHexOf b, ?_⟩
  rw [toBinSha, if_neg (by omega), hexToBin_binToHex]

/-- **C05** hex to binary to hex, for lower case names. -/
theorem C05_hex_bin_hex (h : Bytes) (hl : h.length = 40) (hh : LowerHex h) :
    ∃ b, toBinSha h = .ok b ∧ b.length = 20 ∧ toHexSha b = h ∧ IsHexOf h b := by
  obtain ⟨b, h1, h2, h3⟩ := hexToBin_lower 20 h (by omega) hh
  refine ⟨b, by rw [toBinSha, if_neg (by omega), h1], h2, by rw [toHexSha, if_neg (by omega), h3], ?_⟩
  rw [← h3]; exact binToHex_isHexOf b

/-- **C05** names already in the target form are not touched. -/
theorem C05_idempotent (s : Bytes) :
    (s.length = 40 → toHexSha s = s) ∧ (s.length = 20 → toBinSha s = .ok s) :=
  ⟨fun h => by rw [toHexSha, if_pos h], fun h => by rw [toBinSha, if_pos h]⟩

/-- **C05** the general conversions are inverse for binary strings of every length. -/
theorem C05_codec_inverse (b : Bytes) :
    IsHexOf (binToHex b) b ∧ LowerHex (binToHex b) ∧ hexToBin (binToHex b) = .ok b := by
  refine ⟨binToHex_isHexOf b, ?_, hexToBin_binToHex b⟩
  intro c hc
  have h := binToHex_isHexOf b
  have : some c ∈ (nibbles b).map (hexAscii[·]?) := by rw [← h]; exact List.mem_map_of_mem hc
  obtain ⟨n, _, hn⟩ := List.mem_map.mp this
  exact List.mem_of_getElem? hn

/-- **C05** limitation of telling the forms apart by length: a 20 digit hex abbreviation is taken
for a binary name and returned as it is, instead of being decoded to 10 bytes. -/
theorem C05_abbreviation_of_20_digits (h : Bytes) (hl : h.length = 20) (hh : LowerHex h) :
    toBinSha h = .ok h ∧ ∃ b, hexToBin h = .ok b ∧ b.length = 10 ∧ b ≠ h := by
  obtain ⟨b, h1, h2, h3⟩ := hexToBin_lower 10 h (by omega) hh
  exact ⟨by rw [toBinSha, if_pos hl], b, h1, h2, fun e => by rw [e] at h2; omega⟩

example : toHexSha (List.replicate 20 0xa7) = (List.replicate 20 [0x61, 0x37]).flatten := by decide
example : LowerHex (List.replicate 20 0x61) := by unfold LowerHex; decide

/-! ## C24 -/

/-- **C24** the comparison is equality of the first `n` hex digits. -/
theorem C24_is_equal_canonical_sha (n : Nat) (mtch sha : Bytes) (hm : mtch.length = (n + 1) / 2)
    (hs : (n + 1) / 2 ≤ sha.length) :
    isEqualCanonicalSha n mtch sha =
      .ok (decide ((nibbles mtch).take n = (nibbles sha).take n)) :=
  isEqualCanonicalSha_spec n mtch sha hm hs

/-- **C24** the requirement on the length of `match` is needed: with one byte more than the digits
need, digits beyond the abbreviation decide. -/
theorem C24_length_needed :
    isEqualCanonicalSha 2 [0xab, 0x10] [0xab, 0x20] = .ok false ∧
      (nibbles [0xab, 0x10]).take 2 = (nibbles [0xab, 0x20]).take 2 := by decide

example : isEqualCanonicalSha 3 [0xab, 0xc0] [0xab, 0xcd, 0xef] = .ok true := by decide
example : isEqualCanonicalSha 3 [0xab, 0xd0] [0xab, 0xcd, 0xef] = .ok false := by decide

/-! ## C50 -/

/-- The four object types of git with their pack type ids (git's `enum object_type`). -/
def objectTypes : List (Bytes × Nat) :=
  [("commit".toUTF8.toList, 1), ("tree".toUTF8.toList, 2), ("blob".toUTF8.toList, 3),
   ("tag".toUTF8.toList, 4)]

/-- **C50** name to id and id to name are the correspondence of git. -/
theorem C50_types (t : Bytes) (i : Nat) (h : (t, i) ∈ objectTypes) :
    typeToTypeId (.bytes t) = .ok i ∧ typeIdToType i = .ok (.bytes t) := by
  have : objectTypes = [(strCommitType, 1), (strTreeType, 2), (strBlobType, 3), (strTagType, 4)] := by
    decide +kernel
  rw [this] at h
  simp only [List.mem_cons, Prod.mk.injEq, List.not_mem_nil, or_false] at h
  rcases h with ⟨rfl, rfl⟩ | ⟨rfl, rfl⟩ | ⟨rfl, rfl⟩ | ⟨rfl, rfl⟩ <;> decide

/-- **C50** whatever type name has an id gets the same name back from the id, so packing preserves
types; all other names are rejected with `KeyError`. -/
theorem C50_type_roundtrip (t : PyName) :
    (∃ i, typeToTypeId t = .ok i ∧ typeIdToType i = .ok t ∧ 1 ≤ i ∧ i ≤ 7 ∧ i ≠ 5) ∨
      typeToTypeId t = .error .keyError := by
  unfold typeToTypeId
  by_cases h1 : t = .bytes strCommitType
  · subst h1; left; exact ⟨1, by decide⟩
  by_cases h2 : t = .bytes strTreeType
  · subst h2; left; exact ⟨2, by decide⟩
  by_cases h3 : t = .bytes strBlobType
  · subst h3; left; exact ⟨3, by decide⟩
  by_cases h4 : t = .bytes strTagType
  · subst h4; left; exact ⟨4, by decide⟩
  by_cases h5 : t = .str "OFS_DELTA"
  · subst h5; left; exact ⟨6, by decide⟩
  by_cases h6 : t = .str "REF_DELTA"
  · subst h6; left; exact ⟨7, by decide⟩
  right; simp [h1, h2, h3, h4, h5, h6]

/-- **C50** ids 1 to 4 are exactly the ids of the four object types. -/
theorem C50_ids (i : Nat) (h : 1 ≤ i ∧ i ≤ 4) : ∃ t, (t, i) ∈ objectTypes := by
  have : i = 1 ∨ i = 2 ∨ i = 3 ∨ i = 4 := by omega
  rcases this with rfl | rfl | rfl | rfl <;> exact ⟨_, by simp [objectTypes]; rfl⟩

example : ("blob".toUTF8.toList, 3) ∈ objectTypes := by simp [objectTypes]

end GitDB.Props
