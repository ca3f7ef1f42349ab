import Verif.Proofs.Varint
/-!
# C01, C02, C03: variable length integers
-/
set_option autoImplicit false

namespace GitDB.Props
open GitDB Spec

/-- Every byte string either starts with a terminated number or consists of continuation bytes
only; so the two cases treated below for each decoder cover all inputs. -/
theorem terminated_or_unending (bs : Bytes) :
    (∃ t rest, bs = t ++ rest ∧ Terminated t) ∨ (∀ b ∈ bs, more b = true) := by
  induction bs with
  | nil => right; simp
  | cons b bs ih =>
    by_cases hb : more b = true
    · rcases ih with ⟨t, rest, rfl, ht⟩ | h
      · exact .inl ⟨b :: t, rest, rfl, terminated_cons.mpr (.inr ⟨hb, ht⟩)⟩
      · right; intro x hx; simp at hx; rcases hx with rfl | hx
        · exact hb
        · exact h x hx
    · exact .inl ⟨[b], bs, rfl, terminated_cons.mpr (.inl ⟨rfl, by simpa using hb⟩)⟩

/-! ## C01 -/

/-- **C01** round trip: any type id, any size, any bytes behind the header. -/
theorem C01_header_roundtrip (typeId size : Nat) (ht : typeId < 8) (rest : Bytes) :
    ∃ hdr, createPackObjectHeader typeId size = .ok hdr ∧
      packObjectHeaderInfo (hdr ++ rest) = .ok (typeId, size, hdr.length) := by
  obtain ⟨b, bs, h1, h2, h3, h4⟩ := createPackObjectHeader_spec typeId size ht
  exact ⟨b :: bs, h1, by rw [packObjectHeaderInfo_spec h2, h3, h4]; rfl⟩

/-- **C01** the header is in git's format: three type bits and four size bits in the first byte,
then the remaining size little endian in groups of seven bits; no proper prefix of it parses. -/
theorem C01_header_format (typeId size : Nat) (ht : typeId < 8) :
    ∃ b bs, createPackObjectHeader typeId size = .ok (b :: bs) ∧ Terminated (b :: bs) ∧
      b.toNat / 16 % 8 = typeId ∧ b.toNat % 16 + 16 * leValue bs = size :=
  createPackObjectHeader_spec typeId size ht

/-- **C01** decoding of arbitrary data: the value git's format assigns ... -/
theorem C01_header_decode (b : UInt8) (bs rest : Bytes) (ht : Terminated (b :: bs)) :
    packObjectHeaderInfo (b :: bs ++ rest) =
      .ok (b.toNat / 16 % 8, b.toNat % 16 + 16 * leValue bs, (b :: bs).length) :=
  packObjectHeaderInfo_spec ht rest

/-- **C01** ... or `IndexError` if the header never ends. -/
theorem C01_header_truncated (data : Bytes) (h : ∀ b ∈ data, more b = true) :
    packObjectHeaderInfo data = .error .indexError :=
  packObjectHeaderInfo_trunc h

example : createPackObjectHeader 3 1000 = .ok [0xb8, 0x3e] := by
  simp [createPackObjectHeader, createHeaderLoop, bytearrayAppend]
example : packObjectHeaderInfo [0xb8, 0x3e, 1, 2, 3] = .ok (3, 1000, 2) := by decide
example : Terminated [0xb8, 0x3e] := ⟨[0xb8], 0x3e, rfl, by decide, by decide⟩
example : ∀ b ∈ ([0xb8, 0x81] : Bytes), more b = true := by decide

/-! ## C02 -/

/-- **C02** the number at `offset`, whatever precedes and follows it. -/
theorem C02_msb_size (pre bs rest : Bytes) (ht : Terminated bs) :
    msbSize (pre ++ (bs ++ rest)) pre.length = .ok (pre.length + bs.length, leValue bs) :=
  msbSize_at pre bs rest ht

/-- **C02** round trip with git's encoder of delta sizes. -/
theorem C02_msb_size_roundtrip (n : Nat) (pre rest : Bytes) :
    msbSize (pre ++ (leEncode n ++ rest)) pre.length =
      .ok (pre.length + (leEncode n).length, n) := by
  rw [C02_msb_size pre _ rest (leEncode_spec n).1, (leEncode_spec n).2]

/-- **C02** an unterminated number is never returned; the exception depends on the offset. -/
theorem C02_msb_size_truncated (data : Bytes) (offset : Nat)
    (h : ∀ b ∈ data.drop offset, more b = true) :
    msbSize data offset =
      if offset = 0 ∨ data = [] then .error .assertionError else .error .indexError := by
  unfold msbSize
  rw [msbLoop_trunc _ _ _ _ h]
  have : data.length ≤ (data.drop offset).length ↔ (offset = 0 ∨ data = []) := by
    rw [List.length_drop, ← List.length_eq_zero_iff]; omega
  by_cases hc : offset = 0 ∨ data = []
  · rw [if_pos hc, if_pos (this.mpr hc)]
  · rw [if_neg hc, if_neg (fun x => hc (this.mp x))]

example : msbSize [7, 0x90, 0x4e, 9] 1 = .ok (3, 10000) := by decide
example : msbSize [0x90, 0xce] 0 = .error .assertionError := by decide
example : msbSize [0x10, 0xce] 1 = .error .indexError := by decide
example : ∀ b ∈ ([0x10, 0xce] : Bytes).drop 1, more b = true := by decide
example : Terminated [0x90, 0x4e] := ⟨[0x90], 0x4e, rfl, by decide, by decide⟩

/-! ## C03 -/

/-- **C03** the back offset is the value git's format assigns to it. -/
theorem C03_ofs_decode (pre bs rest : Bytes) (ht : Terminated bs) :
    ofsDecode (pre ++ (bs ++ rest)) pre.length = .ok (ofsValue bs, pre.length + bs.length) :=
  ofsDecode_spec ht pre rest

/-- **C03** round trip with git's encoder. -/
theorem C03_ofs_roundtrip (n : Nat) (pre rest : Bytes) :
    ofsDecode (pre ++ (ofsEncode n ++ rest)) pre.length =
      .ok (n, pre.length + (ofsEncode n).length) := by
  rw [C03_ofs_decode pre _ rest (ofsEncode_spec n).1, (ofsEncode_spec n).2]

/-- **C03** the encoding is a bijection: different byte strings denote different offsets. -/
theorem C03_ofs_injective (bs bs' : Bytes) (ht : Terminated bs) (ht' : Terminated bs')
    (h : ofsDecode bs 0 = ofsDecode bs' 0) : bs = bs' := by
  have h1 := C03_ofs_decode [] bs [] ht
  have h2 := C03_ofs_decode [] bs' [] ht'
  simp only [List.nil_append, List.append_nil, List.length_nil] at h1 h2
  rw [h1, h2] at h
  simp at h
  rw [← ofsEncode_value ht, ← ofsEncode_value ht', h.1]

/-- **C03** a back offset that never ends raises. -/
theorem C03_ofs_truncated (data : Bytes) (i : Nat) (h : ∀ b ∈ data.drop i, more b = true) :
    ofsDecode data i = .error .indexError :=
  ofsDecode_trunc h

example : ofsDecode [5, 0x80, 0x00, 1] 1 = .ok (128, 3) := by decide
example : Terminated [0x80, 0x00] := ⟨[0x80], 0x00, rfl, by decide, by decide⟩
example : ofsEncode 128 = [0x80, 0x00] := by simp [ofsEncode, ofsEncodeAux]

end GitDB.Props
