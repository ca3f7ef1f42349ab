import Verif.Proofs.OneBlock
import Verif.Props.Inflate
import Verif.Props.PackDelta
/-!
# C74: objects compressed into a single block

The reader takes windows of the compressed data, and after a window that was used up the next one is often only eight bytes long
(`gitdb/stream.py` 257-283).  The description of the codes of a block can be nearly 300 bytes long.  An object in a single block, of
any kind, is read correctly all the same, if its first read asks for enough; objects in several blocks need not be.
-/
set_option autoImplicit false

namespace GitDB.Props
open GitDB Spec Deflate

/-- The first block of the stream is its last one (RFC 1951, 3.2.3). -/
def SingleBlock (m : Bytes) : Prop := ∃ b, m[2]? = some b ∧ b.toNat % 2 = 1

theorem OneBlock.single {m : Bytes} (h : OneBlock m) : SingleBlock m := by
  obtain ⟨b, h1, h2⟩ := h
  exact ⟨b, h1, by omega⟩

/-- **C74** any bytes that begin with a last block: output begins within 294 bytes, if there is any, and then there are never more than
eight bytes without output. -/
theorem C74_budget (c : Compressor) (m : Bytes) (h : SingleBlock m) :
    ((zlib c).out m = [] ∨ 0 < ((zlib c).out (m.take 294)).length) ∧
    ∀ n, 0 < ((zlib c).out (m.take n)).length → (zlib c).out (m.take n) ≠ (zlib c).out m →
      ((zlib c).out (m.take n)).length < ((zlib c).out (m.take (n + 8))).length := by
  obtain ⟨b, h1, h2⟩ := h
  refine ⟨oneBlock_first c m b h1 h2, fun n h3 h4 => oneBlock_noStallFrom c m b h1 h2 n h3 ?_⟩
  have hs := feed_suffix (m.drop n) (feed {} (m.take n))
  rw [← feed_append, List.take_append_drop] at hs
  rcases Nat.lt_or_ge ((zlib c).out (m.take n)).length ((zlib c).out m).length with h5 | h5
  · exact h5
  · exfalso
    apply h4
    rw [zlib_out, zlib_out] at h5 ⊢
    rw [List.length_reverse, List.length_reverse] at h5
    rw [hs.eq_of_length_le h5]

/-- **C74** a reader of an object in a single block: if the first read asks for 294 bytes or more, or for as many as there are compressed
ones, then it and all later reads, of whatever sizes, are exact. -/
theorem C74_reads (c : Compressor) (L : ZlibLaws (zlib c)) (m : Bytes) (clen : Nat) (content : Bytes)
    (hm : IsZip (zlib c) m clen content) (h1 : SingleBlock m) (n : Int)
    (hn : 294 ≤ readLen content.length [n] ∨ clen ≤ readLen content.length [n]) (ns : List Int) :
    ∃ r ps, readMany (Reader.read (zlib c)) (Reader.ofSize m content.length) (n :: ns) = (r, .ok ps) ∧
      ps.flatten = content.take (readLen content.length (n :: ns)) := by
  obtain ⟨hb1, hb2⟩ := C74_budget c m h1
  have hw : readLen content.length [n] = if n < 1 then content.length else min n.toNat content.length := by
    simp only [readLen]
    split <;> omega
  have hns : NoStallFrom (zlib c) 1 m := by
    obtain ⟨b, h3, h4⟩ := h1
    exact oneBlock_noStallFrom c m b h3 h4
  rw [hm.out] at hb1
  have hcp := zip_clen_pos L hm
  have hne : content ≠ [] := by
    rintro rfl
    have : readLen ([] : Bytes).length [n] = 0 := by rw [hw]; simp
    omega
  have hf : 0 < ((zlib c).out (m.take (max 8 (readLen content.length [n])))).length := by
    rcases hn with h | h
    · have := zip_avail_mono L hm (show 294 ≤ max 8 (readLen content.length [n]) by omega)
      have := hb1.resolve_left hne
      omega
    · rw [zip_out_ge L hm (show clen ≤ max 8 (readLen content.length [n]) by omega)]
      exact List.length_pos_iff.mpr hne
  obtain ⟨r1, e1, k1⟩ := first_read L hm hns hne n _ hw hf
  obtain ⟨r2, ps, e2, e3, _⟩ := readMany_spec (laterRep_reads L hm hns) ns r1 _ k1
  refine ⟨r2, content.take (readLen content.length [n]) :: ps, by simp only [readMany, e1, e2], ?_⟩
  rw [List.flatten_cons, e3, List.length_drop, hw]
  have : readLen content.length (n :: ns) = readLen content.length [n] +
      readLen (content.length - readLen content.length [n]) ns := by
    rw [hw]
    conv => lhs; unfold readLen
  rw [this, hw, List.take_add]

/-- **C74** the entries of a pack: such an object, also with further data behind it, is read at once with `read()`. -/
theorem C74_whole (c : Compressor) (L : ZlibLaws (zlib c)) (m : Bytes) (content rest : Bytes)
    (hm : IsZip (zlib c) m m.length content) (h1 : SingleBlock m)
    (hc : 294 ≤ content.length ∨ m.length ≤ content.length ∨ OneBlock m) :
    ∃ r, (Reader.ofSize (m ++ rest) content.length).read (zlib c) (-1) = (r, .ok content) := by
  have hz := isZip_append L hm rest
  have hget : ∀ b, m[2]? = some b → (m ++ rest)[2]? = some b := by
    intro b hb
    rw [List.getElem?_append_left (by rcases m with _ | ⟨_, _ | ⟨_, _ | _⟩⟩ <;> simp_all)]
    exact hb
  have key : ∃ r ps, readMany (Reader.read (zlib c)) (Reader.ofSize (m ++ rest) content.length) [-1] = (r, .ok ps) ∧
      ps.flatten = content.take (readLen content.length [-1]) := by
    have hl : readLen content.length [-1] = content.length := by simp [readLen]
    rcases hc with h | h | ⟨b, h, h2⟩
    · exact C74_reads c L _ _ _ hz (by obtain ⟨b, h3, h4⟩ := h1; exact ⟨b, hget b h3, h4⟩) (-1) (.inl (by omega)) []
    · exact C74_reads c L _ _ _ hz (by obtain ⟨b, h3, h4⟩ := h1; exact ⟨b, hget b h3, h4⟩) (-1) (.inr (by omega)) []
    · exact C67_one_block c L _ _ _ hz ⟨b, hget b h, h2⟩ [-1]
  obtain ⟨r, ps, e1, e2⟩ := key
  simp only [readMany] at e1
  rcases hrd : (Reader.ofSize (m ++ rest) content.length).read (zlib c) (-1) with ⟨r1, _ | d⟩
  · rw [hrd] at e1; simp at e1
  · rw [hrd] at e1
    simp only [Prod.mk.injEq, Except.ok.injEq] at e1
    refine ⟨r1, ?_⟩
    rw [← e1.2] at e2
    simp only [List.flatten_cons, List.flatten_nil, List.append_nil, readLen] at e2
    rw [e2]
    simp

/-- An entry in a single block that is not both short and larger when compressed. -/
def Packed.Simple (e : Packed) : Prop :=
  SingleBlock e.zip ∧ (294 ≤ e.content.length ∨ e.zip.length ≤ e.content.length ∨ OneBlock e.zip)

theorem simple_flows (c : Compressor) (L : ZlibLaws (zlib c)) (e : Packed) (hv : e.Valid (zlib c)) (h : Packed.Simple e) :
    Flows (zlib c) 512 e.zip := by
  obtain ⟨hb, h⟩ := h
  have hz := hv.zip
  rcases Classical.em (OneBlock e.zip) with ⟨b, h1, h2⟩ | hno
  · exact flows_of_noStall L hz (oneBlock_noStall c e.zip b h1 h2) 512
  · obtain ⟨hb1, _⟩ := C74_budget c e.zip hb
    obtain ⟨b, h3, h4⟩ := hb
    refine ⟨?_, oneBlock_noStallFrom c e.zip b h3 h4⟩
    rcases hb1 with h1 | h1
    · exact .inl h1
    · right
      rw [hz.out]
      rcases Nat.lt_or_ge e.content.length 294 with h2 | h2
      · have : e.zip.length ≤ e.content.length := by
          rcases h with h | h | h
          · omega
          · exact h
          · exact absurd h hno
        rw [List.take_of_length_le (by omega)]
        have := zip_avail_le L hz 294
        rw [hz.out]
        omega
      · have := zip_avail_mono L hz (show 294 ≤ max 8 (min 512 e.content.length) by omega)
        omega

/-- **C74** deltified objects of which all entries are such objects, each in a single block: type, size, content and verification are
right (the conclusion of C32). -/
theorem C74_delta (c : Compressor) (L : ZlibLaws (zlib c)) (p : PackEntity) (find : Bytes → Option Nat) (hfi : Finds p.index find)
    (sha : Bytes) (hsha : sha.length = 20) (off : Nat) (hf : find sha = some off) (dl : List (Nat × Packed)) (bo : Nat) (be : Packed)
    (hc : Chain (zlib c) p.pack.data find off (dl ++ [(bo, be)])) (hs : Straight (dl ++ [(bo, be)])) (ds : List DeltaObj)
    (hne : ds ≠ []) (t : Nat) (hk : be.kind = .whole t) (hds : dl.map (fun x => x.2.content) = ds.reverse.map DeltaObj.bytes)
    (hfits : ChainFits be.content ds) (hsimple : ∀ x ∈ dl ++ [(bo, be)], Packed.Simple x.2) (nm : Bytes) (ht : typeName t = some nm)
    (H : Hash) : ∃ F, ∀ fuel, F ≤ fuel → ∃ o,
    p.info (zlib c) fuel sha = .ok (.bytes nm, (resolveChain be.content ds).length) ∧
    p.stream fuel sha = .ok o ∧ o.sha = sha ∧ o.type = .bytes nm ∧
    o.getSize (zlib c) fuel = .ok (resolveChain be.content ds).length ∧
    (∀ ns : List Int, ∃ s' ps, readMany (PStream.read (zlib c) fuel) o.stream ns = (s', .ok ps) ∧
      ps.flatten = (resolveChain be.content ds).take (readLen (resolveChain be.content ds).length ns)) ∧
    p.isValidSha H (zlib c) fuel sha =
      (if H.digest (nm ++ [0x20] ++ natToDec (resolveChain be.content ds).length ++ [0] ++ resolveChain be.content ds) = sha
        then .ok true else .error .assertionError) :=
  C32_info_stream_partial L p find hfi sha hsha off hf _ hc hs ds be.content t
    ⟨hne, hfits, ⟨dl, bo, be, rfl, hk, rfl, hds⟩,
      fun x hx => simple_flows c L x.2 (chain_entries hc x hx).1 (hsimple x hx)⟩ nm ht H

/-! ## A single block with codes of its own -/

/-- What Python's `zlib.compress` returns for `oneContent`: one block, with dynamic codes. -/
def oneZip : Bytes :=
  [120, 156, 197, 142, 201, 17, 0, 65, 8, 2, 99, 229, 202, 63, 133, 109, 39, 137, 149, 151, 20, 141, 74, 114, 230, 42, 94, 44,
    141, 113, 58, 163, 104, 141, 157, 220, 78, 98, 53, 6, 142, 221, 201, 69, 199, 172, 5, 210, 75, 88, 197, 192, 105, 233,
    173, 208, 49, 20, 3, 229, 37, 26, 93, 171, 24, 122, 21, 116, 12, 197, 64, 123, 9, 189, 211, 56, 201, 238, 61, 116, 12,
    197, 250, 243, 221, 15, 58, 147, 115, 253]
def oneContent : Bytes := (List.range 300).map fun i => UInt8.ofNat (97 + (i * i / 7 + i / 5) % 5)

theorem oneZip_isZip (c : Compressor) : IsZip (zlib c) oneZip 90 oneContent :=
  isZip_of c (by decide +kernel) (by decide +kernel)

theorem oneZip_single : SingleBlock oneZip := ⟨197, rfl, by decide⟩

example := C74_budget storing oneZip oneZip_single
example := C74_reads storing storedZlib_laws oneZip 90 oneContent (oneZip_isZip _) oneZip_single 294 (.inl (by decide +kernel)) [1, 1, -1]
example := C74_whole storing storedZlib_laws oneZip oneContent [1, 2, 3] (oneZip_isZip _) oneZip_single (.inl (by decide +kernel))
/-- The hypotheses cannot be dropped: a smaller first read of this object returns nothing. -/
example : ((Reader.ofSize oneZip 300).read storedZlib 8).2 = .ok [] := by decide +kernel

/-- The object as base of a delta that copies it. -/
def oneBase : Packed := ⟨List.replicate 20 1, .whole 3, oneContent, [0xbc, 0x12], [], oneZip⟩
def oneDelta : DeltaObj := ⟨[0xac, 0x02], [0xac, 0x02], [.copy none none none none (some 0x2c) (some 0x01) none]⟩
def oneCopy : Packed := ⟨List.replicate 20 2, .ofs 92, oneDelta.bytes, [0x67], [92],
  [120, 156, 91, 195, 180, 134, 105, 131, 14, 35, 0, 10, 148, 2, 58]⟩
def oneBlockPack : List Packed := [oneBase, oneCopy]

theorem onePack_valid (c : Compressor) : ∀ e ∈ oneBlockPack, e.Valid (zlib c) := by
  simp only [oneBlockPack, List.mem_cons, List.not_mem_nil, or_false, forall_eq_or_imp, forall_eq]
  refine ⟨⟨⟨0xbc, [0x12], rfl, ⟨[0xbc], 0x12, rfl, by decide, by decide⟩, by decide, by decide +kernel⟩, ⟨by decide, by decide, rfl⟩, oneZip_isZip c⟩,
    ⟨⟨0x67, [], rfl, ⟨[], 0x67, rfl, by simp, by decide⟩, by decide, by decide⟩, ⟨term_one 92 (by decide), by decide⟩, ?_⟩⟩
  exact isZip_of c (by decide +kernel) (by decide +kernel)

theorem onePack_indexable : Indexable (idxOf 12 oneBlockPack) := ⟨by decide +kernel, by decide +kernel, by decide +kernel, by decide +kernel⟩

theorem onePack_chain (c : Compressor) (packSha : Bytes) :
    Chain (zlib c) (packFile oneBlockPack packSha) (offsetIn oneBlockPack) 104 ([(104, oneCopy)] ++ [(12, oneBase)]) := by
  have h := fun i hi => packFile_entryAt (onePack_valid c) packSha i hi
  exact .ofs (back := 92) (h 1 (by decide)) rfl (by decide) (.whole (t := 3) (h 0 (by decide)) rfl)

theorem oneDelta_fits : ChainFits oneContent [oneDelta] := by
  have hl : oneContent.length = 300 := by simp [oneContent]
  refine ⟨⟨⟨[0xac], 0x02, rfl, by decide, by decide⟩, ⟨[0xac], 0x02, rfl, by decide, by decide⟩, by decide, by rw [hl]; decide,
      ?_, ?_⟩, trivial⟩
  · decide +kernel
  · simp [oneDelta, Instr.Valid, copyOff, copySize, opVal, hl]

example (H : Hash) := C74_delta storing storedZlib_laws (entityOf oneBlockPack) (offsetIn oneBlockPack)
  (finds_lists (lists_written oneBlockPack _ _ onePack_indexable (by decide))) (List.replicate 20 2) rfl 104 (by decide +kernel)
  [(104, oneCopy)] 12 oneBase (onePack_chain storing _)
  ⟨[(104, oneCopy)], [(12, oneBase)], rfl, by simp [oneCopy, Kind.isOfs], by simp [oneBase, Kind.isOfs]⟩ [oneDelta] (by simp) 3 rfl rfl
  oneDelta_fits (by
    intro x hx
    simp only [List.cons_append, List.nil_append, List.mem_cons, List.not_mem_nil, or_false] at hx
    rcases hx with rfl | rfl
    · exact ⟨⟨_, rfl, by decide⟩, .inr (.inr ⟨_, rfl, by decide⟩)⟩
    · exact ⟨oneZip_single, .inl (by decide +kernel)⟩) _ rfl H

/-! ## Several blocks -/

/-- What zlib returns for `twoContent` with `memLevel=1`: two blocks, both with dynamic codes. -/
def twoZip : Bytes :=
  [120, 156, 4, 193, 129, 14, 130, 32, 20, 0, 192, 127, 69, 93, 163, 54, 11, 75, 36, 104, 217, 44, 161, 81, 2, 6, 172, 241,
    168, 252, 213, 238, 252, 70, 144, 248, 123, 212, 173, 142, 235, 132, 179, 57, 240, 179, 236, 5, 85, 48, 11, 125, 109, 66,
    69, 0, 130, 195, 41, 105, 246, 25, 17, 236, 193, 123, 27, 75, 121, 196, 13, 84, 217, 186, 251, 123, 23, 166, 193, 229,
    241, 212, 205, 188, 125, 209, 197, 22, 98, 43, 190, 32, 121, 204, 73, 140, 211, 205, 23, 203, 64, 46, 25, 97, 196, 100,
    173, 76, 98, 70, 233, 126, 101, 233, 51, 148, 186, 51, 217, 252, 11, 130, 3, 21, 128, 96, 40, 0, 128, 255, 186, 180, 197,
    102, 168, 137, 77, 54, 145, 150, 152, 241, 68, 105, 146, 79, 117, 247, 246, 123, 233, 88, 144, 177, 243, 121, 74, 0, 121,
    80, 148, 183, 237, 25, 73, 63, 32, 11, 245, 35, 244, 108, 48, 49, 134, 140, 11, 124, 205, 54, 202, 40, 220, 171, 184, 16,
    183, 133, 58, 76, 165, 177, 78, 240, 1, 116, 98, 29, 207, 126, 4, 80, 103, 158]
def twoContent : Bytes :=
  [147, 107, 123, 113, 149, 158, 139, 110, 117, 138, 149, 106, 153, 105, 155, 142, 116, 122, 126, 134, 127, 123, 118, 135,
    154, 145, 123, 138, 131, 114, 148, 101, 113, 154, 154, 148, 144, 105, 153, 153, 138, 120, 156, 133, 98, 154, 115, 154,
    147, 147, 143, 149, 100, 134, 121, 105, 114, 154, 101, 155, 143, 144, 136, 151, 112, 148, 141, 130, 144, 155, 133, 124,
    119, 145, 122, 117, 146, 118, 159, 143, 99, 123, 111, 123, 157, 154, 134, 122, 149, 155, 153, 123, 133, 141, 132, 147, 99,
    159, 130, 113, 128, 155, 98, 105, 98, 120, 134, 110, 135, 142, 153, 120, 142, 135, 138, 127, 103, 143, 118, 140, 148, 100,
    138, 119, 142, 155, 142, 158, 130, 145, 117, 141, 108, 155, 121, 105, 141, 143, 112, 109, 103, 146, 98, 143, 146, 122,
    107, 110, 125, 125, 149, 100, 121, 143, 131, 98, 135, 146, 120, 156, 116, 126, 139, 127, 102, 103, 127, 127, 103, 133,
    140, 146, 160, 123, 144, 133, 121, 100, 155, 153, 142, 116, 150, 98, 110, 135, 113, 122, 147, 127, 119, 126, 102, 126,
    106, 102, 147, 146, 107, 137, 108, 128, 110, 111]

theorem twoZip_isZip (c : Compressor) : IsZip (zlib c) twoZip 204 twoContent :=
  isZip_of c (by decide +kernel) (by decide +kernel)

/-- **C74** with two blocks a read can end within the object: `read(128)` returns 127 of 204 bytes, although the compressed data is
not larger than the object. -/
theorem C74_short_read : ∃ m content r', ZlibLaws storedZlib ∧ IsZip storedZlib m m.length content ∧ m.length ≤ content.length ∧
    128 < content.length ∧ (Reader.ofSize m content.length).read storedZlib 128 = (r', .ok (content.take 127)) := by
  have h : ((Reader.ofSize twoZip twoContent.length).read storedZlib 128).2 = .ok (twoContent.take 127) := by decide +kernel
  obtain ⟨r', e⟩ := exists_fst h
  exact ⟨twoZip, twoContent, r', storedZlib_laws, twoZip_isZip _, by decide +kernel, by decide +kernel, e⟩

/-- **C74** `stream_copy` takes that for the end: it copies 127 of 204 bytes and reports success. -/
theorem C74_copy_truncated : ∃ m content, ZlibLaws storedZlib ∧ IsZip storedZlib m m.length content ∧ content.length = 204 ∧
    (streamCopy 300 (Reader.read storedZlib) sink content.length 128 (Reader.ofSize m content.length) {}).2 =
      (⟨content.take 127, 127⟩, .ok 127) := by
  refine ⟨twoZip, twoContent, storedZlib_laws, twoZip_isZip _, by decide +kernel, by decide +kernel⟩

/-- A base object that is emitted as an empty block and one with the content, and a delta that copies it. -/
def syncBase : Packed := ⟨List.replicate 20 1, .whole 3, syncContent, [0x35], [], syncZip⟩
def syncDelta : DeltaObj := ⟨[5], [5], [.copy none none none none (some 5) none none]⟩
def syncCopy : Packed := ⟨List.replicate 20 2, .ofs 19, syncDelta.bytes, [0x64], [19], [120, 156, 99, 101, 157, 192, 10, 0, 1, 76, 0, 160]⟩
def syncPack : List Packed := [syncBase, syncCopy]

theorem syncPack_valid (c : Compressor) : ∀ e ∈ syncPack, e.Valid (zlib c) := by
  simp only [syncPack, List.mem_cons, List.not_mem_nil, or_false, forall_eq_or_imp, forall_eq]
  refine ⟨⟨⟨0x35, [], rfl, ⟨[], 0x35, rfl, by simp, by decide⟩, by decide, by decide⟩, ⟨by decide, by decide, rfl⟩, syncZip_isZip c⟩,
    ⟨⟨0x64, [], rfl, ⟨[], 0x64, rfl, by simp, by decide⟩, by decide, by decide⟩, ⟨term_one 19 (by decide), by decide⟩, ?_⟩⟩
  exact isZip_of c (by decide +kernel) (by decide +kernel)

theorem syncPack_sorted : sortObjs (idxOf 12 syncPack) = idxOf 12 syncPack :=
  List.mergeSort_of_pairwise (by decide +kernel)

theorem syncPack_chain (c : Compressor) (packSha : Bytes) :
    Chain (zlib c) (packFile syncPack packSha) (offsetIn syncPack) 31 [(31, syncCopy), (12, syncBase)] := by
  have h := fun i hi => packFile_entryAt (syncPack_valid c) packSha i hi
  exact .ofs (back := 19) (h 1 (by decide)) rfl (by decide) (.whole (t := 3) (h 0 (by decide)) rfl)

/-- **C74** a delta over a base object that does not come out is applied to zeros: the object `hello` is read as five zero bytes, with
the right size and without an exception. -/
theorem C74_zeros : ∃ es base ds o, (∀ e ∈ es, e.Valid storedZlib) ∧ ChainFits base ds ∧ resolveChain base ds = syncContent ∧
    Chain storedZlib (entityOf es).pack.data (offsetIn es) 31 [(31, syncCopy), (12, syncBase)] ∧
    syncBase.content = base ∧ [syncCopy.content] = ds.map DeltaObj.bytes ∧
    (entityOf es).stream 99 (List.replicate 20 2) = .ok o ∧ o.getSize storedZlib 99 = .ok 5 ∧
    (o.stream.read storedZlib 99 (-1)).2 = .ok [0, 0, 0, 0, 0] := by
  have h1 : ((entityOf syncPack).stream 99 (List.replicate 20 2)).bind (fun o => o.getSize storedZlib 99) = .ok 5 := by
    unfold entityOf; rw [syncPack_sorted]; decide +kernel
  have h2 : ((entityOf syncPack).stream 99 (List.replicate 20 2)).bind (fun o => (o.stream.read storedZlib 99 (-1)).2) =
      .ok [0, 0, 0, 0, 0] := by
    unfold entityOf; rw [syncPack_sorted]; decide +kernel
  rcases ho : (entityOf syncPack).stream 99 (List.replicate 20 2) with e | o
  · rw [ho] at h1; simp [Except.bind] at h1
  · rw [ho] at h1 h2
    refine ⟨syncPack, syncContent, [syncDelta], o, syncPack_valid storing, ?_, by decide, syncPack_chain storing _, rfl, rfl, ho, h1, h2⟩
    refine ⟨⟨term_one 5 (by decide), term_one 5 (by decide), by decide, by decide, by decide, ?_⟩, trivial⟩
    simp [syncDelta, Instr.Valid, copyOff, copySize, opVal, syncContent]

end GitDB.Props
