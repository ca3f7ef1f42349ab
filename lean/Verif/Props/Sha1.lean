import Verif.Proofs.Sha1
import Verif.Props.Writers
import Verif.Props.Memory
import Verif.Props.Loose
import Verif.Props.Pack
/-!
# C68: names are those of git

The other properties hold for every function from bytes to 20 bytes.  Here it is the one of `hashlib.sha1`.
-/
set_option autoImplicit false

namespace GitDB.Props
open GitDB Spec Spec.Sha1

variable {σ : Type}

/-- **C68** `make_sha(msg).digest()` is the SHA-1 of FIPS 180-4, and nothing else is. -/
theorem C68_make_sha (msg : Bytes) (h : msg.length < 2 ^ 61) : IsSha1 msg (sha1.digest msg) ∧ ∀ d, IsSha1 msg d → d = sha1.digest msg := by
  have h1 : IsSha1 msg (sha1.digest msg) :=
    digest_isSha1 _ _ (by have := update_holds {} [] msg sha_holds_init; simpa using this) (by omega)
  exact ⟨h1, fun d hd => isSha1_unique hd h1⟩

/-- **C68** it does not matter in which pieces a hash object is updated; asking for the digest in between does not matter either, as
`digest` works on a copy. -/
theorem C68_pieces (ds : List Bytes) : (ds.foldl Sha.update {}).digest = sha1.digest ds.flatten := by
  have h1 := updates_hold ds {} [] sha_holds_init
  have h2 := update_holds {} [] ds.flatten sha_holds_init
  rw [holds_unique h1 h2]
  rfl

/-- **C68** the name `Sha1Writer` gives to what was written to it. -/
theorem C68_writer (ds : List Bytes) (hl : ds.flatten.length < 2 ^ 61) : ∃ w,
    writeMany Sha1Writer.write {} ds = (w, .ok (ds.map List.length)) ∧ IsSha1 ds.flatten (w.sha sha1 false) ∧
      IsHexOf (w.sha sha1 true) (w.sha sha1 false) := by
  obtain ⟨w, h1, h2, h3⟩ := C17_sha1_writer sha1 ds
  refine ⟨w, h1, ?_, ?_⟩
  · rw [h2]; exact (C68_make_sha _ hl).1
  · rw [h2, h3]; exact binToHex_isHexOf _

theorem isObject_short {x ty data : Bytes} (h : IsObject x ty data) (hl : ty.length + data.length < 2 ^ 60) : x.length < 2 ^ 61 := by
  obtain ⟨ds, hd, rfl⟩ := h
  have := isDecimal_length (k := 19) hd (by omega)
  simp only [List.length_append, List.length_cons, List.length_nil]
  omega

/-- **C68** the name of an object stored in memory is the one git gives it. -/
theorem C68_memory (zl : Zlib) (L : ZlibLaws zl) (fuel : Nat) (read : σ → Int → σ × Res Bytes) (Rep : σ → Bytes → Prop)
    (hr : FileReads read Rep ∨ ObjectReads read Rep) (i : IStream σ) (data : Bytes) (hs : Rep i.strm data) (hsz : i.size = data.length)
    (hb : i.binsha = none) (ha : ∀ b ∈ i.type, b.toNat < 128) (hf : data.length < fuel) (db : MemDB)
    (hl : i.type.length + data.length < 2 ^ 60) : ∃ x name, IsObject x i.type data ∧ IsSha1 x name ∧
      (db.store sha1 zl fuel read i).2.2 = .ok () ∧ (db.store sha1 zl fuel read i).2.1.binsha = some name ∧
      (db.store sha1 zl fuel read i).1.hasObject name = true := by
  obtain ⟨x, h1, h2, h3, h4, _⟩ := (C39_store sha1 zl L fuel read i db).2 Rep data hr hs hsz hb ha hf
  refine ⟨x, _, h1, (C68_make_sha x ?_).1, h2, h3, h4⟩
  exact isObject_short h1 hl

/-- **C68** the name of an object stored in a loose database is the one git gives it, and so is the path of its file. -/
theorem C68_loose (zl : Zlib) (L : ZlibLaws zl) (fuel : Nat) (env : StoreEnv) (read : σ → Int → σ × Res Bytes) (Rep : σ → Bytes → Prop)
    (hr : FileReads read Rep ∨ ObjectReads read Rep) (i : IStream σ) (data : Bytes) (hs : Rep i.strm data) (hsz : i.size = data.length)
    (hb : i.binsha = none) (fs fs' : Fs) (hok : (looseStore sha1 zl fuel env read i).2.2 = .ok ())
    (hrun : fs.run (looseStore sha1 zl fuel env read i).1 = some fs') (hl : i.type.length + data.length < 2 ^ 60) :
    ∃ x name p, IsObject x i.type data ∧ IsSha1 x name ∧ (looseStore sha1 zl fuel env read i).2.1.binsha = some name ∧
      IsPathOf p name ∧ IsFile fs' p := by
  rcases store_effect hrun with ⟨⟨e, he⟩, _⟩ | ⟨hex, c, m, h1, h2, h3, h4, h5, h6⟩
  · rw [hok] at he; simp at he
  rcases h6 with ⟨_, hm, b, h7, h8⟩ | ⟨e, he, _⟩
  rotate_left
  · rw [hok] at he; simp at he
  have hlw : looseWrite sha1 zl fuel env read i = writeNew sha1 zl fuel env.plan read i := by
    unfold looseWrite; rw [hb]
  rw [hlw] at h1 h2
  obtain ⟨x, hx, hz, hn⟩ := writeNew_data L hr hs hsz h2
  rw [hb, hn] at h1
  simp only [storedName, Except.ok.injEq] at h1
  subst h1
  rw [hexToBin_binToHex] at h7
  simp only [Except.ok.injEq] at h7
  subst h7
  have hob : IsObject x i.type data := ⟨natToDec data.length, natToDec_isDecimal _, hx⟩
  refine ⟨x, _, objectPath (binToHex (sha1.digest x)), hob, (C68_make_sha x (isObject_short hob hl)).1, h8, isPathOf_objectPath _, ?_⟩
  rw [h3]
  exact ⟨_, _, Fs.set_same _ _ _⟩

/-- **C68** the trailers of a written pack and of its index are the SHA-1 of what comes before, and the index contains the one of
the pack. -/
theorem C68_pack (zl : Zlib) (L : ZlibLaws zl) (fuel : Nat) (level : Int) (l : List (PackIn Bytes × Bytes))
    (hl : Packable (fun s rem => s = rem) zl level fuel l) : ∃ w' iw' psha isha body table,
    writePack sha1 zl fuel bytesIORead sink (some sink) (l.map Prod.fst) none level {} {} = (w', iw', .ok (psha, some isha)) ∧
    w'.data = body ++ psha ∧ iw'.data = table ++ psha ++ isha ∧ (body.length < 2 ^ 61 → IsSha1 body psha) ∧
    (table.length < 2 ^ 60 → IsSha1 (table ++ psha) isha) := by
  obtain ⟨w', iw', es, isha, h1, e1, e2, h2, h3, _⟩ :=
    written_spec zl L bytesIO_reads.toBoundedReads sink_stores sink_stores sha1 fuel level l hl {} ⟨rfl, rfl⟩ {} ⟨rfl, rfl⟩
  refine ⟨w', iw', _, isha, packBody es, _, e1, by rw [h2.1]; rfl, by rw [h3.1]; rfl, fun hb => (C68_make_sha _ hb).1, ?_⟩
  intro hb
  rw [e2, show indexV2 ((sortObjs (idxOf 12 es)).map IdxObj.toEntry) (sha1.digest (packBody es)) [] = _ from List.append_nil _]
  exact (C68_make_sha _ (by rw [List.length_append, sha1.len]; omega)).1

/-! ## Examples -/

/-- "abc", from the standard. -/
example : sha1.digest [0x61, 0x62, 0x63] = [0xa9, 0x99, 0x3e, 0x36, 0x47, 0x06, 0x81, 0x6a, 0xba, 0x3e, 0x25, 0x71, 0x78, 0x50, 0xc2, 0x6c,
    0x9c, 0xd0, 0xd8, 0x9d] := by decide +kernel

/-- 120 letters "a" in pieces of 1, 62, 0 and 57 bytes: two blocks and padding. -/
example : ([[0x61], List.replicate 62 0x61, [], List.replicate 57 0x61].foldl Sha.update {}).digest =
    [243, 76, 20, 136, 56, 83, 70, 165, 87, 9, 186, 5, 109, 221, 8, 40, 13, 212, 198, 214] := by decide +kernel

/-- **C68** names everybody knows: the empty blob is e69de29bb2d1d6434b8b29ae775ad8c2e48c5391, the empty tree
4b825dc642cb6eb9a060e54bf8d69288fbee4904, the blob "hello\\n" ce013625030ba8dba906f756967f9e9ca394464a. -/
theorem C68_known (zl : Zlib) (L : ZlibLaws zl) (db : MemDB) :
    (MemDB.store sha1 zl 10 bytesIORead db { type := blob, size := 0, strm := [] }).2.1.binsha = some [0xe6, 0x9d, 0xe2, 0x9b, 0xb2, 0xd1, 0xd6,
      0x43, 0x4b, 0x8b, 0x29, 0xae, 0x77, 0x5a, 0xd8, 0xc2, 0xe4, 0x8c, 0x53, 0x91] ∧
    (MemDB.store sha1 zl 10 bytesIORead db { type := [0x74, 0x72, 0x65, 0x65], size := 0, strm := [] }).2.1.binsha = some [0x4b, 0x82, 0x5d, 0xc6,
      0x42, 0xcb, 0x6e, 0xb9, 0xa0, 0x60, 0xe5, 0x4b, 0xf8, 0xd6, 0x92, 0x88, 0xfb, 0xee, 0x49, 0x04] ∧
    (MemDB.store sha1 zl 10 bytesIORead db { type := blob, size := 6, strm := [104, 101, 108, 108, 111, 10] }).2.1.binsha = some [0xce, 0x01, 0x36,
      0x25, 0x03, 0x0b, 0xa8, 0xdb, 0xa9, 0x06, 0xf7, 0x56, 0x96, 0x7f, 0x9e, 0x9c, 0xa3, 0x94, 0x46, 0x4a] := by
  have key : ∀ (ty data ds name : Bytes), IsDecimal ds data.length → (∀ b ∈ ty, b.toNat < 128) → data.length < 10 →
      sha1.digest (ty ++ [0x20] ++ ds ++ [0] ++ data) = name →
      (MemDB.store sha1 zl 10 bytesIORead db { type := ty, size := data.length, strm := data }).2.1.binsha = some name := by
    intro ty data ds name hd ha hl hn
    obtain ⟨x, h1, h2, h3, _⟩ := (C39_store sha1 zl L 10 bytesIORead { type := ty, size := data.length, strm := data } db).2 _ data
      (.inl bytesIO_reads) rfl rfl rfl ha hl
    rw [h3, ← hn, isObject_unique h1 ⟨ds, hd, rfl⟩]
  refine ⟨key blob [] [48] _ (natToDec_isDecimal 0) (by decide) (by decide) (by decide +kernel),
    key [0x74, 0x72, 0x65, 0x65] [] [48] _ (natToDec_isDecimal 0) (by decide) (by decide) (by decide +kernel),
    key blob [104, 101, 108, 108, 111, 10] [54] _ (natToDec_isDecimal 6) (by decide) (by decide) (by decide +kernel)⟩

/-- The hypotheses of C68_loose, concretely: the empty blob in an empty directory. -/
example : (looseStore sha1 toyZlib 10 { tmp := some [1], isfile := false } bytesIORead { type := blob, size := 0, strm := [] }).2.2 = .ok () ∧
    (looseStore sha1 toyZlib 10 { tmp := some [1], isfile := false } bytesIORead { type := blob, size := 0, strm := [] }).2.1.binsha = some [0xe6,
      0x9d, 0xe2, 0x9b, 0xb2, 0xd1, 0xd6, 0x43, 0x4b, 0x8b, 0x29, 0xae, 0x77, 0x5a, 0xd8, 0xc2, 0xe4, 0x8c, 0x53, 0x91] := by
  decide +kernel

/-- C68_pack, concretely: two blobs. -/
example := C68_pack toyZlib toyZlib_laws 2 1 (twoBlobs 0) (twoBlobs_packable 0 (by omega))

end GitDB.Props
