import Verif.Props.PackDelta
import Verif.Props.Varint
/-!
# C54, C55: packs and indices with arbitrary bytes
-/
set_option autoImplicit false

namespace GitDB.Props
open GitDB Spec

variable {σ : Type}

/-- A copy into a hashing writer hashes what a sequence of reads delivers. -/
theorem copy_hashes (read : σ → Int → σ × Res Bytes) (size chunk : Int) : ∀ (fuel : Nat) (dbw : Int) (s : σ)
    (w : Sha1Writer) (s' : σ) (w' : Sha1Writer) (m : Int),
    streamCopyLoop read Sha1Writer.writeInt size chunk fuel dbw s w = (s', w', .ok m) →
    ∃ ns ps, readMany read s ns = (s', .ok ps) ∧ w'.hashed = w.hashed ++ ps.flatten ∧
      m = dbw + ps.flatten.length := by
  intro fuel
  induction fuel with
  | zero => intro dbw s w s' w' m h; simp [streamCopyLoop] at h
  | succ fuel ih =>
    intro dbw s w s' w' m h
    rw [streamCopyLoop] at h
    simp only at h
    rcases hr : read s (min chunk (size - dbw)) with ⟨s1, e | d⟩
    · rw [hr] at h; simp at h
    · rw [hr] at h
      simp only [Sha1Writer.writeInt, Sha1Writer.write] at h
      split at h
      · simp only [Prod.mk.injEq, Except.ok.injEq] at h
        obtain ⟨rfl, rfl, rfl⟩ := h
        refine ⟨[min chunk (size - dbw)], [d], ?_, by simp, by simp⟩
        simp [readMany, hr]
      · obtain ⟨ns, ps, h1, h2, h3⟩ := ih _ _ _ _ _ _ h
        refine ⟨min chunk (size - dbw) :: ns, d :: ps, ?_, ?_, ?_⟩
        · simp [readMany, hr, h1]
        · rw [h2]; simp
        · rw [h3]; simp; omega

/-- **C54** verification is sound, whatever the bytes of the two files are: if `is_valid_stream(sha)`
returns, it returns `True`, and then the stream returned by `stream(sha)` delivers - in some sequence of
reads - bytes whose git name, with the type and size the stream reports, is `sha`. -/
theorem C54_verified (H : Hash) (zl : Zlib) (p : PackEntity) (fuel : Nat) (sha : Bytes) (v : Bool)
    (h : p.isValidSha H zl fuel sha = .ok v) :
    v = true ∧ ∃ o size, p.stream fuel sha = .ok o ∧ o.getSize zl fuel = .ok size ∧
      ∃ ns s' ps, readMany (PStream.read zl fuel) o.stream ns = (s', .ok ps) ∧
        H.digest (o.type.text ++ [0x20] ++ natToDec size ++ [0] ++ ps.flatten) = sha := by
  unfold PackEntity.isValidSha at h
  rcases hst : p.stream fuel sha with e | o
  · rw [hst] at h; cases h
  rw [hst] at h
  simp only at h
  rcases hsz : o.getSize zl fuel with e | size
  · rw [hsz] at h; cases h
  rw [hsz] at h
  simp only at h
  generalize hty : o.type.text = ty at h
  rcases hw : writeObject fuel ty size (PStream.read zl fuel) Sha1Writer.writeInt chunkSize o.stream {} with
    ⟨s', w, e | m⟩
  · rw [hw] at h; cases h
  rw [hw] at h
  simp only at h
  split at h
  next hd =>
    injection h with h
    refine ⟨h.symm, o, size, rfl, hsz, ?_⟩
    unfold writeObject at hw
    rcases hh : looseObjectHeader ty size with e | hdr
    · rw [hh] at hw; simp at hw
    rw [hh] at hw
    simp only [Sha1Writer.writeInt, Sha1Writer.write] at hw
    have hhdr : hdr = ty ++ [0x20] ++ natToDec size ++ [0] := by
      unfold looseObjectHeader at hh
      split at hh
      · injection hh with hh; exact hh.symm
      · cases hh
    rcases hc : streamCopy fuel (PStream.read zl fuel) Sha1Writer.writeInt (size : Int) chunkSize o.stream
        { hashed := ([] : Bytes) ++ hdr } with ⟨s1, w1, e | m1⟩
    · rw [hc] at hw; simp at hw
    rw [hc] at hw
    simp only [Prod.mk.injEq] at hw
    obtain ⟨rfl, rfl, _⟩ := hw
    obtain ⟨ns, ps, h1, h2, _⟩ := copy_hashes _ _ _ _ _ _ _ _ _ _ hc
    refine ⟨ns, s1, ps, h1, ?_⟩
    rw [← hd, hty, ← hhdr]
    simp [Sha1Writer.sha, h2]
  · cases h

-- a pack with a deltified object whose verification succeeds
example : ∃ (H : Hash) (fuel : Nat),
    (entityOf goodPack).isValidSha H toyZlib fuel (List.replicate 20 3) = .ok true := by
  obtain ⟨F, h⟩ := C32_info_stream_partial toyZlib_laws (entityOf goodPack) (offsetIn goodPack)
    (finds_lists (lists_written goodPack _ _ goodPack_indexable (by decide))) (List.replicate 20 3) rfl 46 (by decide)
    goodChain (goodChain_chain _)
    ⟨[(46, secondOfs)], [(17, firstRef), (12, blobE)], rfl, by simp [secondOfs, entry, Kind.isOfs],
      by simp [firstRef, blobE, entry, Kind.isOfs]⟩ _ _ _ goodChain_deltified _ rfl
    ⟨fun _ => List.replicate 20 3, by simp⟩
  obtain ⟨o, _, _, _, _, _, _, h7⟩ := h F (Nat.le_refl _)
  exact ⟨_, F, by rw [h7]; rfl⟩

/-- What git's format says about an entry at the beginning of `data`: type, size, reference to a base,
and the number of bytes before the compressed data. -/
inductive EntryAt : Bytes → Nat → Nat → DeltaRef → Nat → Prop
  | base (b : UInt8) (bs rest : Bytes) (h : Terminated (b :: bs)) (h1 : b.toNat / 16 % 8 ≠ 6)
      (h2 : b.toNat / 16 % 8 ≠ 7) :
      EntryAt (b :: bs ++ rest) (b.toNat / 16 % 8) (b.toNat % 16 + 16 * leValue bs) .none (b :: bs).length
  | ofs (b : UInt8) (bs back rest : Bytes) (h : Terminated (b :: bs)) (h1 : b.toNat / 16 % 8 = 6)
      (hb : Terminated back) :
      EntryAt (b :: bs ++ (back ++ rest)) 6 (b.toNat % 16 + 16 * leValue bs) (.ofs (ofsValue back))
        ((b :: bs).length + back.length)
  | ref (b : UInt8) (bs rest : Bytes) (h : Terminated (b :: bs)) (h1 : b.toNat / 16 % 8 = 7) :
      EntryAt (b :: bs ++ rest) 7 (b.toNat % 16 + 16 * leValue bs) (.ref (rest.take 20))
        ((b :: bs).length + 20)

/-- **C55** every entry read from any bytes at any offset is one that git's format puts there: type, size, base reference
and the position of its data are those of the format.  Otherwise `IndexError` is raised, and only if a
number of the header is cut off by the end of the file.  (A reference shorter than 20 bytes at the
end of the file is not noticed.) -/
theorem C55_entry (pack : Bytes) (offset : Nat) :
    (∃ o hdr, packObjectAt pack offset = .ok o ∧ EntryAt (pack.drop offset) o.typeId o.size o.info hdr ∧
      o.packOffset = offset ∧ o.dataOff = offset + hdr ∧
      o.stream = Reader.ofSize ((pack.drop offset).drop hdr) o.size) ∨
    (packObjectAt pack offset = .error .indexError ∧
      ((∀ b ∈ pack.drop offset, more b = true) ∨
       ∃ b bs rest, pack.drop offset = b :: bs ++ rest ∧ Terminated (b :: bs) ∧ b.toNat / 16 % 8 = 6 ∧
         ∀ c ∈ rest, more c = true)) := by
  unfold packObjectAt
  simp only
  rcases terminated_or_unending (pack.drop offset) with ⟨t, rest, hd, ht⟩ | hun
  · cases t with
    | nil => exact absurd ht not_terminated_nil
    | cons b bs =>
      rw [hd, packObjectHeaderInfo_spec ht rest]
      simp only
      by_cases h6 : b.toNat / 16 % 8 = OFS_DELTA
      · rw [if_pos h6]
        rcases terminated_or_unending rest with ⟨back, rest', rfl, hb⟩ | hun
        · left
          have := ofsDecode_spec hb (b :: bs) rest'
          rw [show (b :: bs).length = bs.length + 1 from rfl] at this
          rw [this]
          simp only
          refine ⟨_, bs.length + 1 + back.length, rfl, ?_, rfl, rfl, rfl⟩
          have := EntryAt.ofs b bs back rest' ht h6 hb
          rw [h6]
          exact this
        · right
          have : ofsDecode (b :: bs ++ rest) (bs.length + 1) = .error .indexError := by
            apply ofsDecode_trunc
            have : (b :: bs ++ rest).drop (bs.length + 1) = rest := by simp
            rw [this]
            exact hun
          rw [this]
          exact ⟨rfl, .inr ⟨b, bs, rest, rfl, ht, h6, hun⟩⟩
      · rw [if_neg h6]
        left
        by_cases h7 : b.toNat / 16 % 8 = REF_DELTA
        · rw [if_pos h7]
          refine ⟨_, bs.length + 1 + 20, rfl, ?_, rfl, rfl, rfl⟩
          have := EntryAt.ref b bs rest ht h7
          have hs : pySlice (b :: bs ++ rest) (bs.length + 1) (bs.length + 1 + 20) = rest.take 20 := by
            simp [pySlice]
          simp only [hs]
          rw [h7]
          exact this
        · rw [if_neg h7]
          exact ⟨_, bs.length + 1, rfl, EntryAt.base b bs rest ht h6 h7, rfl, rfl, rfl⟩
  · right
    rw [packObjectHeaderInfo_trunc hun]
    exact ⟨rfl, .inl hun⟩

theorem entryAt_read {data : Bytes} {t s n : Nat} {r : DeltaRef} (h : EntryAt data t s r n) :
    ∃ o, packObjectAt data 0 = .ok o ∧ o.typeId = t ∧ o.size = s ∧ o.info = r ∧ o.dataOff = n := by
  cases h with
  | base b bs rest ht h1 h2 =>
    have e : packObjectAt (b :: bs ++ rest) 0 = .ok ⟨0, b.toNat / 16 % 8, b.toNat % 16 + 16 * leValue bs, .none,
        0 + (bs.length + 1), Reader.ofSize ((b :: bs ++ rest).drop (bs.length + 1))
          (b.toNat % 16 + 16 * leValue bs : Nat)⟩ := by
      simp only [packObjectAt, List.drop_zero, packObjectHeaderInfo_spec ht rest]
      rw [if_neg (show ¬ _ = OFS_DELTA from h1), if_neg (show ¬ _ = REF_DELTA from h2)]
    exact ⟨_, e, rfl, rfl, rfl, by simp⟩
  | ofs b bs back rest ht h1 hb =>
    have hd := ofsDecode_spec hb (b :: bs) rest
    rw [show (b :: bs).length = bs.length + 1 from rfl] at hd
    have e : packObjectAt (b :: bs ++ (back ++ rest)) 0 = .ok ⟨0, b.toNat / 16 % 8,
        b.toNat % 16 + 16 * leValue bs, .ofs (ofsValue back), 0 + (bs.length + 1 + back.length),
        Reader.ofSize ((b :: bs ++ (back ++ rest)).drop (bs.length + 1 + back.length))
          (b.toNat % 16 + 16 * leValue bs : Nat)⟩ := by
      simp only [packObjectAt, List.drop_zero, packObjectHeaderInfo_spec ht (back ++ rest)]
      rw [if_pos (show _ = OFS_DELTA from h1), hd]
    exact ⟨_, e, h1, rfl, rfl, by simp⟩
  | ref b bs rest ht h1 =>
    have h6 : ¬ b.toNat / 16 % 8 = OFS_DELTA := by rw [h1]; decide
    have hs : pySlice (b :: bs ++ rest) (bs.length + 1) (bs.length + 1 + 20) = rest.take 20 := by
      simp [pySlice]
    have e : packObjectAt (b :: bs ++ rest) 0 = .ok ⟨0, b.toNat / 16 % 8,
        b.toNat % 16 + 16 * leValue bs, .ref (rest.take 20), 0 + (bs.length + 1 + 20),
        Reader.ofSize ((b :: bs ++ rest).drop (bs.length + 1 + 20))
          (b.toNat % 16 + 16 * leValue bs : Nat)⟩ := by
      simp only [packObjectAt, List.drop_zero, packObjectHeaderInfo_spec ht rest]
      rw [if_neg h6, if_pos (show _ = REF_DELTA from h1), hs]
    exact ⟨_, e, h1, rfl, rfl, by simp⟩

/-- **C55** the entry is determined by the bytes. -/
theorem C55_unique {data : Bytes} {t t' s s' n n' : Nat} {r r' : DeltaRef} (h : EntryAt data t s r n)
    (h' : EntryAt data t' s' r' n') : t = t' ∧ s = s' ∧ r = r' ∧ n = n' := by
  obtain ⟨o, e, a1, a2, a3, a4⟩ := entryAt_read h
  obtain ⟨o', e', b1, b2, b3, b4⟩ := entryAt_read h'
  rw [e] at e'
  injection e' with e'
  subst e'
  exact ⟨a1.symm.trans b1, a2.symm.trans b2, a3.symm.trans b3, a4.symm.trans b4⟩

/-- **C55** opening any file as a pack. -/
theorem C55_open (file : Bytes) :
    (∃ p, PackFile.load file = .ok p ∧ p.data = file ∧ 12 ≤ file.length ∧
      file.take 4 = [0x50, 0x41, 0x43, 0x4b]) ∨
    (PackFile.load file = .error .parseError ∧ 12 ≤ file.length ∧ file.take 4 ≠ [0x50, 0x41, 0x43, 0x4b]) ∨
    (PackFile.load file = .error .structError ∧ file.length < 12) := by
  by_cases h12 : 12 ≤ file.length
  · match file, h12 with
    | a :: b :: c :: d :: rest, h12 =>
      have u : ∀ k, k + 4 ≤ (a :: b :: c :: d :: rest).length →
          ∃ v, unpackL (a :: b :: c :: d :: rest) k = .ok v := fun k hk => ⟨_, by rw [unpackL, if_pos hk]⟩
      obtain ⟨v4, h4⟩ := u 4 (by omega)
      obtain ⟨v8, h8⟩ := u 8 (by omega)
      have h0 : unpackL (a :: b :: c :: d :: rest) 0 =
          .ok (((a.toNat * 256 + b.toNat) * 256 + c.toNat) * 256 + d.toNat) := by
        rw [unpackL, if_pos (by simp)]
        simp [pySlice, beVal]
      have hsig : ((a.toNat * 256 + b.toNat) * 256 + c.toNat) * 256 + d.toNat = packSignature ↔
          (a :: b :: c :: d :: rest).take 4 = [0x50, 0x41, 0x43, 0x4b] := by
        have la := a.toNat_lt
        have lb := b.toNat_lt
        have lc := c.toNat_lt
        have ld := d.toNat_lt
        simp only [packSignature, List.take_succ_cons, List.take_zero, List.cons.injEq, and_true]
        rw [← UInt8.toNat_inj, ← UInt8.toNat_inj, ← UInt8.toNat_inj, ← UInt8.toNat_inj]
        simp only [show (0x50 : UInt8).toNat = 80 from rfl, show (0x41 : UInt8).toNat = 65 from rfl,
          show (0x43 : UInt8).toNat = 67 from rfl, show (0x4b : UInt8).toNat = 75 from rfl]
        omega
      simp only [PackFile.load, h0, h4, h8]
      by_cases hs : ((a.toNat * 256 + b.toNat) * 256 + c.toNat) * 256 + d.toNat = packSignature
      · left
        rw [if_neg (by simp [hs])]
        exact ⟨_, rfl, rfl, h12, hsig.1 hs⟩
      · right; left
        rw [if_pos (by simpa using hs)]
        exact ⟨by trivial, h12, fun h => hs (hsig.2 h)⟩
  · right; right
    refine ⟨?_, by omega⟩
    have : unpackL file 8 = .error .structError := by rw [unpackL, if_neg (by omega)]
    simp only [PackFile.load, this]
    split
    · next h => cases h
    · rfl

theorem packObjectAt_type {pack : Bytes} {ofs : Nat} {o : PackObj} (h : packObjectAt pack ofs = .ok o) :
    ∃ size n, packObjectHeaderInfo (pack.drop ofs) = .ok (o.typeId, size, n) := by
  unfold packObjectAt at h
  simp only at h
  rcases hh : packObjectHeaderInfo (pack.drop ofs) with e | ⟨t, size, n⟩
  · rw [hh] at h; cases h
  rw [hh] at h
  simp only at h
  split at h
  · split at h
    · cases h
    · injection h with h; subst h; exact ⟨_, _, rfl⟩
  · split at h
    · injection h with h; subst h; exact ⟨_, _, rfl⟩
    · injection h with h; subst h; exact ⟨_, _, rfl⟩

theorem typeIdToType_bytes {t : Nat} {ty : PyName} (h : typeIdToType t = .ok ty) (h1 : t ≠ OFS_DELTA) (h2 : t ≠ REF_DELTA) :
    ∃ b, ty = .bytes b := by
  unfold typeIdToType at h
  repeat' split at h
  all_goals first
    | (injection h with h; exact ⟨_, h.symm⟩)
    | (exfalso; contradiction)
    | cases h

/-- **C55** whatever the bytes of pack and index are: an object found at an offset other than 0 is never a bare delta - its type is
one of the types of whole objects. -/
theorem C55_whole (p : PackEntity) (fuel : Nat) (sha : Bytes) (i ofs : Nat) (o : OStream) (ho : p.index.offset i = .ok ofs)
    (h0 : ofs ≠ 0) (h : p.streamAt fuel sha i = .ok o) : ∃ ty, o.type = .bytes ty := by
  unfold PackEntity.streamAt at h
  simp only [ho] at h
  rcases hh : packObjectHeaderInfo (p.pack.data.drop ofs) with e | ⟨t, size, n⟩
  · rw [hh] at h; cases h
  rw [hh] at h
  simp only at h
  split at h
  · rename_i ht
    simp only [PackFile.stream, if_neg h0] at h
    rcases hs : packObjectAt p.pack.data ofs with e | po
    · rw [hs] at h; cases h
    rw [hs] at h
    simp only at h
    obtain ⟨sz, n', hq⟩ := packObjectAt_type hs
    rw [hh] at hq
    injection hq with hq
    simp only [Prod.mk.injEq] at hq
    rcases hty : typeIdToType po.typeId with e | ty
    · rw [hty] at h; cases h
    rw [hty] at h
    injection h with h
    subst h
    exact typeIdToType_bytes hty (by rw [← hq.1]; exact ht.1) (by rw [← hq.1]; exact ht.2)
  · rcases hs : p.collectStreamsAtOffset fuel ofs with e | l
    · rw [hs] at h; cases h
    rw [hs] at h
    simp only [deltaNew] at h
    split at h
    · cases h
    · rename_i hd
      injection h with h
      subst h
      split at hd
      · cases hd
      split at hd
      · cases hd
      split at hd
      · cases hd
      rename_i hne
      split at hd
      · cases hd
      rename_i hty
      injection hd with hd
      simp only [Prod.mk.injEq] at hd
      obtain ⟨b, hb⟩ := typeIdToType_bytes hty (fun h => hne (Or.inl h)) (fun h => hne (Or.inr h))
      exact ⟨b, by rw [← hd.1, hb]⟩

/-- **C55** an index that says offset 0 is not noticed: the signature of the pack is taken for an entry that is no delta, and then the
first entry of the pack is returned in its place - also if it is a delta, with the delta as its content and the name of the delta
type, text and not bytes, as its type. -/
theorem C55_offset_zero (p : PackEntity) (hp : PackFile.load p.pack.data = .ok p.pack) (fuel : Nat) (sha : Bytes) (i : Nat)
    (ho : p.index.offset i = .ok 0) (o : PackObj) (he : packObjectAt p.pack.data 12 = .ok o) :
    p.streamAt fuel sha i = (typeIdToType o.typeId).map fun t => ⟨sha, t, some o.size, .base o.stream⟩ := by
  rcases C55_open p.pack.data with ⟨q, -, -, h12, hsig⟩ | ⟨h, -⟩ | ⟨h, -⟩
  · obtain ⟨rest, hrest⟩ : ∃ rest, p.pack.data = 0x50 :: rest := by
      match hm : p.pack.data, h12 with
      | a :: rest, _ =>
        rw [hm] at hsig
        simp only [List.take_succ_cons, List.cons.injEq] at hsig
        exact ⟨rest, by rw [hsig.1]⟩
    have hh : packObjectHeaderInfo (p.pack.data.drop 0) = .ok (5, 0, 1) := by
      rw [List.drop_zero, hrest]
      have : headerLoop rest 0x50 1 0 4 = .ok (0, 1) := by
        cases rest <;> simp [headerLoop]
      show (match headerLoop rest 0x50 1 0 4 with
        | .ok (size, i) => Except.ok (5, size, i)
        | .error e => .error e) = _
      rw [this]
    unfold PackEntity.streamAt
    simp only [ho, hh]
    rw [if_pos (by decide)]
    simp only [PackFile.stream, if_pos, he]
    rcases typeIdToType o.typeId with e | t <;> rfl
  · rw [hp] at h; cases h
  · rw [hp] at h; cases h

/-- A pack that begins with a delta. -/
def deltaFirst : PackFile := ⟨[0x50, 0x41, 0x43, 0x4b, 0, 0, 0, 2, 0, 0, 0, 1, 0x65, 12, 8, 9], 2, 1⟩

/-- A well-formed index with offset 0, and a pack that begins with a delta of 5 bytes: what is returned has the type
"OFS_DELTA". -/
example : ∃ x o, IndexFile.load (indexV2 [⟨List.replicate 20 7, 0, 0⟩] [] []) = .ok x ∧
    PackFile.load [0x50, 0x41, 0x43, 0x4b, 0, 0, 0, 2, 0, 0, 0, 1, 0x65, 12, 8, 9] = .ok deltaFirst ∧
    PackEntity.streamAt ⟨x, deltaFirst⟩ 9 (List.replicate 20 7) 0 = .ok o ∧ o.type = .str "OFS_DELTA" ∧ o.size = some 5 := by
  have hv : ValidV2 [⟨List.replicate 20 7, 0, 0⟩] :=
    ⟨by simp, by simp, by simp, by decide, by decide⟩
  refine ⟨_, ⟨List.replicate 20 7, .str "OFS_DELTA", some 5, .base (Reader.ofSize [8, 9] 5)⟩, v2_load _ [] [] hv, by decide, ?_, rfl, rfl⟩
  rw [C55_offset_zero ⟨v2File _ [] [], deltaFirst⟩ (by decide) 9 _ 0 (v2_offset _ [] [] hv 0 (by decide))
    ⟨12, 6, 5, .ofs 12, 14, Reader.ofSize [8, 9] 5⟩ (by decide)]
  rfl

-- an entry of type blob and size 3 at offset 2, an offset delta, and a header cut off
example : EntryAt [0x33, 7, 8, 9] 3 3 .none 1 :=
  .base 0x33 [] [7, 8, 9] ⟨[], 0x33, rfl, by simp, by decide⟩ (by decide) (by decide)
example : EntryAt [0x67, 12, 8, 9] 6 7 (.ofs 12) 2 :=
  .ofs 0x67 [] [12] [8, 9] ⟨[], 0x67, rfl, by simp, by decide⟩ (by decide) ⟨[], 12, rfl, by simp, by decide⟩
example : packObjectAt [0, 0, 0xb3, 0x80] 2 = .error .indexError := by decide
example : PackFile.load [0x50, 0x41, 0x43, 0x4c, 0, 0, 0, 2, 0, 0, 0, 0] = .error .parseError := by decide

end GitDB.Props
