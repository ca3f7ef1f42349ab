import Verif.Proofs.PackWritten
import Verif.Proofs.PlainZlib
import Verif.Props.Index
/-!
# C22, C26 to C29: writing packs and reading them back
-/
set_option autoImplicit false

namespace GitDB.Props
open GitDB Spec

variable {σ ω ρ ω₂ ρ₂ : Type}

/-- However the compressor is fed, the pack stays below 2^64 bytes. -/
def PackFits (zl : Zlib) (level : Int) (l : List (PackIn σ × Bytes)) : Prop :=
  ∀ es, All2 (EntryOf zl level) l es → 32 + (es.flatMap Packed.bytes).length < 2 ^ 64

/-- The objects of a list can be packed: streams and sizes are right, names are 20 bytes, types are
those of git, and the numbers fit the file formats.  The same name may come several times. -/
structure Packables (Rep : σ → Bytes → Prop) (zl : Zlib) (level : Int) (fuel : Nat)
    (l : List (PackIn σ × Bytes)) : Prop where
  good : ∀ q ∈ l, Rep q.1.strm q.2 ∧ q.1.size = q.2.length ∧ q.2.length < fuel
  type : ∀ q ∈ l, (typeName q.1.typeId).isSome
  names : ∀ q ∈ l, q.1.sha.length = 20
  count : l.length ≤ 2 ^ 31
  size : PackFits zl level l

/-- The same with distinct names. -/
structure Packable (Rep : σ → Bytes → Prop) (zl : Zlib) (level : Int) (fuel : Nat)
    (l : List (PackIn σ × Bytes)) : Prop extends Packables Rep zl level fuel l where
  distinct : (l.map fun q => q.1.sha).Nodup

section
variable {read : σ → Int → σ × Res Bytes} {write : ω → Bytes → ω × Res ρ} {iwrite : ω₂ → Bytes → ω₂ × Res ρ₂}
  {Rep : σ → Bytes → Prop} {WRep : ω → Bytes → Prop} {IRep : ω₂ → Bytes → Prop} (zl : Zlib) (L : ZlibLaws zl)
  (hr : BoundedReads read Rep) (hw : ∀ cap, Stores write WRep cap) (hi : ∀ cap, Stores iwrite IRep cap) (H : Hash)
  (fuel : Nat) (level : Int) (l : List (PackIn σ × Bytes)) (hs : Packables Rep zl level fuel l)
  (hl : Packable Rep zl level fuel l) (w : ω) (ho : WRep w []) (iw : ω₂) (hio : IRep iw [])

theorem packable_length {es : List Packed} (hfit : PackFits zl level l) (h : All2 (EntryOf zl level) l es)
    (sha : Bytes) (hs : sha.length = 20) : (packFile es sha).length < 2 ^ 64 := by
  have := hfit es h
  simp only [packFile, packBody, List.length_append, u32, List.length_cons, List.length_nil, hs]
  omega

include L hr hw hi hs ho hio in
/-- What is written. -/
theorem writtens_spec : ∃ w' iw' es isha, All2 (EntryOf zl level) l es ∧
    writePack H zl fuel read write (some iwrite) (l.map Prod.fst) none level w iw =
      (w', iw', .ok (H.digest (packBody es), some isha)) ∧
    isha = H.digest (indexV2 ((sortObjs (idxOf 12 es)).map IdxObj.toEntry) (H.digest (packBody es)) []) ∧
    WRep w' (packFile es (H.digest (packBody es))) ∧
    IRep iw' (indexV2 ((sortObjs (idxOf 12 es)).map IdxObj.toEntry) (H.digest (packBody es)) isha) ∧
    Indexable (idxOf 12 es) ∧ (∀ e ∈ es, e.Valid zl) ∧ es.length < 2 ^ 32 := by
  have hgood : ∀ p ∈ l, GoodIn Rep p ∧ p.2.length < fuel := by
    intro p hp
    obtain ⟨h1, h2, h3⟩ := hs.good p hp
    obtain ⟨nm, hnm⟩ := Option.isSome_iff_exists.1 (hs.type p hp)
    exact ⟨⟨h1, h2, (typeIdToType_name hnm).2.1⟩, h3⟩
  have hpc : packCount none l.length = l.length := rfl
  have hcount := hs.count
  obtain ⟨w', es, h1, h2, h3⟩ := writePack_spec zl L hr hw H fuel level l hgood none w ho hi iw hio
    (by rw [hpc]; omega) (by rw [hpc]; exact Nat.le_refl _)
  rw [hpc, List.take_length] at h1
  have hv : ∀ e ∈ es, e.Valid zl := by
    intro e he
    obtain ⟨a, ha, hr⟩ := all2_mem_right h1 e he
    exact hr.2.2.2.1
  have hix : Indexable (idxOf 12 es) := indexable_idxOf es (H.digest (packBody es)) (by
      intro e he
      obtain ⟨a, ha, hr⟩ := all2_mem_right h1 e he
      rw [hr.1]; exact hs.names a ha) (packable_length zl level l hs.size h1 _ (H.len _))
    (by rw [← all2_len h1]; exact hs.count) hv
  obtain ⟨iw', isha, e1, e2, e3⟩ := h3 hix
  exact ⟨w', iw', es, isha, h1, e1, e2, h2, e3, hix, hv, by rw [← all2_len h1]; omega⟩

include L hr hw hi hl ho hio in
/-- The same with distinct names. -/
theorem written_spec : ∃ w' iw' es isha, All2 (EntryOf zl level) l es ∧
    writePack H zl fuel read write (some iwrite) (l.map Prod.fst) none level w iw =
      (w', iw', .ok (H.digest (packBody es), some isha)) ∧
    isha = H.digest (indexV2 ((sortObjs (idxOf 12 es)).map IdxObj.toEntry) (H.digest (packBody es)) []) ∧
    WRep w' (packFile es (H.digest (packBody es))) ∧
    IRep iw' (indexV2 ((sortObjs (idxOf 12 es)).map IdxObj.toEntry) (H.digest (packBody es)) isha) ∧
    Indexable (idxOf 12 es) ∧ (∀ e ∈ es, e.Valid zl) ∧ (es.map Packed.name).Nodup ∧ es.length < 2 ^ 32 := by
  obtain ⟨w', iw', es, isha, h1, e1, e2, h2, h3, hix, hv, h32⟩ :=
    writtens_spec zl L hr hw hi H fuel level l hl.toPackables w ho iw hio
  exact ⟨w', iw', es, isha, h1, e1, e2, h2, h3, hix, hv, by rw [all2_names h1]; exact hl.distinct, h32⟩

/-- The compressed form of `content`, however it is fed to the compressor, satisfies `P`. -/
def HoweverFed (zl : Zlib) (level : Int) (content : Bytes) (P : Bytes → Prop) : Prop :=
  ∀ pieces, pieces.flatten = content → P (zl.emit (zl.cinit level) pieces)

include L hr hw hi hl ho hio in
/-- **C26** Objects written by `write_pack` are found again in pack and index under their names, with type and
size from both `info` and `stream`.  Reading the content in one go gives the content if its compressed form is
not longer or does not stall; reading it in any pieces if it does not stall.  Missing for the full statement
(`C26_full`): streams that stall. -/
theorem C26_roundtrip_partial : ∃ w' iw' psha isha pk ix p x,
    writePack H zl fuel read write (some iwrite) (l.map Prod.fst) none level w iw =
      (w', iw', .ok (psha, some isha)) ∧ WRep w' pk ∧ IRep iw' ix ∧
    PackFile.load pk = .ok p ∧ IndexFile.load ix = .ok x ∧
    ∀ q ∈ l, ∀ fuel', ∃ o nm, typeName q.1.typeId = some nm ∧
      PackEntity.stream ⟨x, p⟩ fuel' q.1.sha = .ok o ∧ o.sha = q.1.sha ∧ o.type = .bytes nm ∧
      o.getSize zl fuel' = .ok q.2.length ∧
      PackEntity.info zl ⟨x, p⟩ fuel' q.1.sha = .ok (.bytes nm, q.2.length) ∧
      (HoweverFed zl level q.2 (fun z => z.length ≤ q.2.length ∨ NoStall zl z) →
        ∀ n : Int, n < 1 ∨ (q.2.length : Int) ≤ n → (o.stream.read zl fuel' n).2 = .ok q.2) ∧
      (HoweverFed zl level q.2 (NoStall zl) → ∀ ns : List Int, ∃ s' ps,
        readMany (PStream.read zl fuel') o.stream ns = (s', .ok ps) ∧
        ps.flatten = q.2.take (readLen q.2.length ns)) := by
  obtain ⟨w', iw', es, isha, h1, e1, e2, h2, h3, hix, hv, hd, h32⟩ :=
    written_spec zl L hr hw hi H fuel level l hl w ho iw hio
  refine ⟨w', iw', _, isha, _, _, _, _, e1, h2, h3, packFile_load es _ h32,
    v2_load _ _ _ (hix.perm (sortObjs_perm _)).valid, ?_⟩
  intro q hq fuel'
  obtain ⟨e, he, hqe⟩ := all2_mem_left h1 q hq
  obtain ⟨i, hil, rfl⟩ := List.mem_iff_getElem.1 he
  obtain ⟨a1, a2, a3, a4, a7, pieces, a5, a6⟩ := hqe
  obtain ⟨nm, hnm⟩ := Option.isSome_iff_exists.1 (hl.type q hq)
  obtain ⟨j, b1, b2, b3⟩ := (lists_written es (H.digest (packBody es)) isha hix hd).find i hil
  have hat := packFile_entryAt hv (H.digest (packBody es)) i hil
  have hpos : offsetOf es i ≠ 0 := by unfold offsetOf; omega
  obtain ⟨s1, s2⟩ := stream_whole (zl := zl) ⟨v2File ((sortObjs (idxOf 12 es)).map IdxObj.toEntry)
      (H.digest (packBody es)) isha, ⟨packFile es (H.digest (packBody es)), 2, es.length⟩⟩ q.1.sha (offsetOf es i)
    ⟨hpos, j, by rw [← a1]; exact b1, b2⟩ es[i] hat q.1.typeId a2 nm hnm fuel'
  refine ⟨_, nm, hnm, s1, rfl, rfl, by simp [OStream.getSize, a3], by rw [s2, a3], ?_, ?_⟩
  · intro hsm n hn
    obtain ⟨rest, hdat⟩ := entryAt_data hat
    obtain ⟨r, hrd⟩ := smooth_read L a4.zip (by rw [a6, a3]; exact hsm pieces a5) rest n (by rw [a3]; exact hn)
    simp only [PStream.read, PStream.open, entryObj]
    rw [hdat, hrd, a3]
  · intro hns ns
    have hp := prep_whole L hat (by rw [a6]; exact hns pieces a5) fuel'
    obtain ⟨s', ps, c1, c2, _⟩ := readMany_spec (pRep_reads L fuel') ns _ _ hp
    rw [a3] at c2
    exact ⟨s', ps, c1, c2⟩

include L hr hw hi hs ho hio in
/-- **C22** The two trailers of a written pack and index: `PackFile.checksum` is the value returned and the digest of
everything before it, and the index names that pack. -/
theorem C22_pack_checksum : ∃ w' iw' psha isha body ix p x,
    writePack H zl fuel read write (some iwrite) (l.map Prod.fst) none level w iw =
      (w', iw', .ok (psha, some isha)) ∧ WRep w' (body ++ psha) ∧ psha = H.digest body ∧
    PackFile.load (body ++ psha) = .ok p ∧ p.checksum = psha ∧
    IRep iw' ix ∧ IndexFile.load ix = .ok x ∧ x.packfileChecksum = psha ∧ x.indexfileChecksum = isha := by
  obtain ⟨w', iw', es, isha, h1, e1, e2, h2, h3, hix, hv, h32⟩ :=
    writtens_spec zl L hr hw hi H fuel level l hs w ho iw hio
  have hc := v2_checksums ((sortObjs (idxOf 12 es)).map IdxObj.toEntry) (H.digest (packBody es)) isha (H.len _)
    (by rw [e2]; exact H.len _)
  refine ⟨w', iw', _, isha, packBody es, _, _, _, e1, h2, rfl, packFile_load es _ h32, ?_, h3,
    v2_load _ _ _ (hix.perm (sortObjs_perm _)).valid, hc.1, hc.2⟩
  unfold PackFile.checksum packFile
  simp only [List.length_append, H.len]
  rw [Nat.add_sub_cancel, List.drop_left]

include L hr hw hi hs ho hio in
/-- **C27** For a written pack whose objects are neither empty nor longer than the copy chunk, and whose
compressed streams come out in one go, `stream_iter` ends and yields the objects in the order in which they were
written: each at its offset, with type and size, and with a stream in its initial state that delivers the
content.  Missing for the full statement (`C27_full`): empty objects, which hang the iteration (`C27_not_full`),
large objects and stalling streams. -/
theorem C27_iterate_partial
    (hc : ∀ q ∈ l, q.2 ≠ [] ∧ q.2.length ≤ chunkSize ∧
      HoweverFed zl level q.2 (fun z => z.length ≤ q.2.length ∨ NoStall zl z)) : ∃ w' iw' psha isha pk p objs,
    writePack H zl fuel read write (some iwrite) (l.map Prod.fst) none level w iw =
      (w', iw', .ok (psha, some isha)) ∧ WRep w' pk ∧ PackFile.load pk = .ok p ∧
    (∀ innerFuel fuel', pk.length + 3 ≤ innerFuel → l.length < fuel' →
      p.streamIter zl innerFuel fuel' 0 = (objs, .ok ())) ∧
    All2 (fun (q : PackIn σ × Bytes) (o : PackObj) => o.typeId = q.1.typeId ∧ o.size = q.2.length ∧ o.info = .none ∧
      p.stream o.packOffset = .ok o ∧ (o.stream.read zl (-1)).2 = .ok q.2) l objs := by
  obtain ⟨w', iw', es, isha, h1, e1, e2, h2, h3, hix, hv, h32⟩ :=
    writtens_spec zl L hr hw hi H fuel level l hs w ho iw hio
  have hit : ∀ e ∈ es, Iterable zl e := by
    intro e he
    obtain ⟨a, ha, a1, a2, a3, a4, a7, pieces, a5, a6⟩ := all2_mem_right h1 e he
    obtain ⟨c1, c2, c3⟩ := hc a ha
    exact ⟨a4, by rw [a3]; exact c1, by rw [a3]; exact c2, by rw [a6, a3]; exact c3 pieces a5⟩
  refine ⟨w', iw', _, isha, _, _, (List.range' 0 es.length).map fun j => entryObj (packFile es (H.digest (packBody es)))
    (offsetOf es j) (es.getD j ⟨[], .whole 0, [], [], [], []⟩), e1, h2, packFile_load es _ h32, ?_, ?_⟩
  · intro innerFuel fuel' hf hf'
    have := iterObjects_spec L es hit (H.digest (packBody es)) (H.len _) 2 es.length innerFuel hf es.length 0 fuel'
      (by omega) (by rw [← all2_len h1]; exact hf')
    rw [← this]
    rfl
  · have key : ∀ (k : Nat) (l' : List (PackIn σ × Bytes)) (es' : List Packed), All2 (EntryOf zl level) l' es' →
        es' = es.drop k → All2 (fun (q : PackIn σ × Bytes) (o : PackObj) => o.typeId = q.1.typeId ∧
          o.size = q.2.length ∧ o.info = .none ∧
          PackFile.stream ⟨packFile es (H.digest (packBody es)), 2, es.length⟩ o.packOffset = .ok o ∧
          (o.stream.read zl (-1)).2 = .ok q.2) l'
        ((List.range' k es'.length).map fun j => entryObj (packFile es (H.digest (packBody es))) (offsetOf es j)
          (es.getD j ⟨[], .whole 0, [], [], [], []⟩)) := by
      intro k l' es' h
      induction h generalizing k with
      | nil => intro _; exact .nil
      | cons h t ih =>
        rename_i q e l'' es''
        intro hk
        have hkl : k < es.length := by
          rcases Nat.lt_or_ge k es.length with h | h
          · exact h
          · rw [List.drop_eq_nil_of_le h] at hk; simp at hk
        rw [List.drop_eq_getElem_cons hkl] at hk
        simp only [List.cons.injEq] at hk
        obtain ⟨hk1, hk2⟩ := hk
        have hat := packFile_entryAt hv (H.digest (packBody es)) k hkl
        have hget : es.getD k ⟨[], .whole 0, [], [], [], []⟩ = es[k] := by
          rw [List.getD_eq_getElem?_getD, List.getElem?_eq_getElem hkl, Option.getD_some]
        rw [List.length_cons, List.range'_succ, List.map_cons, hget]
        obtain ⟨a1, a2, a3, a4, a7, pieces, a5, a6⟩ := h
        rw [hk1] at a2 a3 a4
        refine .cons ⟨?_, ?_, ?_, ?_, ?_⟩ (ih (k + 1) hk2)
        · show es[k].kind.typeId = _; rw [a2]; rfl
        · show es[k].content.length = _; rw [a3]
        · show kindInfo es[k].kind = _; rw [a2]; rfl
        · unfold PackFile.stream
          have : (entryObj (packFile es (H.digest (packBody es))) (offsetOf es k) es[k]).packOffset ≠ 0 := by
            show offsetOf es k ≠ 0
            unfold offsetOf; omega
          rw [if_neg this]
          exact packObjectAt_spec hat
        · obtain ⟨rest, hdat⟩ := entryAt_data hat
          have hsm := (hit _ (List.getElem_mem hkl)).smooth
          obtain ⟨r, hrd⟩ := smooth_read L a4.zip hsm rest (-1) (Or.inl (by omega))
          show ((Reader.ofSize _ _).read zl (-1)).2 = _
          rw [hdat, hrd, a3]
    exact key 0 l es h1 rfl

include L hr hw hi hl ho hio in
/-- **C28** In a freshly written pack of at most 2 GiB the crc of every object is accepted. -/
theorem C28_fresh_partial : ∃ w' iw' psha isha pk ix p x,
    writePack H zl fuel read write (some iwrite) (l.map Prod.fst) none level w iw =
      (w', iw', .ok (psha, some isha)) ∧ WRep w' pk ∧ IRep iw' ix ∧
    PackFile.load pk = .ok p ∧ IndexFile.load ix = .ok x ∧
    (pk.length ≤ 2 ^ 31 → ∀ q ∈ l, ∀ fuel', pk.length < fuel' →
      PackEntity.isValidCrc ⟨x, p⟩ fuel' q.1.sha = .ok true) := by
  obtain ⟨w', iw', es, isha, h1, e1, e2, h2, h3, hix, hv, hd, h32⟩ :=
    written_spec zl L hr hw hi H fuel level l hl w ho iw hio
  refine ⟨w', iw', _, isha, _, _, _, _, e1, h2, h3, packFile_load es _ h32,
    v2_load _ _ _ (hix.perm (sortObjs_perm _)).valid, ?_⟩
  intro hs q hq fuel' hf
  obtain ⟨e, he, hqe⟩ := all2_mem_left h1 q hq
  obtain ⟨i, hil, rfl⟩ := List.mem_iff_getElem.1 he
  rw [← hqe.1]
  exact written_crc es hv _ isha _ (H.len _) hix hd hs _ rfl rfl fuel' hf i hil

include L hr hw hi hs ho hio in
/-- **C29** With no announced count everything is written: the count in the pack, the number of entries, and the
size of the index are the number of objects. -/
theorem C29_all : ∃ w' iw' psha isha pk ix p x,
    writePack H zl fuel read write (some iwrite) (l.map Prod.fst) none level w iw =
      (w', iw', .ok (psha, some isha)) ∧ WRep w' pk ∧ IRep iw' ix ∧
    PackFile.load pk = .ok p ∧ p.size = l.length ∧ IndexFile.load ix = .ok x ∧ x.size = l.length ∧
    ∃ es, pk = packFile es psha ∧ es.length = l.length := by
  obtain ⟨w', iw', es, isha, h1, e1, e2, h2, h3, hix, hv, h32⟩ :=
    writtens_spec zl L hr hw hi H fuel level l hs w ho iw hio
  refine ⟨w', iw', _, isha, _, _, _, _, e1, h2, h3, packFile_load es _ h32, (all2_len h1).symm,
    v2_load _ _ _ (hix.perm (sortObjs_perm _)).valid, ?_, es, rfl, (all2_len h1).symm⟩
  rw [v2_size, List.length_map, (sortObjs_perm _).length_eq, idxOf_length, all2_len h1]
end

/-- **C28** In general: `is_valid_stream(sha, use_crc=True)` compares the stored crc with that of the
bytes from the object's offset to the next greater offset in the index (or the trailer).  The chunked loop
of the code computes this for every chunk size. -/
theorem C28_compares (p : PackEntity) (sha : Bytes) (i o c : Nat) (offs : List Nat)
    (hv : 2 ≤ p.index.version) (hi : p.index.shaToIndex sha = .ok (some i)) (ho : p.index.offset i = .ok o)
    (hc : p.index.crc i = .ok c) (hof : p.index.offsets = .ok offs) (hm : o ∈ offs) (fuel : Nat)
    (hf : p.pack.data.length < fuel ∧ ∀ x ∈ offs, x < fuel) :
    ∃ next, IsNext offs (p.pack.data.length - 20) o next ∧
      p.isValidCrc fuel sha = .ok (decide (crc32 ((p.pack.data.drop o).take (next - o)) 0 = c)) :=
  isValidCrc_spec p sha i o c offs hv hi ho hc hof hm fuel hf

theorem C28_chunk_independent (data : Bytes) (chunk next fuel cur : Nat) (hc : 1 ≤ chunk) (hf : next - cur < fuel) :
    crcLoop data chunk next fuel cur 0 = .ok (crc32 ((data.drop cur).take (next - cur)) 0) :=
  crcLoop_spec data chunk next hc fuel cur 0 hf

/-- **C28** is refused for version 1 indices. -/
theorem C28_version1 (p : PackEntity) (h : p.index.version < 2) (fuel : Nat) (sha : Bytes) :
    p.isValidCrc fuel sha = .error .unsupportedOperation := by
  unfold PackEntity.isValidCrc
  rw [if_pos h]

/-- **C28** fails beyond 2 GiB: in a version 2 index, for an object at an offset from `2^31 + (number of
objects)` on, the check raises `KeyError` whatever the pack contains (`offsets()` returns the raw 32 bit fields). -/
theorem C28_large_offset (es : List Entry) (packSha idxSha : Bytes) (hv : ValidV2 es)
    (hs : Ascending (es.map Entry.name)) (hd : (es.map Entry.name).Nodup) (pack : PackFile) (e : Entry) (he : e ∈ es)
    (hl : 2 ^ 31 + es.length ≤ e.ofs) (fuel : Nat) :
    ∃ x, IndexFile.load (indexV2 es packSha idxSha) = .ok x ∧
      PackEntity.isValidCrc ⟨x, pack⟩ fuel e.name = .error .keyError :=
  ⟨_, v2_load es packSha idxSha hv, isValidCrc_large es packSha idxSha hv hs hd _ rfl e he hl fuel⟩

example (pack : PackFile) := C28_large_offset exEntries [] [] exEntries_valid exEntries_asc (by decide) pack
  ⟨0xc0 :: List.replicate 19 1, 7, 2 ^ 40⟩ (by decide) (by decide) 5

section
variable {read : σ → Int → σ × Res Bytes} {write : ω → Bytes → ω × Res ρ}
  {Rep : σ → Bytes → Prop} {WRep : ω → Bytes → Prop} (zl : Zlib) (L : ZlibLaws zl)
  (hr : BoundedReads read Rep) (hw : ∀ cap, Stores write WRep cap) (H : Hash) (fuel : Nat) (level : Int)
  (l : List (PackIn σ × Bytes)) (hl : ∀ p ∈ l, GoodIn Rep p ∧ p.2.length < fuel) (w : ω) (ho : WRep w [])

include L hr hw hl ho in
/-- **C29** With a count announced: exactly that many objects, the first ones, are written, and the pack says so.
(A count of 0 counts as not announced, see `C29_zero`.) -/
theorem C29_announced (n : Nat) (hn : n ≠ 0) (h32 : n < 2 ^ 32) (hnl : n ≤ l.length) (iw : ω₂) :
    ∃ w' psha pk p es, writePack H zl fuel read write (none : Option (ω₂ → Bytes → ω₂ × Res ρ₂))
        (l.map Prod.fst) (some n) level w iw = (w', iw, .ok (psha, none)) ∧ WRep w' pk ∧
      PackFile.load pk = .ok p ∧ p.size = n ∧ pk = packFile es psha ∧ es.length = n ∧
      All2 (fun (q : PackIn σ × Bytes) e => e.name = q.1.sha ∧ e.kind = .whole q.1.typeId ∧ e.content = q.2 ∧
        e.Valid zl) (l.take n) es := by
  have hpc : packCount (some n) l.length = n := by
    rcases n with _ | n
    · exact absurd rfl hn
    · rfl
  obtain ⟨w', es, h1, h2, h3⟩ := writePack_noindex (ω₂ := ω₂) (ρ₂ := ρ₂) zl L hr hw H fuel level l hl (some n) w ho iw
    (by rw [hpc]; exact h32) (by rw [hpc]; exact hnl)
  rw [hpc] at h1
  have hlen : es.length = n := by rw [← all2_len h1, List.length_take]; omega
  refine ⟨w', _, _, _, es, h3, h2, packFile_load es _ (by omega), hlen, rfl, hlen, ?_⟩
  clear h2 h3 hlen
  generalize l.take n = l' at h1
  induction h1 with
  | nil => exact .nil
  | cons h t ih => exact .cons ⟨h.1, h.2.1, h.2.2.1, h.2.2.2.1⟩ ih

include L hr hw hl ho in
/-- **C29** If fewer objects are given than announced, `ValueError`. -/
theorem C29_missing (n : Nat) (h32 : n < 2 ^ 32) (hnl : l.length < n)
    (idxWrite : Option (ω₂ → Bytes → ω₂ × Res ρ₂)) (iw : ω₂) :
    ∃ w', writePack H zl fuel read write idxWrite (l.map Prod.fst) (some n) level w iw =
      (w', iw, .error .valueError) := by
  have hpc : packCount (some n) l.length = n := by
    rcases n with _ | n
    · omega
    · rfl
  exact writePack_missing zl L hr hw H fuel level l hl (some n) w ho idxWrite iw (by rw [hpc]; exact h32)
    (by rw [hpc]; exact hnl)
end

/-- **C29** An object whose stream does not deliver as many bytes as its stated size - after any number of good ones, whatever
follows - makes `write_pack` fail: no pack that says something else about an object than what is in it is ever finished, and
the index is not touched. -/
theorem C29_mismatch (H : Hash) (zl : Zlib) {read : σ → Int → σ × Res Bytes} {write : ω → Bytes → ω × Res ρ}
    {Rep : σ → Bytes → Prop} {WRep : ω → Bytes → Prop} (hr : BoundedReads read Rep) (hw : ∀ cap, Stores write WRep cap)
    (fuel : Nat) (level : Int) (l : List (PackIn σ × Bytes)) (hl : ∀ p ∈ l, GoodIn Rep p ∧ p.2.length < fuel)
    (q : PackIn σ) (d : Bytes) (hq : Rep q.strm d) (hqs : q.size ≠ d.length) (hqt : q.typeId < 6) (hqf : d.length < fuel)
    (rest : List (PackIn σ)) (h32 : (l.map Prod.fst ++ q :: rest).length < 2 ^ 32) (w : ω) (ho : WRep w [])
    (idxWrite : Option (ω₂ → Bytes → ω₂ × Res ρ₂)) (iw : ω₂) :
    ∃ w', writePack H zl fuel read write idxWrite (l.map Prod.fst ++ q :: rest) none level w iw =
      (w', iw, .error .assertionError) := by
  obtain ⟨f0, r, e1, h1⟩ := flexible_stores hw _ ({ inner := w } : FlexibleSha1Writer ω) []
    ([80, 65, 67, 75] ++ u32 2 ++ u32 (l.map Prod.fst ++ q :: rest).length) ⟨ho, rfl⟩ (Nat.le_refl _)
  obtain ⟨f, e2⟩ := packObjects_mismatch zl hr hw fuel level idxWrite.isSome (l.map Prod.fst ++ q :: rest).length q d rest
    hq hqs hqt hqf l f0 0 12 [] _ hl h1 (by simp)
  refine ⟨f.inner, ?_⟩
  have hpc : packCount none (l.map Prod.fst ++ q :: rest).length = (l.map Prod.fst ++ q :: rest).length := rfl
  unfold writePack
  simp only [hpc, packLLL_ok _ h32, e1, e2]

/-- Not vacuous: a blob of two bytes that says it has three, after one that is right. -/
example (H : Hash) := C29_mismatch H toyZlib (read := bytesIORead) (write := fun (b : BytesIO) d => (b.write d, .ok d.length))
  bytesIO_reads.toBoundedReads bytesIO_stores 9 1 [(⟨3, 1, List.replicate 20 8, [65]⟩, [65])] (by simp [GoodIn])
  ⟨3, 3, List.replicate 20 7, [65, 66]⟩ [65, 66] rfl (by decide) (by decide) (by decide) [] (by decide) {} ⟨rfl, rfl⟩
  (none : Option (Unit → Bytes → Unit × Res Unit)) ()

/-- **C29** An announced count of 0 means "not announced". -/
theorem C29_zero (H : Hash) (zl : Zlib) (fuel : Nat) (read : σ → Int → σ × Res Bytes) (write : ω → Bytes → ω × Res ρ)
    (idxWrite : Option (ω₂ → Bytes → ω₂ × Res ρ₂)) (objs : List (PackIn σ)) (level : Int) (w : ω) (iw : ω₂) :
    writePack H zl fuel read write idxWrite objs (some 0) level w iw =
      writePack H zl fuel read write idxWrite objs none level w iw := rfl

/-- **C29** A count that does not fit the header is an error before anything is written. -/
theorem C29_too_many (H : Hash) (zl : Zlib) (fuel : Nat) (read : σ → Int → σ × Res Bytes)
    (write : ω → Bytes → ω × Res ρ) (idxWrite : Option (ω₂ → Bytes → ω₂ × Res ρ₂)) (objs : List (PackIn σ)) (n : Nat)
    (hn : 2 ^ 32 ≤ n) (level : Int) (w : ω) (iw : ω₂) :
    writePack H zl fuel read write idxWrite objs (some n) level w iw = (w, iw, .error .structError) := by
  have hpc : packCount (some n) objs.length = n := by
    rcases n with _ | n
    · omega
    · rfl
  unfold writePack
  simp only [hpc, packLLL_err n (by omega)]

/-! ### the full statements, and why they fail -/

/-- A stand-in for SHA-1 to compute with. -/
def lenHash : Hash := ⟨fun x => List.replicate 20 (UInt8.ofNat x.length), fun _ => by simp⟩

/-- `BytesIO` as a sink. -/
def sink (b : BytesIO) (d : Bytes) : BytesIO × Res Nat := (b.write d, .ok d.length)

/-- The full statement of **C27**: the iteration of a written pack ends, with as many objects as were written. -/
def C27_full : Prop :=
  ∀ (zl : Zlib), ZlibLaws zl → ∀ (H : Hash) (fuel : Nat) (level : Int) (l : List (PackIn Bytes × Bytes)),
    Packable (fun s rem => s = rem) zl level fuel l → ∀ (w' iw' : BytesIO) (shas : Bytes × Option Bytes)
      (p : PackFile),
    writePack H zl fuel bytesIORead sink (some sink) (l.map Prod.fst) none level {} {} = (w', iw', .ok shas) →
    PackFile.load w'.data = .ok p →
    ∃ innerFuel fuel' objs, p.streamIter zl innerFuel fuel' 0 = (objs, .ok ()) ∧ objs.length = l.length

theorem sink_stores : ∀ cap, Stores sink (fun b out => b.data = out ∧ b.pos = out.length) cap := bytesIO_stores

/-- Entries written with `toyZlib` are short. -/
theorem toy_entry_length {q : PackIn Bytes × Bytes} {level : Int} {e : Packed} (h : EntryOf toyZlib level q e)
    (hq : q.2.length < 2 ^ 60) : e.zip.length = 2 * q.2.length + 1 ∧ e.bytes.length ≤ 2 * q.2.length + 10 := by
  obtain ⟨a1, a2, a3, a4, a7, pieces, a5, a6⟩ := h
  have hz : e.zip.length = 2 * q.2.length + 1 := by
    have : toyZlib.emit () pieces = toyEnc pieces.flatten := toy_emit pieces
    rw [a6, show toyZlib.emit (toyZlib.cinit level) pieces = toyEnc pieces.flatten from this, a5]
    exact toyEnc_length q.2
  have hh := a7 8 (by rw [a3]; exact hq)
  have he : e.ext = [] := by
    have := a4.ext
    rw [a2] at this
    exact this.2.2
  refine ⟨hz, ?_⟩
  simp only [Packed.bytes, List.length_append, hz, he, List.length_nil]
  omega

/-- A blob with `n` bytes and one with one byte. -/
def twoBlobs (n : Nat) : List (PackIn Bytes × Bytes) :=
  [(⟨3, n, List.replicate 20 7, List.replicate n 65⟩, List.replicate n 65), (⟨3, 1, List.replicate 20 8, [65]⟩, [65])]

theorem twoBlobs_packable (n : Nat) (hn : n < 2 ^ 59) :
    Packable (fun s rem => s = rem) toyZlib 1 (n + 2) (twoBlobs n) where
  good := by simp [twoBlobs]
  type := by simp [twoBlobs, typeName]
  names := by simp [twoBlobs]
  distinct := by simp [twoBlobs, List.replicate]
  count := by simp [twoBlobs]
  size := by
    intro es h
    cases h with
    | cons h t =>
      cases t with
      | cons h' t' =>
        cases t'
        have h1 := (toy_entry_length h (by simp only [List.length_replicate]; omega)).2
        have h2 := (toy_entry_length h' (by simp)).2
        simp only [List.length_replicate, List.length_cons, List.length_nil] at h1 h2
        simp only [List.flatMap_cons, List.flatMap_nil, List.append_nil, List.length_append]
        omega

/-- **C27** fails: an empty object hangs the iteration. -/
theorem C27_not_full : ¬ C27_full := by
  intro h
  obtain ⟨w', iw', es, isha, h1, e1, e2, h2, h3, hix, hv, hd, h32⟩ :=
    written_spec toyZlib toyZlib_laws bytesIO_reads.toBoundedReads sink_stores sink_stores lenHash 2 1 (twoBlobs 0)
      (twoBlobs_packable 0 (by omega)) {} ⟨rfl, rfl⟩ {} ⟨rfl, rfl⟩
  obtain ⟨inner, fuel', objs, e3, e4⟩ := h toyZlib toyZlib_laws lenHash 2 1 (twoBlobs 0)
    (twoBlobs_packable 0 (by omega)) w' iw' _ _ e1 (by rw [h2.1]; exact packFile_load es _ h32)
  cases h1 with
  | cons ha t =>
    rename_i e es'
    obtain ⟨a1, a2, a3, a4, a7, pieces, a5, a6⟩ := ha
    have hat := packFile_entryAt hv (lenHash.digest (packBody (e :: es'))) 0 (by simp)
    have hzip : e.zip ≠ [] := by
      intro h0
      have := a4.zip.stop
      rw [h0] at this
      simp [toyZlib, toy_nil] at this
    have h12 : offsetOf (e :: es') 0 = 12 := rfl
    have hend := offsetOf_length (e :: es') (lenHash.digest (packBody (e :: es')))
    have hlt := offsetOf_lt hv 0 (e :: es').length (by simp) (Nat.le_refl _)
    rw [hend, h12, lenHash.len] at hlt
    rw [h12] at hat
    have := iterObjects_empty ⟨packFile (e :: es') (lenHash.digest (packBody (e :: es'))), 2, (e :: es').length⟩ 12 e hat a3
      hzip (by simp only; omega) inner fuel'
    have e3' : PackFile.iterObjects toyZlib ⟨packFile (e :: es') (lenHash.digest (packBody (e :: es'))), 2, (e :: es').length⟩
      inner fuel' (12 : Nat) = (objs, .ok ()) := e3
    rw [this] at e3'
    simp at e3'

/-- The full statement of **C28** (first half): every object of a fresh pack is accepted. -/
def C28_full : Prop :=
  ∀ (zl : Zlib), ZlibLaws zl → ∀ (H : Hash) (fuel : Nat) (level : Int) (l : List (PackIn Bytes × Bytes)),
    Packable (fun s rem => s = rem) zl level fuel l → ∀ (w' iw' : BytesIO) (shas : Bytes × Option Bytes)
      (p : PackFile) (x : IndexFile),
    writePack H zl fuel bytesIORead sink (some sink) (l.map Prod.fst) none level {} {} = (w', iw', .ok shas) →
    PackFile.load w'.data = .ok p → IndexFile.load iw'.data = .ok x →
    ∀ q ∈ l, ∃ fuel', PackEntity.isValidCrc ⟨x, p⟩ fuel' q.1.sha = .ok true

theorem twoBlobs_crc (n : Nat) (hn : 2 ^ 30 ≤ n) (hn' : n < 2 ^ 59) : ¬ C28_full := by
  intro h
  obtain ⟨w', iw', es, isha, h1, e1, e2, h2, h3, hix, hv, hd, h32⟩ :=
    written_spec toyZlib toyZlib_laws bytesIO_reads.toBoundedReads sink_stores sink_stores lenHash (n + 2) 1 (twoBlobs n)
      (twoBlobs_packable n hn') {} ⟨rfl, rfl⟩ {} ⟨rfl, rfl⟩
  have hval := (hix.perm (sortObjs_perm _)).valid
  obtain ⟨fuel', e3⟩ := h toyZlib toyZlib_laws lenHash (n + 2) 1 (twoBlobs n)
    (twoBlobs_packable n hn') w' iw' _ _ _ e1 (by rw [h2.1]; exact packFile_load es _ h32)
    (by rw [h3.1]; exact v2_load _ _ _ hval) (⟨3, 1, List.replicate 20 8, [65]⟩, [65]) (by simp [twoBlobs])
  have hnm : ((sortObjs (idxOf 12 es)).map IdxObj.toEntry).map Entry.name = (sortObjs (idxOf 12 es)).map IdxObj.sha := by
    rw [List.map_map]; rfl
  have hperm := sortObjs_perm (idxOf 12 es)
  have hl := all2_len h1
  cases h1 with
  | cons ha t =>
    cases t with
    | cons hb t' =>
      cases t'
      rename_i e e'
      have hz := (toy_entry_length ha (by simp only [List.length_replicate]; omega)).1
      simp only [List.length_replicate] at hz
      have := isValidCrc_large ((sortObjs (idxOf 12 [e, e'])).map IdxObj.toEntry) (lenHash.digest (packBody [e, e'])) isha
        hval (by rw [hnm]; exact sortObjs_sorted _)
        (by
          rw [hnm]
          exact (hperm.map IdxObj.sha).nodup_iff.2 (by rw [idxOf_sha]; exact hd))
        ⟨_, ⟨packFile [e, e'] (lenHash.digest (packBody [e, e'])), 2, [e, e'].length⟩⟩ rfl
        (IdxObj.toEntry ⟨e'.name, crc32 e'.bytes 0, 12 + e.bytes.length⟩)
        (List.mem_map_of_mem (hperm.mem_iff.2 (by simp [idxOf])))
        (by
          rw [List.length_map, hperm.length_eq, idxOf_length]
          simp only [IdxObj.toEntry, Packed.bytes, List.length_append, hz, List.length_cons, List.length_nil]
          omega) fuel'
      have hname : (IdxObj.toEntry ⟨e'.name, crc32 e'.bytes 0, 12 + e.bytes.length⟩).name = List.replicate 20 8 := hb.1
      rw [hname] at this
      have hbad := this.symm.trans e3
      simp at hbad

/-- **C28** fails for the second of two objects if the first one takes more than 2 GiB in the pack. -/
theorem C28_not_full : ¬ C28_full := twoBlobs_crc (2 ^ 30) (Nat.le_refl _) (by omega)

/-! Instances of the hypotheses: the two blobs, packed with `toyZlib`, which never stalls. -/

theorem toy_fed_noStall (level : Int) (content : Bytes) : HoweverFed toyZlib level content (NoStall toyZlib) := by
  intro ps hps
  have : toyZlib.emit (toyZlib.cinit level) ps = toyEnc ps.flatten := toy_emit ps
  rw [this, hps]
  exact toyEnc_noStall content

example (n : Nat) (hn : n < 2 ^ 59) := C26_roundtrip_partial toyZlib toyZlib_laws bytesIO_reads.toBoundedReads
  sink_stores sink_stores lenHash (n + 2) 1 (twoBlobs n) (twoBlobs_packable n hn) {} ⟨rfl, rfl⟩ {} ⟨rfl, rfl⟩
example := C27_iterate_partial toyZlib toyZlib_laws bytesIO_reads.toBoundedReads
  sink_stores sink_stores lenHash 5 1 (twoBlobs 3) (twoBlobs_packable 3 (by omega)).toPackables {} ⟨rfl, rfl⟩ {} ⟨rfl, rfl⟩
  (by
    have h := fun c => toy_fed_noStall 1 c
    simp only [twoBlobs, List.mem_cons, List.not_mem_nil, or_false, forall_eq_or_imp, forall_eq]
    exact ⟨⟨by decide, by decide, fun ps e => .inr (h _ ps e)⟩, ⟨by decide, by decide, fun ps e => .inr (h _ ps e)⟩⟩)
example := C29_announced (ω₂ := BytesIO) (ρ₂ := Nat) toyZlib toyZlib_laws bytesIO_reads.toBoundedReads sink_stores lenHash 5
  1 (twoBlobs 3) (by simp [GoodIn, twoBlobs]) {} ⟨rfl, rfl⟩ 1 (by omega) (by omega) (by decide) {}
example := C29_missing (ω₂ := BytesIO) (ρ₂ := Nat) toyZlib toyZlib_laws bytesIO_reads.toBoundedReads sink_stores lenHash 5
  1 (twoBlobs 3) (by simp [GoodIn, twoBlobs]) {} ⟨rfl, rfl⟩ 3 (by omega) (by decide) none {}

end GitDB.Props
