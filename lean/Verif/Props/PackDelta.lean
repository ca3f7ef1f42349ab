import Verif.Props.Pack
import Verif.Props.DeltaReader
/-!
# Deltified objects in packs: C30, C31, C32
-/
set_option autoImplicit false

namespace GitDB.Props
open GitDB Spec

variable {zl : Zlib}

/-- The object presents the entry: position, type number, size, and, if its stream does not stall, its content in
all ways of reading it. -/
def Presents (zl : Zlib) (x : Nat × Packed) (o : PackObj) : Prop :=
  o.packOffset = x.1 ∧ o.typeId = x.2.kind.typeId ∧ o.size = x.2.content.length ∧
  (NoStall zl x.2.zip → ∀ ns : List Int, ∃ s' ps, readMany (Reader.read zl) o.stream ns = (s', .ok ps) ∧
    ps.flatten = x.2.content.take (readLen x.2.content.length ns))

theorem presents_chainObj (L : ZlibLaws zl) {pack : Bytes} {x : Nat × Packed} (h : EntryAt zl pack x.1 x.2) :
    Presents zl x (chainObj pack x) := by
  refine ⟨rfl, rfl, rfl, fun hns ns => ?_⟩
  obtain ⟨s', ps, e1, e2, _⟩ := readMany_spec (anyRep_reads L) ns (chainObj pack x).stream x.2.content
    (anyRep_entry L h hns)
  exact ⟨s', ps, e1, e2⟩

theorem all2_map {α β : Type} {R : α → β → Prop} (f : α → β) : ∀ (l : List α), (∀ x ∈ l, R x (f x)) → All2 R l (l.map f)
  | [], _ => .nil
  | x :: l, h => .cons (h x (by simp)) (all2_map f l fun y hy => h y (by simp [hy]))

/-! ## C30: `PackFile.collect_streams` -/

/-- The chain from the entry at `off` starts with the offset deltas `a` and the entry `(o, e)` that is none: that
is what `collect_streams` returns. -/
theorem C30_collects (L : ZlibLaws zl) (p : PackFile) (find : Bytes → Option Nat) (off : Nat)
    (a : List (Nat × Packed)) (o : Nat) (e : Packed) (t : List (Nat × Packed))
    (hc : Chain zl p.data find off (a ++ (o, e) :: t)) (ha : ∀ x ∈ a, x.2.kind.isOfs = true)
    (he : e.kind.isOfs = false) (fuel : Nat) (hf : a.length < fuel) :
    ∃ objs, p.collectStreams fuel off = .ok objs ∧ All2 (Presents zl) (a ++ [(o, e)]) objs := by
  refine ⟨_, (collectStreams_spec p a off o e t fuel hc ha he hf).1, all2_map _ _ fun x hx => ?_⟩
  refine presents_chainObj L (chain_entries hc x ?_)
  simp only [List.mem_append, List.mem_cons, List.not_mem_nil, or_false] at hx ⊢
  exact hx.imp id .inl

/-- On arbitrary data: whatever is returned is a sequence of the entries at the given and at the referenced
positions, up to the first entry that is no offset delta. -/
theorem C30_sound (p : PackFile) (fuel off : Nat) (l : List PackObj) (h : p.collectStreams fuel off = .ok l) :
    l ≠ [] ∧ (∀ o ∈ l, packObjectAt p.data o.packOffset = .ok o) ∧ (l.map PackObj.packOffset).head? = some off ∧
    (∀ i (hi : i + 1 < l.length), ∃ d, l[i].info = .ofs d ∧ d ≤ l[i].packOffset ∧
      l[i + 1].packOffset = l[i].packOffset - d) ∧
    ∀ d, (l.getLast?.map PackObj.info) ≠ some (.ofs d) :=
  collected_sound (collected_iff p fuel off l h)

/-- On arbitrary data: the only way not to terminate is an entry that refers to itself. -/
theorem C30_terminates_partial (p : PackFile) (off : Nat)
    (h : ∀ off' o, off' ≤ off → packObjectAt p.data off' = .ok o → o.info ≠ .ofs 0) (fuel : Nat) (hf : off < fuel) :
    p.collectStreams fuel off ≠ .error .diverge := by
  intro hd
  obtain ⟨off', o, h1, h2, h3⟩ := collectStreams_diverge p fuel off hf hd
  exact h off' o h1 h2 h3

/-- The full statement of **C30**: it terminates. -/
def C30_full : Prop := ∀ (p : PackFile) (off : Nat), ∃ fuel, p.collectStreams fuel off ≠ .error .diverge

/-- An offset delta with distance zero makes it run (and collect) for ever. -/
theorem C30_not_full : ¬ C30_full := by
  intro h
  obtain ⟨fuel, hf⟩ := h ⟨[80, 65, 67, 75, 0, 0, 0, 2, 0, 0, 0, 1, 0x60, 0, 255], 2, 1⟩ 12
  refine hf (collectStreams_zero _ 12 _ rfl rfl fuel)

/-! ## C31: `PackEntity.collect_streams_at_offset` -/

theorem C31_collects_partial (L : ZlibLaws zl) (p : PackEntity) (find : Bytes → Option Nat) (hfi : Finds p.index find)
    (off : Nat) (l : List (Nat × Packed)) (hc : Chain zl p.pack.data find off l) (hs : Straight l) (fuel : Nat)
    (hf : l.length < fuel) :
    ∃ objs, p.collectStreamsAtOffset fuel off = .ok objs ∧ All2 (Presents zl) l objs :=
  ⟨_, collectStreamsAtOffset_spec p hfi off l hc hs fuel hf,
    all2_map _ _ fun x hx => presents_chainObj L (chain_entries hc x hx)⟩

/-- The same by name. -/
theorem C31_by_name_partial (L : ZlibLaws zl) (p : PackEntity) (find : Bytes → Option Nat) (hfi : Finds p.index find)
    (name : Bytes) (hn : name.length = 20) (off : Nat) (ho : find name = some off)
    (l : List (Nat × Packed)) (hc : Chain zl p.pack.data find off l) (hs : Straight l) (fuel : Nat)
    (hf : l.length < fuel) :
    ∃ objs, p.collectStreams fuel name = .ok objs ∧ All2 (Presents zl) l objs := by
  obtain ⟨objs, h1, h2⟩ := C31_collects_partial L p find hfi off l hc hs fuel hf
  refine ⟨objs, ?_, h2⟩
  have := hfi name hn
  rw [ho] at this
  obtain ⟨_, j, h3, h4⟩ := this
  unfold PackEntity.collectStreams PackEntity.shaToIndex
  simp only [h3, h4]
  exact h1

/-- Names that are not in the index raise `BadObject`. -/
theorem C31_unknown (p : PackEntity) (find : Bytes → Option Nat) (hfi : Finds p.index find)
    (name : Bytes) (hn : name.length = 20) (ho : find name = none) (fuel : Nat) :
    p.collectStreams fuel name = .error .badObject := by
  have := hfi name hn
  rw [ho] at this
  unfold PackEntity.collectStreams PackEntity.shaToIndex
  simp only [this]

/-- A reference delta against itself is followed for ever. -/
theorem C31_cycle (p : PackEntity) (find : Bytes → Option Nat) (hfi : Finds p.index find)
    (off : Nat) (e : Packed) (he : EntryAt zl p.pack.data off e) (name : Bytes) (hk : e.kind = .ref name)
    (hn : find name = some off) (fuel : Nat) : p.collectStreamsAtOffset fuel off = .error .diverge := by
  unfold PackEntity.collectStreamsAtOffset
  cases fuel with
  | zero => rfl
  | succ fuel =>
    have hc : p.pack.collectStreams (fuel + 1) off = .ok [entryObj p.pack.data off e] := by
      rw [PackFile.collectStreams, packObjectAt_spec he]
      simp [entryObj, hk, kindInfo]
    have ht : (entryObj p.pack.data off e).typeId = REF_DELTA := by simp [entryObj, hk, Kind.typeId, REF_DELTA]
    simp only [hc, List.getLast?_singleton, ht, if_true]
    rw [resolveRefs_cycle p hfi he hk hn]

/-- The full statement of **C31**, for packs and indices as git writes them. -/
def C31_full : Prop :=
  ∀ (zl : Zlib), ZlibLaws zl → ∀ (es : List Packed), (∀ e ∈ es, e.Valid zl) → Indexable (idxOf 12 es) →
    (es.map Packed.name).Nodup → ∀ (packSha idxSha : Bytes) (off : Nat) (l : List (Nat × Packed)),
    Chain zl (packFile es packSha) (offsetIn es) off l →
    ∃ fuel objs, PackEntity.collectStreamsAtOffset
      ⟨v2File ((sortObjs (idxOf 12 es)).map IdxObj.toEntry) packSha idxSha, ⟨packFile es packSha, 2, es.length⟩⟩ fuel off
        = .ok objs ∧
      All2 (Presents zl) l objs

/-! Three entries: a blob, a delta against it, a delta against that; the two deltas in both forms. -/

def entry (name : UInt8) (kind : Kind) (content hdr ext : Bytes) : Packed :=
  ⟨List.replicate 20 name, kind, content, hdr, ext, content ++ [255]⟩

theorem entry_valid (name : UInt8) (kind : Kind) (content ext : Bytes) (b : UInt8) (hp : Plain content)
    (hb : more b = false) (ht : b.toNat / 16 % 8 = kind.typeId) (hs : b.toNat % 16 = content.length)
    (he : kind.Ext ext) : (entry name kind content [b] ext).Valid toyZlib := by
  refine ⟨⟨b, [], rfl, ⟨[], b, rfl, by simp, hb⟩, ht, by simpa [leValue, entry] using hs⟩, he, ?_⟩
  have := plain_isZip content [] hp
  simpa [entry] using this

def blobE : Packed := entry 1 (.whole 3) exBase [0x33] []
def commitE : Packed := entry 0 (.whole 1) exBase [0x13] []
def fillE : Packed := entry 2 (.whole 3) [1, 2, 3, 4, 5] [0x35] []
def firstOfs : Packed := entry 3 (.ofs 12) exD1.bytes [0x67] [12]
def firstRef : Packed := entry 2 (.ref (List.replicate 20 1)) exD1.bytes [0x77] (List.replicate 20 1)
def secondOfs : Packed := entry 3 (.ofs 29) exD2.bytes [0x67] [29]
def secondRef : Packed := entry 4 (.ref (List.replicate 20 3)) exD2.bytes [0x77] (List.replicate 20 3)

theorem term_one (b : UInt8) (h : more b = false) : Terminated [b] := ⟨[], b, rfl, by simp, h⟩

theorem exBase_plain : Plain exBase := by intro c hc; revert c; decide
theorem exD1_plain : Plain exD1.bytes := by intro c hc; revert c; decide
theorem exD2_plain : Plain exD2.bytes := by intro c hc; revert c; decide

theorem blobE_valid : blobE.Valid toyZlib :=
  entry_valid _ _ _ _ _ exBase_plain (by decide) (by decide) (by decide) ⟨by decide, by decide, rfl⟩
theorem commitE_valid : commitE.Valid toyZlib :=
  entry_valid _ _ _ _ _ exBase_plain (by decide) (by decide) (by decide) ⟨by decide, by decide, rfl⟩
theorem fillE_valid : fillE.Valid toyZlib :=
  entry_valid _ _ _ _ _ (by intro c hc; revert c; decide) (by decide) (by decide) (by decide) ⟨by decide, by decide, rfl⟩
theorem firstOfs_valid : firstOfs.Valid toyZlib :=
  entry_valid _ _ _ _ _ exD1_plain (by decide) (by decide) (by decide) ⟨term_one 12 (by decide), by decide⟩
theorem firstRef_valid : firstRef.Valid toyZlib :=
  entry_valid _ _ _ _ _ exD1_plain (by decide) (by decide) (by decide) ⟨by decide, rfl⟩
theorem secondOfs_valid : secondOfs.Valid toyZlib :=
  entry_valid _ _ _ _ _ exD2_plain (by decide) (by decide) (by decide) ⟨term_one 29 (by decide), by decide⟩
theorem secondRef_valid : secondRef.Valid toyZlib :=
  entry_valid _ _ _ _ _ exD2_plain (by decide) (by decide) (by decide) ⟨by decide, rfl⟩

/-- Blob, reference delta, offset delta: a chain that the code follows. -/
def goodPack : List Packed := [blobE, firstRef, secondOfs]
/-- Commit, blob, another blob, offset delta against the first blob, reference delta. -/
def badPack : List Packed := [commitE, blobE, fillE, firstOfs, secondRef]

theorem goodPack_valid : ∀ e ∈ goodPack, e.Valid toyZlib := by
  simp only [goodPack, List.mem_cons, List.not_mem_nil, or_false, forall_eq_or_imp, forall_eq]
  exact ⟨blobE_valid, firstRef_valid, secondOfs_valid⟩
theorem badPack_valid : ∀ e ∈ badPack, e.Valid toyZlib := by
  simp only [badPack, List.mem_cons, List.not_mem_nil, or_false, forall_eq_or_imp, forall_eq]
  exact ⟨commitE_valid, blobE_valid, fillE_valid, firstOfs_valid, secondRef_valid⟩

theorem goodPack_indexable : Indexable (idxOf 12 goodPack) := ⟨by decide +kernel, by decide +kernel, by decide +kernel, by decide +kernel⟩
theorem badPack_indexable : Indexable (idxOf 12 badPack) := ⟨by decide +kernel, by decide +kernel, by decide +kernel, by decide +kernel⟩

/-- The chains of the last entries. -/
def goodChain : List (Nat × Packed) := [(46, secondOfs), (17, firstRef), (12, blobE)]
def badChain : List (Nat × Packed) := [(39, secondRef), (29, firstOfs), (17, blobE)]

theorem goodChain_chain (packSha : Bytes) : Chain toyZlib (packFile goodPack packSha) (offsetIn goodPack) 46 goodChain := by
  have h := fun i hi => packFile_entryAt goodPack_valid packSha i hi
  refine .ofs (back := 29) (h 2 (by decide)) rfl (by decide) (.ref (off' := 12) (name := List.replicate 20 1) (h 1 (by decide)) rfl (by decide) ?_)
  exact .whole (t := 3) (h 0 (by decide)) rfl

theorem badChain_chain (packSha : Bytes) : Chain toyZlib (packFile badPack packSha) (offsetIn badPack) 39 badChain := by
  have h := fun i hi => packFile_entryAt badPack_valid packSha i hi
  refine .ref (off' := 29) (name := List.replicate 20 3) (h 4 (by decide)) rfl (by decide) (.ofs (back := 12) (h 3 (by decide)) rfl (by decide) ?_)
  exact .whole (t := 3) (h 1 (by decide)) rfl

/-- Pack and index of a list of entries. -/
def entityOf (es : List Packed) : PackEntity :=
  ⟨v2File ((sortObjs (idxOf 12 es)).map IdxObj.toEntry) (List.replicate 20 0) (List.replicate 20 0),
    ⟨packFile es (List.replicate 20 0), 2, es.length⟩⟩

theorem badPack_sorted : sortObjs (idxOf 12 badPack) = idxOf 12 badPack :=
  List.mergeSort_of_pairwise (by decide +kernel)

theorem badPack_collected : ((entityOf badPack).collectStreamsAtOffset 5 39).map (fun l => l.map PackObj.packOffset) =
    .ok [39, 29, 12] := by
  unfold entityOf
  rw [badPack_sorted]
  decide +kernel

/-- **C31** fails for a reference delta against an offset delta: the distance is taken for a position, and
the entry there, a commit, for the base. -/
theorem C31_not_full : ¬ C31_full := by
  intro h
  obtain ⟨fuel, objs, h1, h2⟩ := h toyZlib toyZlib_laws badPack badPack_valid badPack_indexable (by decide)
    (List.replicate 20 0) (List.replicate 20 0) 39 badChain (badChain_chain _)
  have h3 := badPack_collected
  rcases hc : (entityOf badPack).collectStreamsAtOffset 5 39 with e | objs'
  · rw [hc] at h3; simp [Except.map] at h3
  · rw [hc] at h3
    have h4 := collectStreamsAtOffset_mono _ 5 (max fuel 5) 39 objs' (by omega) hc
    have h5 := collectStreamsAtOffset_mono _ fuel (max fuel 5) 39 objs (by omega) h1
    have h6 := h4.symm.trans h5
    simp only [Except.ok.injEq] at h6
    subst h6
    cases h2 with | cons a t => cases t with | cons b t => cases t with | cons c t =>
      cases t
      have h7 := c.1
      simp [Except.map, a.1, b.1, h7] at h3

example := C31_collects_partial toyZlib_laws (entityOf goodPack) (offsetIn goodPack)
  (finds_lists (lists_written goodPack _ _ goodPack_indexable (by decide))) 46 goodChain (goodChain_chain _)
  ⟨[(46, secondOfs)], [(17, firstRef), (12, blobE)], rfl, by simp [secondOfs, entry, Kind.isOfs],
    by simp [firstRef, blobE, entry, Kind.isOfs]⟩ 4 (by decide)

/-! ## C32: `info` and `stream` of deltified objects -/

section
theorem found_of_find (p : PackEntity) (find : Bytes → Option Nat) (hfi : Finds p.index find) (sha : Bytes)
    (hsha : sha.length = 20) (off : Nat) (hf : find sha = some off) : Found p sha off := by
  have := hfi sha hsha
  rw [hf] at this
  exact ⟨this.1, this.2⟩

variable (L : ZlibLaws zl) (p : PackEntity) (find : Bytes → Option Nat) (hfi : Finds p.index find) (sha : Bytes)
  (hsha : sha.length = 20) (off : Nat) (hf : find sha = some off) (l : List (Nat × Packed))
  (hc : Chain zl p.pack.data find off l) (hs : Straight l) (ds : List DeltaObj) (base : Bytes) (t : Nat)
  (hd : Deltified zl l ds base t) (nm : Bytes) (ht : typeName t = some nm)
include L hfi hsha hf hc hs hd ht

/-- The object of a delta chain over a base object of type `nm`: `info` and `stream` report that type and the
length of the resolved content, `stream` delivers that content however it is read, and verification against the
name accepts it if and only if the digest is the name. -/
theorem C32_info_stream_partial (H : Hash) : ∃ F, ∀ fuel, F ≤ fuel → ∃ o,
    p.info zl fuel sha = .ok (.bytes nm, (resolveChain base ds).length) ∧
    p.stream fuel sha = .ok o ∧ o.sha = sha ∧ o.type = .bytes nm ∧
    o.getSize zl fuel = .ok (resolveChain base ds).length ∧
    (∀ ns : List Int, ∃ s' ps, readMany (PStream.read zl fuel) o.stream ns = (s', .ok ps) ∧
      ps.flatten = (resolveChain base ds).take (readLen (resolveChain base ds).length ns)) ∧
    p.isValidSha H zl fuel sha =
      (if H.digest (nm ++ [0x20] ++ natToDec (resolveChain base ds).length ++ [0] ++ resolveChain base ds) = sha
        then .ok true else .error .assertionError) := by
  have hfound := found_of_find p find hfi sha hsha off hf
  obtain ⟨F1, h1⟩ := stream_delta L p find hfi sha off hfound l hc hs ds base t hd nm ht
  obtain ⟨F2, h2⟩ := info_delta L p find hfi sha off hfound l hc hs ds base t hd nm ht
  refine ⟨max (max F1 F2) ((resolveChain base ds).length + 1), fun fuel hfu => ?_⟩
  obtain ⟨r, a1, a2, a3, a4⟩ := h1 fuel (by omega)
  have hrep : PRep zl fuel (PStream.delta (l.map (chainObj p.pack.data))) (resolveChain base ds) :=
    .inr ⟨r, _, a2, a4⟩
  have hsz : OStream.getSize zl fuel ⟨sha, .bytes nm, none, .delta (l.map (chainObj p.pack.data))⟩ =
      .ok (resolveChain base ds).length := by
    simp [OStream.getSize, a2, a3]
  refine ⟨_, h2 fuel (by omega), a1, rfl, rfl, hsz, fun ns => ?_, ?_⟩
  · obtain ⟨s', ps, e1, e2, _⟩ := readMany_spec (pRep_reads L fuel) ns _ _ hrep
    exact ⟨s', ps, e1, e2⟩
  · exact isValidSha_spec L H p sha fuel _ nm _ a1 rfl (typeIdToType_name ht).2.2 hsz hrep (by omega)

end

/-- A chain that ends with a name that is not in the pack: `info` raises `BadObject`, `stream` raises `ValueError`. -/
theorem C32_thin (L : ZlibLaws zl) (p : PackEntity) (find : Bytes → Option Nat) (hfi : Finds p.index find)
    (sha : Bytes) (hsha : sha.length = 20) (off : Nat) (hf : find sha = some off) (x : Nat × Packed)
    (l : List (Nat × Packed)) (hc : Chain zl p.pack.data find off (x :: l)) (hs : Straight (x :: l))
    (last : Nat × Packed) (hl : (x :: l).getLast? = some last) (name : Bytes) (hk : last.2.kind = .ref name)
    (hns : Flows zl 512 x.2.zip) (d : DeltaObj) (hd : x.2.content = d.bytes)
    (h1 : Terminated d.src) (h2 : Terminated d.tgt) (h3 : d.src.length + d.tgt.length ≤ 512) (fuel : Nat)
    (hfu : l.length + 1 < fuel) :
    p.info zl fuel sha = .error .badObject ∧ p.stream fuel sha = .error .valueError :=
  have hfo := found_of_find p find hfi sha hsha off hf
  ⟨info_thin p find hfi sha off hfo x l hc hs last hl name hk L hns d hd h1 h2 h3 fuel hfu,
    stream_thin p find hfi sha off hfo x l hc hs last hl name hk fuel hfu⟩

theorem ex_chainFits : ChainFits exBase [exD1, exD2] := by
  refine ⟨?_, ?_, trivial⟩
  · refine ⟨⟨[], 3, rfl, by simp, by decide⟩, ⟨[], 3, rfl, by simp, by decide⟩, by decide, by decide,
      by decide, ?_⟩
    simp [exD1, exBase, Instr.Valid, copyOff, copySize, opVal]
  · refine ⟨⟨[0x83], 0, rfl, by simp; decide, by decide⟩, ⟨[], 4, rfl, by simp, by decide⟩, by decide, by decide,
      by decide, ?_⟩
    simp [exD1, exD2, exBase, Instr.Valid, copyOff, copySize, opVal, DeltaObj.run, runAll, Instr.run]

theorem entry_noStall (name : UInt8) (kind : Kind) (content hdr ext : Bytes) (hp : Plain content) :
    Flows toyZlib 512 (entry name kind content hdr ext).zip :=
  flows_of_noStall toyZlib_laws (plain_isZip content [] hp) (plain_noStall content [] hp) 512

theorem goodChain_deltified : Deltified toyZlib goodChain [exD1, exD2] exBase 3 where
  nonempty := by simp
  fits := ex_chainFits
  shape := ⟨[(46, secondOfs), (17, firstRef)], 12, blobE, rfl, rfl, rfl, rfl⟩
  flowing := by
    simp only [goodChain, List.mem_cons, List.not_mem_nil, or_false, forall_eq_or_imp, forall_eq]
    exact ⟨entry_noStall _ _ _ _ _ exD2_plain, entry_noStall _ _ _ _ _ exD1_plain, entry_noStall _ _ _ _ _ exBase_plain⟩

theorem badChain_deltified : Deltified toyZlib badChain [exD1, exD2] exBase 3 where
  nonempty := by simp
  fits := ex_chainFits
  shape := ⟨[(39, secondRef), (29, firstOfs)], 17, blobE, rfl, rfl, rfl, rfl⟩
  flowing := by
    simp only [badChain, List.mem_cons, List.not_mem_nil, or_false, forall_eq_or_imp, forall_eq]
    exact ⟨entry_noStall _ _ _ _ _ exD2_plain, entry_noStall _ _ _ _ _ exD1_plain, entry_noStall _ _ _ _ _ exBase_plain⟩

example (H : Hash) := C32_info_stream_partial toyZlib_laws (entityOf goodPack) (offsetIn goodPack)
  (finds_lists (lists_written goodPack _ _ goodPack_indexable (by decide))) (List.replicate 20 3) rfl 46 (by decide)
  goodChain (goodChain_chain _)
  ⟨[(46, secondOfs)], [(17, firstRef), (12, blobE)], rfl, by simp [secondOfs, entry, Kind.isOfs],
    by simp [firstRef, blobE, entry, Kind.isOfs]⟩ _ _ _ goodChain_deltified _ rfl H

/-- The full statement of **C32**, for packs and indices as git writes them. -/
def C32_full : Prop :=
  ∀ (zl : Zlib), ZlibLaws zl → ∀ (es : List Packed), (∀ e ∈ es, e.Valid zl) → Indexable (idxOf 12 es) →
    (es.map Packed.name).Nodup → ∀ (sha : Bytes) (off : Nat), offsetIn es sha = some off →
    ∀ (l : List (Nat × Packed)), Chain zl (entityOf es).pack.data (offsetIn es) off l →
    ∀ (ds : List DeltaObj) (base : Bytes) (t : Nat), Deltified zl l ds base t → ∀ nm, typeName t = some nm →
    ∃ F, ∀ fuel, F ≤ fuel → (entityOf es).info zl fuel sha = .ok (.bytes nm, (resolveChain base ds).length)

theorem badPack_info : (entityOf badPack).info toyZlib 5 (List.replicate 20 4) = .ok (.bytes [99, 111, 109, 109, 105, 116], 4) := by
  unfold entityOf
  rw [badPack_sorted]
  decide +kernel

/-- **C32** inherits the failure of **C31**: the blob is reported as a commit. -/
theorem C32_not_full : ¬ C32_full := by
  intro h
  obtain ⟨F, hF⟩ := h toyZlib toyZlib_laws badPack badPack_valid badPack_indexable (by decide) (List.replicate 20 4) 39
    (by decide) badChain (badChain_chain _) _ _ _ badChain_deltified _ rfl
  have h1 := hF (max F 5) (by omega)
  have h2 := info_mono (zl := toyZlib) (entityOf badPack) 5 (max F 5) _ _ (by omega) badPack_info
  rw [h1] at h2
  revert h2
  decide

/-- The delta of `goodPack` in a pack without its base. -/
def thinPack : List Packed := [firstRef]

theorem thinPack_valid : ∀ e ∈ thinPack, e.Valid toyZlib := by
  simpa [thinPack] using firstRef_valid
theorem thinPack_indexable : Indexable (idxOf 12 thinPack) := ⟨by decide +kernel, by decide +kernel, by decide +kernel, by decide +kernel⟩

example := C32_thin toyZlib_laws (entityOf thinPack) (offsetIn thinPack)
  (finds_lists (lists_written thinPack _ _ thinPack_indexable (by decide))) (List.replicate 20 2) rfl 12 (by decide)
  (12, firstRef) [] (.missing (name := List.replicate 20 1) (packFile_entryAt thinPack_valid _ 0 (by decide)) rfl (by decide))
  ⟨[], [(12, firstRef)], rfl, by simp, by simp [firstRef, entry, Kind.isOfs]⟩ _ rfl _ rfl
  (entry_noStall _ _ _ _ _ exD1_plain) exD1 rfl (term_one 3 (by decide)) (term_one 3 (by decide)) (by decide) 2 (by decide)

example : Chain toyZlib (packFile goodPack []) (offsetIn goodPack) 46 ([(46, secondOfs)] ++ (17, firstRef) :: [(12, blobE)]) :=
  goodChain_chain []

end GitDB.Props
