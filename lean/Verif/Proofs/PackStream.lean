import Verif.Proofs.PackChain
import Verif.Props.DeltaReader
/-!
# Objects of a pack: `PackEntity.stream`, `info` and `is_valid_stream`
-/
set_option autoImplicit false

namespace GitDB
open Spec

variable {zl : Zlib}

/-- A stream of a pack in front of `rem`. -/
def PRep (zl : Zlib) (fuel : Nat) (s : PStream) (rem : Bytes) : Prop :=
  (∃ r m clen content, s = .base r ∧ IsZip zl m clen content ∧ NoStall zl m ∧
    SizeRep zl m clen content r rem) ∨
  ∃ r content, s.open zl fuel = .ok (.resolved r) ∧ DeltaReader.Delivers content r rem

theorem pRep_reads (L : ZlibLaws zl) (fuel : Nat) : ObjectReads (PStream.read zl fuel) (PRep zl fuel) := by
  constructor
  · constructor
    rintro s rem n (⟨r, m, clen, content, rfl, h1, h2, h3⟩ | ⟨r, content, h1, h2⟩) hn
    · obtain ⟨r', e, h⟩ := (sizeRep_reads L h1 h2).read_pos r rem n h3 hn
      exact ⟨.base r', by simp [PStream.read, PStream.open, e], .inl ⟨r', m, clen, content, rfl, h1, h2, h⟩⟩
    · obtain ⟨r', e, h⟩ := (deltaReader_objectReads content).read_pos r rem n h2 hn
      simp only [Prod.mk.injEq, Except.ok.injEq] at e
      exact ⟨.resolved r', by simp [PStream.read, h1, e.1, e.2], .inr ⟨r', content, rfl, h⟩⟩
  · rintro s rem n (⟨r, m, clen, content, rfl, h1, h2, h3⟩ | ⟨r, content, h1, h2⟩) hn
    · obtain ⟨r', e, h⟩ := (sizeRep_reads L h1 h2).read_all r rem n h3 hn
      exact ⟨.base r', by simp [PStream.read, PStream.open, e], .inl ⟨r', m, clen, content, rfl, h1, h2, h⟩⟩
    · obtain ⟨r', e, h⟩ := (deltaReader_objectReads content).read_all r rem n h2 hn
      simp only [Prod.mk.injEq, Except.ok.injEq] at e
      exact ⟨.resolved r', by simp [PStream.read, h1, e.1, e.2], .inr ⟨r', content, rfl, h⟩⟩

theorem typeIdToType_name {t : Nat} {nm : Bytes} (h : typeName t = some nm) :
    typeIdToType t = .ok (.bytes nm) ∧ t < 6 ∧ ∀ b ∈ nm, b.toNat < 128 := by
  unfold typeName at h
  split at h
  all_goals first
    | (simp at h; done)
    | (simp only [Option.some.injEq] at h; subst h; decide)

/-- An object of the pack that is found by the index. -/
structure Found (p : PackEntity) (sha : Bytes) (off : Nat) : Prop where
  ne : off ≠ 0
  found : ∃ i, p.index.shaToIndex sha = .ok (some i) ∧ p.index.offset i = .ok off

theorem entry_zip (L : ZlibLaws zl) {pack : Bytes} {off : Nat} {e : Packed} (h : EntryAt zl pack off e)
    (hns : NoStall zl e.zip) : ∃ m, (entryObj pack off e).stream = Reader.ofSize m e.content.length ∧
      IsZip zl m e.zip.length e.content ∧ NoStall zl m := by
  obtain ⟨rest, hd⟩ := entryAt_data h
  refine ⟨e.zip ++ rest, ?_, isZip_append L h.1.zip rest, noStall_append L h.1.zip hns rest⟩
  rw [← hd]; rfl

/-! ### undeltified objects -/

theorem stream_whole (p : PackEntity) (sha : Bytes) (off : Nat) (hf : Found p sha off)
    (e : Packed) (h : EntryAt zl p.pack.data off e) (t : Nat) (hk : e.kind = .whole t) (nm : Bytes)
    (ht : typeName t = some nm) (fuel : Nat) :
    p.stream fuel sha = .ok ⟨sha, .bytes nm, some e.content.length, .base (entryObj p.pack.data off e).stream⟩ ∧
    p.info zl fuel sha = .ok (.bytes nm, e.content.length) := by
  obtain ⟨h0, i, h1, h2⟩ := hf
  obtain ⟨ht1, ht2, _⟩ := typeIdToType_name ht
  have hh := entryAt_header h
  have hti : e.kind.typeId = t := by rw [hk]; rfl
  have h67 : t ≠ OFS_DELTA ∧ t ≠ REF_DELTA := by unfold OFS_DELTA REF_DELTA; omega
  constructor
  · unfold PackEntity.stream PackEntity.shaToIndex
    simp only [h1]
    unfold PackEntity.streamAt PackFile.stream
    simp only [h2, hh, hti]
    rw [if_pos h67, if_neg h0, packObjectAt_spec h]
    simp [entryObj, hti, ht1]
  · unfold PackEntity.info PackEntity.shaToIndex
    simp only [h1]
    unfold PackEntity.infoAt
    simp only [h2, hh, hti]
    rw [if_pos h67, ht1]

theorem prep_whole (L : ZlibLaws zl) {pack : Bytes} {off : Nat} {e : Packed} (h : EntryAt zl pack off e)
    (hns : NoStall zl e.zip) (fuel : Nat) : PRep zl fuel (.base (entryObj pack off e).stream) e.content := by
  obtain ⟨m, h1, h2, h3⟩ := entry_zip L h hns
  exact .inl ⟨_, m, _, _, rfl, h2, h3, by rw [h1]; exact sizeRep_ofSize L h2⟩

/-! ### deltified objects -/

theorem chain_entries {pack : Bytes} {find : Bytes → Option Nat} {off : Nat} {l : List (Nat × Packed)}
    (h : Chain zl pack find off l) : ∀ x ∈ l, EntryAt zl pack x.1 x.2 := by
  induction h with
  | whole h _ => simpa using h
  | missing h _ _ => simpa using h
  | ref h _ _ _ ih => simpa using ⟨h, fun a b hab => ih (a, b) hab⟩
  | ofs h _ _ _ ih => simpa using ⟨h, fun a b hab => ih (a, b) hab⟩

theorem chain_delta {pack : Bytes} {find : Bytes → Option Nat} {off : Nat} {x : Nat × Packed}
    {l : List (Nat × Packed)} (h : Chain zl pack find off (x :: l)) (hne : l ≠ []) :
    x.2.kind.typeId = OFS_DELTA ∨ x.2.kind.typeId = REF_DELTA := by
  cases h with
  | whole h _ => exact absurd rfl hne
  | missing h _ _ => exact absurd rfl hne
  | ref h hk _ _ => right; simp [hk, Kind.typeId, REF_DELTA]
  | ofs h hk _ _ => left; simp [hk, Kind.typeId, OFS_DELTA]

theorem all2_of_map {dl : List (Nat × Packed)} {ds : List DeltaObj} (f : Nat × Packed → Reader × Nat)
    (R : DeltaObj → Reader × Nat → Prop) (hR : ∀ x ∈ dl, ∀ d : DeltaObj, x.2.content = d.bytes → R d (f x))
    (h : dl.map (fun x => x.2.content) = ds.map DeltaObj.bytes) : All2 R ds (dl.map f) := by
  induction dl generalizing ds with
  | nil => cases ds with
    | nil => exact .nil
    | cons d ds => simp at h
  | cons x dl ih =>
    cases ds with
    | nil => simp at h
    | cons d ds =>
      simp only [List.map_cons, List.cons.injEq] at h
      exact .cons (hR x (by simp) d h.1) (ih (fun y hy => hR y (by simp [hy])) h.2)

/-- One relation for readers of different compressed streams. -/
def AnyRep (zl : Zlib) (r : Reader) (rem : Bytes) : Prop :=
  ∃ m clen content, IsZip zl m clen content ∧ NoStall zl m ∧ SizeRep zl m clen content r rem

theorem anyRep_reads (L : ZlibLaws zl) : ObjectReads (Reader.read zl) (AnyRep zl) := by
  constructor
  · constructor
    rintro r rem n ⟨m, clen, content, h1, h2, h3⟩ hn
    obtain ⟨r', e, h⟩ := (sizeRep_reads L h1 h2).read_pos r rem n h3 hn
    exact ⟨r', e, m, clen, content, h1, h2, h⟩
  · rintro r rem n ⟨m, clen, content, h1, h2, h3⟩ hn
    obtain ⟨r', e, h⟩ := (sizeRep_reads L h1 h2).read_all r rem n h3 hn
    exact ⟨r', e, m, clen, content, h1, h2, h⟩

theorem anyRep_entry (L : ZlibLaws zl) {pack : Bytes} {off : Nat} {e : Packed} (h : EntryAt zl pack off e)
    (hns : NoStall zl e.zip) : AnyRep zl (entryObj pack off e).stream e.content := by
  obtain ⟨m, h1, h2, h3⟩ := entry_zip L h hns
  exact ⟨m, _, _, h2, h3, by rw [h1]; exact sizeRep_ofSize L h2⟩

/-- The same for streams that need large reads. -/
def AnyFlow (zl : Zlib) (r : Reader) (rem : Bytes) : Prop :=
  ∃ m clen content, IsZip zl m clen content ∧ Flows zl 512 m ∧ FlowRep zl m clen content r rem

theorem anyFlow_reads (L : ZlibLaws zl) : ObjectReadsFrom 512 (Reader.read zl) (AnyFlow zl) := by
  constructor
  · constructor
    rintro r rem n ⟨m, clen, content, h1, h2, h3⟩ hn hk
    obtain ⟨r', e, h⟩ := (flowRep_reads L h1 512 h2).read_pos r rem n h3 hn hk
    exact ⟨r', e, m, clen, content, h1, h2, h⟩
  · rintro r rem n ⟨m, clen, content, h1, h2, h3⟩ hn
    obtain ⟨r', e, h⟩ := (flowRep_reads L h1 512 h2).read_all r rem n h3 hn
    exact ⟨r', e, m, clen, content, h1, h2, h⟩

theorem anyFlow_entry (L : ZlibLaws zl) {pack : Bytes} {off : Nat} {e : Packed} (h : EntryAt zl pack off e)
    (hfl : Flows zl 512 e.zip) : AnyFlow zl (entryObj pack off e).stream e.content := by
  obtain ⟨rest, hd⟩ := entryAt_data h
  have hz := isZip_append L h.1.zip rest
  refine ⟨e.zip ++ rest, _, _, hz, flows_append L h.1.zip hfl rest, ?_⟩
  have : (entryObj pack off e).stream = Reader.ofSize (e.zip ++ rest) e.content.length := by rw [← hd]; rfl
  rw [this]
  exact flowRep_ofSize L hz

section
variable (L : ZlibLaws zl) (p : PackEntity) (find : Bytes → Option Nat) (hfi : Finds p.index find) (sha : Bytes)
  (off : Nat) (hf : Found p sha off) (l : List (Nat × Packed)) (hc : Chain zl p.pack.data find off l)
  (hs : Straight l) (ds : List DeltaObj) (base : Bytes) (t : Nat) (hd : Deltified zl l ds base t) (nm : Bytes)
  (ht : typeName t = some nm)
include L hfi hf hc hs hd ht

theorem stream_delta : ∃ F, ∀ fuel, F ≤ fuel → ∃ r,
    p.stream fuel sha = .ok ⟨sha, .bytes nm, none, .delta (l.map (chainObj p.pack.data))⟩ ∧
    (PStream.delta (l.map (chainObj p.pack.data))).open zl fuel = .ok (.resolved r) ∧
    r.size = (resolveChain base ds).length ∧ DeltaReader.Delivers (resolveChain base ds) r (resolveChain base ds) := by
  obtain ⟨dl, bo, be, rfl, hbk, rfl, hcont⟩ := hd.shape
  have hen := chain_entries hc
  have hdl : dl ≠ [] := by
    intro h0
    subst h0
    have := congrArg List.length hcont
    have := List.length_pos_iff.mpr hd.nonempty
    simp_all
  obtain ⟨x, dl', rfl⟩ := List.exists_cons_of_ne_nil hdl
  obtain ⟨ht1, ht2, _⟩ := typeIdToType_name ht
  have hbe : EntryAt zl p.pack.data bo be := hen (bo, be) (by simp)
  obtain ⟨F, hF⟩ := setCacheBrute_spec (anyFlow_reads L) be.content ds hd.nonempty hd.fits
    (entryObj p.pack.data bo be).stream (anyFlow_entry L hbe (hd.flowing (bo, be) (by simp)))
    ((x :: dl').map fun y => ((chainObj p.pack.data y).stream, (chainObj p.pack.data y).size))
    (all2_of_map _ _ (fun y hy d hyd => by
      refine ⟨?_, ?_⟩
      · rw [← hyd]
        exact anyFlow_entry L (hen y (by simp only [List.mem_append]; exact .inl hy))
          (hd.flowing y (by simp only [List.mem_append]; exact .inl hy))
      · rw [← hyd]; rfl) hcont)
  refine ⟨max F ((x :: dl' ++ [(bo, be)]).length + 1), fun fuel hfu => ?_⟩
  obtain ⟨b, e1, e2, e3⟩ := hF fuel (by omega)
  refine ⟨⟨b, (resolveChain be.content ds).length, 0⟩, ?_, ?_, rfl, rfl, e2, e3, Nat.zero_le _, by simp⟩
  · obtain ⟨h0, i, h1, h2⟩ := hf
    obtain ⟨e', t', h4, h5⟩ := chain_head hc
    have hx : x = (off, e') := by
      simp only [List.cons_append, List.cons.injEq] at h4; exact h4.1
    have hty := chain_delta hc (by simp)
    rw [hx] at hty
    unfold PackEntity.stream PackEntity.shaToIndex
    simp only [h1]
    unfold PackEntity.streamAt
    have hh := entryAt_header h5
    simp only [h2, hh]
    rw [if_neg (by
      rcases hty with h | h
      · exact fun hh => hh.1 h
      · exact fun hh => hh.2 h),
      collectStreamsAtOffset_spec p hfi off _ hc hs fuel (by omega)]
    simp only
    unfold deltaNew
    have hlast : ((x :: dl' ++ [(bo, be)]).map (chainObj p.pack.data)).getLast? =
        some (entryObj p.pack.data bo be) := by
      rw [List.map_append, List.map_singleton, List.getLast?_concat]; rfl
    have htid : (entryObj p.pack.data bo be).typeId = t := by
      show be.kind.typeId = t
      rw [hbk]; rfl
    rw [if_neg (by simp)]
    simp only [hlast, htid]
    rw [if_neg (by unfold OFS_DELTA REF_DELTA; omega), ht1]
  · unfold PStream.open newDeltaReader
    simp only [List.map_append, List.map_map, List.map_singleton, List.reverse_append, List.reverse_singleton,
      List.singleton_append]
    have hsz : (chainObj p.pack.data (bo, be)).size = be.content.length := rfl
    rcases hrev : (List.map ((fun o => (o.stream, o.size)) ∘ chainObj p.pack.data) (x :: dl')).reverse with _ | ⟨y, ys⟩
    · simp at hrev
    · rw [hrev]
      have e1' : setCacheBrute fuel (Reader.read zl) (y :: ys).reverse
          ((chainObj p.pack.data (bo, be)).stream, (chainObj p.pack.data (bo, be)).size) =
          .ok (b, (resolveChain be.content ds).length) := by
        rw [← hrev, List.reverse_reverse, hsz]; exact e1
      simp only [e1', bind, Except.bind, pure, Except.pure]

theorem info_delta : ∃ F, ∀ fuel, F ≤ fuel →
    p.info zl fuel sha = .ok (.bytes nm, (resolveChain base ds).length) := by
  obtain ⟨dl, bo, be, rfl, hbk, rfl, hcont⟩ := hd.shape
  have hen := chain_entries hc
  obtain ⟨ds', d, hds⟩ : ∃ ds' d, ds = ds' ++ [d] :=
    ⟨ds.dropLast, ds.getLast hd.nonempty, (List.dropLast_concat_getLast hd.nonempty).symm⟩
  rw [hds] at hcont
  simp only [List.reverse_append, List.reverse_singleton, List.singleton_append, List.map_cons] at hcont
  rcases dl with _ | ⟨x, dl'⟩
  · simp at hcont
  simp only [List.map_cons, List.cons.injEq] at hcont
  obtain ⟨ht1, ht2, _⟩ := typeIdToType_name ht
  refine ⟨(x :: dl' ++ [(bo, be)]).length + 1, fun fuel hfu => ?_⟩
  obtain ⟨h0, i, h1, h2⟩ := hf
  obtain ⟨e', t', h4, h5⟩ := chain_head hc
  have hx : x = (off, e') := by
    simp only [List.cons_append, List.cons.injEq] at h4; exact h4.1
  have hty := chain_delta hc (by simp)
  have hfit : ∃ b, d.Fits b := chainFits_mem ds _ hd.fits d (by simp [hds])
  obtain ⟨bb, hfit⟩ := hfit
  have hxe := hen x (by simp)
  obtain ⟨inf, hh1, hh2⟩ := readDeltaHead_spec (anyFlow_reads L) d hfit.src_term hfit.tgt_term hfit.short
    (chainObj p.pack.data x).stream (by
      rw [← hcont.1]
      exact anyFlow_entry L hxe (hd.flowing x (by simp)))
  have hlast := chainFits_last ds' d be.content (by rw [← hds]; exact hd.fits)
  rw [← hds] at hlast
  unfold PackEntity.info PackEntity.shaToIndex
  simp only [h1]
  unfold PackEntity.infoAt
  have hh := entryAt_header h5
  simp only [h2, hh]
  rw [hx] at hty
  rw [if_neg (by
    rcases hty with h | h
    · exact fun hh => hh.1 h
    · exact fun hh => hh.2 h),
    collectStreamsAtOffset_spec p hfi off _ hc hs fuel (by omega)]
  have hlst : ((x :: dl' ++ [(bo, be)]).map (chainObj p.pack.data)).getLast? =
      some (entryObj p.pack.data bo be) := by
    rw [List.map_append, List.map_singleton, List.getLast?_concat]; rfl
  have htid : (entryObj p.pack.data bo be).typeId = t := by
    show be.kind.typeId = t
    rw [hbk]; rfl
  have hhd : ((x :: dl' ++ [(bo, be)]).map (chainObj p.pack.data)).head? = some (chainObj p.pack.data x) := rfl
  simp only [hlst, hhd]
  unfold readDeltaHead at hh1
  rcases hrd : (chainObj p.pack.data x).stream.read zl 512 with ⟨r', e | buf⟩
  · simp [hrd] at hh1
  · simp only [hrd] at hh1
    rcases hm1 : msbSize buf 0 with e | ⟨o1, s1⟩
    · simp [hm1, bind, Except.bind] at hh1
    · simp only [hm1, bind, Except.bind] at hh1
      rcases hm2 : msbSize buf o1 with e | ⟨o2, s2⟩
      · simp [hm2] at hh1
      · simp only [hm2, pure, Except.pure, Except.ok.injEq] at hh1
        have : s2 = leValue d.tgt := by rw [← hh2.targetSize, ← hh1]
        simp only [htid, hm1, hm2]
        rw [if_neg (by unfold OFS_DELTA REF_DELTA; omega), ht1, this, hlast]

end

/-! ### verification by name -/

/-! ### chains that end outside the pack -/

section
variable (p : PackEntity) (find : Bytes → Option Nat) (hfi : Finds p.index find) (sha : Bytes)
  (off : Nat) (hf : Found p sha off) (x : Nat × Packed) (l : List (Nat × Packed))
  (hc : Chain zl p.pack.data find off (x :: l))
  (hs : Straight (x :: l)) (last : Nat × Packed) (hl : (x :: l).getLast? = some last) (name : Bytes)
  (hk : last.2.kind = .ref name)
include hfi hf hc hs hl hk

omit hfi hf hs in
theorem thin_head : x.2.kind.typeId = OFS_DELTA ∨ x.2.kind.typeId = REF_DELTA := by
  rcases l with _ | ⟨y, l⟩
  · simp only [List.getLast?_singleton, Option.some.injEq] at hl
    subst hl
    right; simp [hk, Kind.typeId, REF_DELTA]
  · exact chain_delta hc (by simp)

theorem stream_thin (fuel : Nat) (hfu : l.length + 1 < fuel) : p.stream fuel sha = .error .valueError := by
  have hty := thin_head p find off x l hc last hl name hk
  obtain ⟨h0, i, h1, h2⟩ := hf
  obtain ⟨e', t', h4, h5⟩ := chain_head hc
  simp only [List.cons.injEq] at h4
  rw [h4.1] at hty
  have hh := entryAt_header h5
  unfold PackEntity.stream PackEntity.shaToIndex
  simp only [h1]
  unfold PackEntity.streamAt
  simp only [h2, hh]
  rw [if_neg (by
    rcases hty with h | h
    · exact fun hh => hh.1 h
    · exact fun hh => hh.2 h),
    collectStreamsAtOffset_spec p hfi off _ hc hs fuel (by simpa using hfu)]
  unfold deltaNew
  simp only [List.getLast?_map, hl]
  have : (chainObj p.pack.data last).typeId = REF_DELTA := by
    simp [chainObj, entryObj, hk, Kind.typeId, REF_DELTA]
  simp only [Option.map_some, this, or_true, if_true, ite_self]

theorem info_thin (L : ZlibLaws zl) (hns : Flows zl 512 x.2.zip) (d : DeltaObj) (hd : x.2.content = d.bytes)
    (h1 : Terminated d.src) (h2 : Terminated d.tgt) (h3 : d.src.length + d.tgt.length ≤ 512) (fuel : Nat)
    (hfu : l.length + 1 < fuel) : p.info zl fuel sha = .error .badObject := by
  have hty := thin_head p find off x l hc last hl name hk
  obtain ⟨h0, i, g1, g2⟩ := hf
  obtain ⟨e', t', h4, h5⟩ := chain_head hc
  simp only [List.cons.injEq] at h4
  rw [h4.1] at hty
  have hxe := chain_entries hc x (by simp)
  obtain ⟨inf, hh1, hh2⟩ := readDeltaHead_spec (anyFlow_reads L) d h1 h2 h3
    (chainObj p.pack.data x).stream (by rw [← hd]; exact anyFlow_entry L hxe hns)
  have hh := entryAt_header h5
  unfold PackEntity.info PackEntity.shaToIndex
  simp only [g1]
  unfold PackEntity.infoAt
  simp only [g2, hh]
  rw [if_neg (by
    rcases hty with h | h
    · exact fun hh => hh.1 h
    · exact fun hh => hh.2 h),
    collectStreamsAtOffset_spec p hfi off _ hc hs fuel (by simpa using hfu)]
  have hlst : ((x :: l).map (chainObj p.pack.data)).getLast? = some (chainObj p.pack.data last) := by
    rw [List.getLast?_map, hl]; rfl
  have hhd : ((x :: l).map (chainObj p.pack.data)).head? = some (chainObj p.pack.data x) := rfl
  have htid : (chainObj p.pack.data last).typeId = REF_DELTA := by
    simp [chainObj, entryObj, hk, Kind.typeId, REF_DELTA]
  simp only [hlst, hhd]
  unfold readDeltaHead at hh1
  rcases hrd : (chainObj p.pack.data x).stream.read zl 512 with ⟨r', e | buf⟩
  · simp [hrd] at hh1
  · simp only [hrd] at hh1
    rcases hm1 : msbSize buf 0 with e | ⟨o1, s1⟩
    · simp [hm1, bind, Except.bind] at hh1
    · simp only [hm1, bind, Except.bind] at hh1
      rcases hm2 : msbSize buf o1 with e | ⟨o2, s2⟩
      · simp [hm2] at hh1
      · simp only [htid, hm1, hm2, or_true, if_true]

end

theorem Sha1Writer.writeInt_eq (w : Sha1Writer) (d : Bytes) :
    w.writeInt d = (⟨w.hashed ++ d⟩, .ok (some (d.length : Int))) := rfl

/-- `write_object` into a `Sha1Writer`. -/
theorem writeObject_sha {σ : Type} {read : σ → Int → σ × Res Bytes} {Rep : σ → Bytes → Prop}
    (hr : ObjectReads read Rep) (ty : Bytes) (ha : ∀ b ∈ ty, b.toNat < 128) (s : σ) (content : Bytes)
    (hs : Rep s content) (chunk : Int) (hc : 1 ≤ chunk) (fuel : Nat) (hf : content.length < fuel) :
    ∃ s' n, writeObject fuel ty content.length read
      Sha1Writer.writeInt chunk s {} =
      (s', ⟨ty ++ [0x20] ++ natToDec content.length ++ [0] ++ content⟩, .ok n) := by
  have hh : looseObjectHeader ty content.length = .ok (ty ++ [0x20] ++ natToDec content.length ++ [0]) := by
    rw [looseObjectHeader, if_pos (by simpa using ha)]
  have hw : ∀ cap, Stores Sha1Writer.writeInt (fun w out => w = ⟨out⟩) cap := by
    rintro cap w out d rfl _
    exact ⟨_, _, rfl, rfl⟩
  unfold writeObject
  simp only [hh, Sha1Writer.writeInt_eq, List.nil_append]
  rcases Nat.eq_zero_or_pos content.length with h0 | h0
  · have : content = [] := List.length_eq_zero_iff.mp h0
    subst this
    obtain ⟨s', w', e, _, h2⟩ := streamCopy_zero_object hr (hw _) chunk hc fuel s
      ⟨ty ++ [0x20] ++ natToDec ([] : Bytes).length ++ [0]⟩ _ hs rfl (by omega) (Nat.le_refl _)
    have e' : streamCopy fuel read _ ((([] : Bytes).length : Nat) : Int) chunk s _ = _ := e
    rw [e', h2]
    exact ⟨s', _, by simp; rfl⟩
  · obtain ⟨s', w', e, _, h2⟩ := streamCopy_spec hr.toBoundedReads (hw _) content.length chunk hc fuel s
      ⟨ty ++ [0x20] ++ natToDec content.length ++ [0]⟩ content _ hs rfl h0 (by omega) (Nat.le_refl _)
    rw [e, h2]
    exact ⟨s', _, by simp; rfl⟩

theorem isValidSha_spec (L : ZlibLaws zl) (H : Hash) (p : PackEntity) (sha : Bytes) (fuel : Nat) (o : OStream)
    (nm content : Bytes) (ho : p.stream fuel sha = .ok o) (hn : o.type = .bytes nm)
    (ha : ∀ b ∈ nm, b.toNat < 128) (hsz : o.getSize zl fuel = .ok content.length)
    (hr : PRep zl fuel o.stream content) (hf : content.length < fuel) :
    p.isValidSha H zl fuel sha =
      if H.digest (nm ++ [0x20] ++ natToDec content.length ++ [0] ++ content) = sha then .ok true
      else .error .assertionError := by
  obtain ⟨s', n, e⟩ := writeObject_sha (pRep_reads L fuel) nm ha o.stream content hr chunkSize
    (by have := chunkSize_pos; omega) fuel hf
  unfold PackEntity.isValidSha
  simp only [ho, hsz, hn, PyName.text]
  rw [e]
  simp [Sha1Writer.sha]

end GitDB
