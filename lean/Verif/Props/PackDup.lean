import Verif.Proofs.PackDup
import Verif.Props.EntityIter
/-!
# C84: packs that contain an object several times

`write_pack` does not look at the names: an object that is given several times is written several times, and the index
has as many entries for it.
-/
set_option autoImplicit false

namespace GitDB.Props
open GitDB Spec

variable {σ ω ρ ω₂ ρ₂ : Type}

section
variable {read : σ → Int → σ × Res Bytes} {write : ω → Bytes → ω × Res ρ} {iwrite : ω₂ → Bytes → ω₂ × Res ρ₂}
  {Rep : σ → Bytes → Prop} {WRep : ω → Bytes → Prop} {IRep : ω₂ → Bytes → Prop} (zl : Zlib) (L : ZlibLaws zl)
  (hr : BoundedReads read Rep) (hw : ∀ cap, Stores write WRep cap) (hi : ∀ cap, Stores iwrite IRep cap) (H : Hash)
  (fuel : Nat) (level : Int) (l : List (PackIn σ × Bytes)) (hl : Packables Rep zl level fuel l)
  (w : ω) (ho : WRep w []) (iw : ω₂) (hio : IRep iw [])

/-- What `stream` and `info` answer for the name of `q`. -/
def DeliversOne (zl : Zlib) (level : Int) (p : PackEntity) (sha : Bytes) (q : PackIn σ × Bytes) : Prop :=
  ∀ fuel', ∃ o nm, typeName q.1.typeId = some nm ∧ p.stream fuel' sha = .ok o ∧ o.sha = sha ∧ o.type = .bytes nm ∧
    o.getSize zl fuel' = .ok q.2.length ∧ p.info zl fuel' sha = .ok (.bytes nm, q.2.length) ∧
    (HoweverFed zl level q.2 (NoStall zl) → ∀ ns : List Int, ∃ s' ps,
      readMany (PStream.read zl fuel') o.stream ns = (s', .ok ps) ∧
      ps.flatten = q.2.take (readLen q.2.length ns))

include L hr hw hi hl ho hio in
/-- **C84** Under a name the pack delivers one of the objects that were written with this name - type, size and content are
those of a single one - and the crc is the one of that object.  A name that was not written is not found. -/
theorem C84_found : ∃ w' iw' psha isha pk ix p x,
    writePack H zl fuel read write (some iwrite) (l.map Prod.fst) none level w iw =
      (w', iw', .ok (psha, some isha)) ∧ WRep w' pk ∧ IRep iw' ix ∧
    PackFile.load pk = .ok p ∧ IndexFile.load ix = .ok x ∧
    (∀ q ∈ l, ∃ q' ∈ l, q'.1.sha = q.1.sha ∧ DeliversOne zl level ⟨x, p⟩ q.1.sha q') ∧
    (pk.length ≤ 2 ^ 31 → ∀ q ∈ l, ∀ fuel', pk.length < fuel' →
      PackEntity.isValidCrc ⟨x, p⟩ fuel' q.1.sha = .ok true) ∧
    ∀ name, name ≠ [] → name ∉ l.map (fun q => q.1.sha) → ∀ fuel',
      PackEntity.stream ⟨x, p⟩ fuel' name = .error .badObject ∧
      PackEntity.info zl ⟨x, p⟩ fuel' name = .error .badObject := by
  obtain ⟨w', iw', es, isha, h1, e1, e2, h2, h3, hix, hv, h32⟩ :=
    writtens_spec zl L hr hw hi H fuel level l hl w ho iw hio
  obtain ⟨hfind, hmiss⟩ := lists_one es (H.digest (packBody es)) isha hix
  refine ⟨w', iw', _, isha, _, _, _, _, e1, h2, h3, packFile_load es _ h32,
    v2_load _ _ _ (hix.perm (sortObjs_perm _)).valid, ?_, ?_, ?_⟩
  · intro q hq
    obtain ⟨e, he, hqe⟩ := all2_mem_left h1 q hq
    obtain ⟨i, hil, rfl⟩ := List.mem_iff_getElem.1 he
    obtain ⟨j, i', hi', hnm', b1, b2, b3⟩ := hfind i hil
    obtain ⟨q', hq', a1, a2, a3, a4, a7, pieces, a5, a6⟩ := all2_mem_right h1 _ (List.getElem_mem hi')
    refine ⟨q', hq', by rw [← a1, hnm', hqe.1], fun fuel' => ?_⟩
    obtain ⟨nm, hnm⟩ := Option.isSome_iff_exists.1 (hl.type q' hq')
    have hat := packFile_entryAt hv (H.digest (packBody es)) i' hi'
    have hpos : offsetOf es i' ≠ 0 := by unfold offsetOf; omega
    obtain ⟨s1, s2⟩ := stream_whole (zl := zl) ⟨v2File ((sortObjs (idxOf 12 es)).map IdxObj.toEntry)
        (H.digest (packBody es)) isha, ⟨packFile es (H.digest (packBody es)), 2, es.length⟩⟩ q.1.sha (offsetOf es i')
      ⟨hpos, j, by rw [← hqe.1]; exact b1, b2⟩ es[i'] hat q'.1.typeId a2 nm hnm fuel'
    refine ⟨_, nm, hnm, s1, rfl, rfl, by simp [OStream.getSize, a3], by rw [s2, a3], ?_⟩
    intro hns ns
    have hp := prep_whole L hat (by rw [a6]; exact hns pieces a5) fuel'
    obtain ⟨s', ps, c1, c2, _⟩ := readMany_spec (pRep_reads L fuel') ns _ _ hp
    rw [a3] at c2
    exact ⟨s', ps, c1, c2⟩
  · intro hs q hq fuel' hf
    obtain ⟨e, he, hqe⟩ := all2_mem_left h1 q hq
    obtain ⟨i, hil, rfl⟩ := List.mem_iff_getElem.1 he
    obtain ⟨j, i', hi', hnm', b1, b2, b3⟩ := hfind i hil
    rw [← hqe.1]
    rw [written_crc_at es hv _ isha _ (H.len _) hix hs ⟨v2File _ _ _, ⟨packFile es (H.digest (packBody es)), 2, es.length⟩⟩
      rfl rfl fuel' hf i' hi' _ j b1 b2 b3]
    show Except.ok (decide (crc32 (pySlice (packFile es _) _ _) 0 = _)) = _
    rw [packFile_slice es _ i' hi']
    simp
  · intro name hne hnm fuel'
    have := hmiss name hne (by rw [all2_names h1]; exact hnm)
    unfold PackEntity.stream PackEntity.info PackEntity.shaToIndex
    simp [this]

include L hr hw hi hl ho hio in
/-- **C84** So if objects with the same name are the same, each name gives its own object. -/
theorem C84_same (hsame : ∀ q ∈ l, ∀ q' ∈ l, q.1.sha = q'.1.sha → q.1.typeId = q'.1.typeId ∧ q.2 = q'.2) :
    ∃ w' iw' psha isha pk ix p x,
    writePack H zl fuel read write (some iwrite) (l.map Prod.fst) none level w iw =
      (w', iw', .ok (psha, some isha)) ∧ WRep w' pk ∧ IRep iw' ix ∧
    PackFile.load pk = .ok p ∧ IndexFile.load ix = .ok x ∧
    ∀ q ∈ l, DeliversOne zl level ⟨x, p⟩ q.1.sha q := by
  obtain ⟨w', iw', psha, isha, pk, ix, p, x, h1, h2, h3, h4, h5, h6, _, _⟩ :=
    C84_found zl L hr hw hi H fuel level l hl w ho iw hio
  refine ⟨w', iw', psha, isha, pk, ix, p, x, h1, h2, h3, h4, h5, fun q hq fuel' => ?_⟩
  obtain ⟨q', hq', hs, hd⟩ := h6 q hq
  obtain ⟨ht, hc⟩ := hsame q' hq' q hq hs
  have := hd fuel'
  rw [ht, hc] at this
  exact this
end

/-- Yielding without an exception. -/
theorem yieldFrom_map {α β : Type} (get : Nat → Res β) (F : α → β) : ∀ (as : List α) (k : Nat),
    (∀ (i : Nat) (h : i < as.length), get (k + i) = .ok (F as[i])) → yieldFrom get as.length k = (as.map F, .ok ()) := by
  intro as
  induction as with
  | nil => intro k _; rfl
  | cons a as ih =>
    intro k h
    have h0 := h 0 (by simp)
    rw [Nat.add_zero] at h0
    have := ih (k + 1) (by
      intro i hi
      have := h (i + 1) (by simpa using hi)
      rw [show k + 1 + i = k + (i + 1) by omega, this]
      simp)
    simp only [List.length_cons, yieldFrom, h0, this, List.map_cons, List.getElem_cons_zero]

section
variable {read : σ → Int → σ × Res Bytes} {write : ω → Bytes → ω × Res ρ} {iwrite : ω₂ → Bytes → ω₂ × Res ρ₂}
  {Rep : σ → Bytes → Prop} {WRep : ω → Bytes → Prop} {IRep : ω₂ → Bytes → Prop} (zl : Zlib) (L : ZlibLaws zl)
  (hr : BoundedReads read Rep) (hw : ∀ cap, Stores write WRep cap) (hi : ∀ cap, Stores iwrite IRep cap) (H : Hash)
  (fuel : Nat) (level : Int) (l : List (PackIn σ × Bytes)) (hl : Packables Rep zl level fuel l)
  (w : ω) (ho : WRep w []) (iw : ω₂) (hio : IRep iw [])

include L hr hw hi hl ho hio in
/-- **C84** The number of objects counts every copy, and both iterators yield every copy with its own type and size, in
ascending order of the names. -/
theorem C84_iterate : ∃ w' iw' psha isha pk ix p x infos streams,
    writePack H zl fuel read write (some iwrite) (l.map Prod.fst) none level w iw =
      (w', iw', .ok (psha, some isha)) ∧ WRep w' pk ∧ IRep iw' ix ∧
    PackFile.load pk = .ok p ∧ IndexFile.load ix = .ok x ∧ p.size = l.length ∧ x.size = l.length ∧
    (∀ fuel', PackEntity.infoIter zl ⟨x, p⟩ fuel' = (infos, .ok ()) ∧
      PackEntity.streamIter ⟨x, p⟩ fuel' = (streams, .ok ())) ∧
    infos.Perm (l.map fun q => (q.1.sha, .bytes ((typeName q.1.typeId).getD []), q.2.length)) ∧
    Ascending (infos.map fun r => r.1) ∧
    (streams.map fun o => (o.sha, o.type, o.size)) = infos.map fun r => (r.1, r.2.1, some r.2.2) := by
  obtain ⟨w', iw', es, isha, h1, e1, e2, h2, h3, hix, hv, h32⟩ :=
    writtens_spec zl L hr hw hi H fuel level l hl w ho iw hio
  have hnm : ((sortObjs (idxOf 12 es)).map IdxObj.toEntry).map Entry.name = (sortObjs (idxOf 12 es)).map IdxObj.sha := by
    rw [List.map_map]; rfl
  have hperm := sortObjs_perm (idxOf 12 es)
  have hV := (hix.perm hperm).valid
  have hxio := v2_indexOf _ (H.digest (packBody es)) isha hV (by rw [hnm]; exact sortObjs_sorted _)
  rw [hnm] at hxio
  generalize hxx : v2File ((sortObjs (idxOf 12 es)).map IdxObj.toEntry) (H.digest (packBody es)) isha = x at *
  generalize hpp : (⟨packFile es (H.digest (packBody es)), 2, es.length⟩ : PackFile) = p at *
  -- what is at an entry of the index, by its offset
  let P : IdxObj → PyName × Nat := fun o => match packObjectHeaderInfo (p.data.drop o.ofs) with
    | .ok (t, s, _) => (.bytes ((typeName t).getD []), s)
    | .error _ => (.bytes [], 0)
  let F : IdxObj → Bytes × PyName × Nat := fun o => (o.sha, P o)
  let G : IdxObj → OStream := fun o => ⟨o.sha, (P o).1, some (P o).2, .base (match packObjectAt p.data o.ofs with
    | .ok c => c.stream | .error _ => Reader.ofSize [] 0)⟩
  have key : ∀ (i : Nat) (hi : i < (sortObjs (idxOf 12 es)).length) (fuel' : Nat),
      PackEntity.streamAt ⟨x, p⟩ fuel' (x.sha i) i = .ok (G (sortObjs (idxOf 12 es))[i]) ∧
      (PackEntity.infoAt zl ⟨x, p⟩ fuel' i).map (fun r => (x.sha i, r)) = .ok (F (sortObjs (idxOf 12 es))[i]) := by
    intro i hi fuel'
    have hofs := v2_offset _ (H.digest (packBody es)) isha hV i (by simpa using hi)
    rw [hxx] at hofs
    have hsha := hxio.sha i (by simpa using hi)
    rw [List.getElem_map] at hsha hofs
    have hmem := hperm.mem_iff.1 (List.getElem_mem hi)
    generalize (sortObjs (idxOf 12 es))[i] = o at *
    obtain ⟨k, hk, rfl⟩ := List.mem_iff_getElem.1 hmem
    have hk' : k < es.length := by rw [idxOf_length] at hk; exact hk
    rw [idxOf_get 12 es k hk'] at hofs hsha ⊢
    obtain ⟨q, hq, a1, a2, a3, a4, a7, pieces, a5, a6⟩ := all2_mem_right h1 _ (List.getElem_mem hk')
    obtain ⟨nm, hqn⟩ := Option.isSome_iff_exists.1 (hl.type q hq)
    have hat := packFile_entryAt hv (H.digest (packBody es)) k hk'
    have hpos : offsetOf es k ≠ 0 := by unfold offsetOf; omega
    have hpd : p.data = packFile es (H.digest (packBody es)) := by rw [← hpp]
    rw [← hpd] at hat
    obtain ⟨s1, s2⟩ := streamAt_whole (zl := zl) ⟨x, p⟩ (x.sha i) (offsetOf es k) i hpos hofs es[k] hat q.1.typeId a2 nm hqn fuel'
    have hh := entryAt_header hat
    have hti : es[k].kind.typeId = q.1.typeId := by rw [a2]; rfl
    have hP : P ⟨es[k].name, crc32 es[k].bytes 0, 12 + ((es.take k).flatMap Packed.bytes).length⟩ =
        (.bytes nm, es[k].content.length) := by
      show (match packObjectHeaderInfo (p.data.drop (offsetOf es k)) with
        | .ok (t, s, _) => (PyName.bytes ((typeName t).getD []), s)
        | .error _ => (PyName.bytes [], 0)) = _
      rw [hh]
      simp only [hti, hqn, Option.getD_some]
    constructor
    · rw [s1, hsha]
      have hob : packObjectAt p.data (12 + ((es.take k).flatMap Packed.bytes).length) =
        .ok (entryObj p.data (offsetOf es k) es[k]) := packObjectAt_spec hat
      simp only [G, hP, hob]
    · rw [s2, hsha]
      simp only [Except.map, F, hP]
  have hFl : (idxOf 12 es).map F = l.map fun q => (q.1.sha, .bytes ((typeName q.1.typeId).getD []), q.2.length) := by
    apply List.ext_getElem
    · rw [List.length_map, List.length_map, idxOf_length, all2_len h1]
    · intro i hi1 hi2
      have hk' : i < es.length := by rw [List.length_map, idxOf_length] at hi1; exact hi1
      have hil : i < l.length := by rw [all2_len h1]; exact hk'
      rw [List.getElem_map, List.getElem_map, idxOf_get 12 es i hk']
      have hE : EntryOf zl level l[i] es[i] := all2_get h1 i hil hk'
      obtain ⟨a1, a2, a3, a4, a7, pieces, a5, a6⟩ := hE
      have hat := packFile_entryAt hv (H.digest (packBody es)) i hk'
      have hpd : p.data = packFile es (H.digest (packBody es)) := by rw [← hpp]
      rw [← hpd] at hat
      have hh := entryAt_header hat
      have hti : es[i].kind.typeId = l[i].1.typeId := by rw [a2]; rfl
      show (es[i].name, match packObjectHeaderInfo (p.data.drop (offsetOf es i)) with
        | .ok (t, s, _) => (PyName.bytes ((typeName t).getD []), s)
        | .error _ => (PyName.bytes [], 0)) = _
      rw [hh]
      simp only [hti, a1, a3]
  have hsize : x.size = (sortObjs (idxOf 12 es)).length := by rw [hxio.size, List.length_map]
  refine ⟨w', iw', _, isha, _, _, p, x, (sortObjs (idxOf 12 es)).map F, (sortObjs (idxOf 12 es)).map G, e1, h2, h3,
    ?_, ?_, ?_, ?_, ?_, ?_, ?_, ?_⟩
  · rw [← hpp]; exact packFile_load es _ h32
  · rw [← hxx]; exact v2_load _ _ _ hV
  · rw [← hpp, all2_len h1]
  · rw [hsize, hperm.length_eq, idxOf_length, all2_len h1]
  · intro fuel'
    unfold PackEntity.infoIter PackEntity.streamIter
    simp only [hsize]
    constructor
    · exact yieldFrom_map _ F _ 0 fun i hi => by rw [Nat.zero_add]; exact (key i hi fuel').2
    · exact yieldFrom_map _ G _ 0 fun i hi => by rw [Nat.zero_add]; exact (key i hi fuel').1
  · exact hFl ▸ hperm.map F
  · rw [List.map_map]
    exact sortObjs_sorted _
  · rw [List.map_map, List.map_map]
    rfl
end

/-- **C84** Abbreviations do not work for what is in a pack twice.  If the smallest name that begins with the digits occurs more
than once, the lookup raises `AmbiguousObjectName`, although only one object has this name; if it occurs once, it is found.
(The digits padded with zeros are not themselves a name.) -/
theorem C84_abbreviation (es : List Entry) (packSha idxSha : Bytes) (hv : ValidV2 es) (hs : Ascending (es.map Entry.name))
    (part : Bytes) (digits : List Nat) (hp : IsAbbrev part digits) (h3 : 3 ≤ digits.length) (h40 : digits.length ≤ 40)
    (hf : part ++ List.replicate (20 - part.length) 0 ∉ es.map Entry.name) (n : Bytes) (hn : n ∈ es.map Entry.name)
    (hd : HasDigits digits n) (hmin : ∀ m ∈ es.map Entry.name, HasDigits digits m → ¬ m < n) :
    ∃ x, IndexFile.load (indexV2 es packSha idxSha) = .ok x ∧
      (2 ≤ (es.map Entry.name).count n → x.partialShaToIndex part digits.length = .error .ambiguousObjectName) ∧
      ((es.map Entry.name).count n = 1 → ∃ i, x.partialShaToIndex part digits.length = .ok (some i) ∧
        (es.map Entry.name)[i]? = some n) :=
  ⟨_, v2_load es packSha idxSha hv, partial_smallest (v2_indexOf es packSha idxSha hv hs) part digits hp h3 h40 hf n hn hd hmin⟩

/-- Three blobs, the first and the last being the same. -/
def twiceBlobs : List (PackIn Bytes × Bytes) :=
  [(⟨3, 2, List.replicate 20 7, [65, 66]⟩, [65, 66]), (⟨3, 1, List.replicate 20 8, [65]⟩, [65]),
    (⟨3, 2, List.replicate 20 7, [65, 66]⟩, [65, 66])]

theorem twiceBlobs_packables : Packables (fun s rem => s = rem) toyZlib 1 9 twiceBlobs where
  good := by simp [twiceBlobs]
  type := by simp [twiceBlobs, typeName]
  names := by simp [twiceBlobs]
  count := by simp [twiceBlobs]
  size := by
    intro es h
    cases h with
    | cons h t =>
      cases t with
      | cons h' t' =>
        cases t' with
        | cons h'' t'' =>
          cases t''
          have h1 := (toy_entry_length h (by simp)).2
          have h2 := (toy_entry_length h' (by simp)).2
          have h3 := (toy_entry_length h'' (by simp)).2
          simp only [List.length_cons, List.length_nil] at h1 h2 h3
          simp only [List.flatMap_cons, List.flatMap_nil, List.append_nil, List.length_append]
          omega

example : ¬ (twiceBlobs.map fun q => q.1.sha).Nodup := by decide
example := C84_same toyZlib toyZlib_laws bytesIO_reads.toBoundedReads sink_stores sink_stores lenHash 9 1 twiceBlobs
  twiceBlobs_packables {} ⟨rfl, rfl⟩ {} ⟨rfl, rfl⟩ (by simp [twiceBlobs, List.replicate])
example := C84_iterate toyZlib toyZlib_laws bytesIO_reads.toBoundedReads sink_stores sink_stores lenHash 9 1 twiceBlobs
  twiceBlobs_packables {} ⟨rfl, rfl⟩ {} ⟨rfl, rfl⟩
example := C22_pack_checksum toyZlib toyZlib_laws bytesIO_reads.toBoundedReads sink_stores sink_stores lenHash 9 1 twiceBlobs
  twiceBlobs_packables {} ⟨rfl, rfl⟩ {} ⟨rfl, rfl⟩
example := C29_all toyZlib toyZlib_laws bytesIO_reads.toBoundedReads sink_stores sink_stores lenHash 9 1 twiceBlobs
  twiceBlobs_packables {} ⟨rfl, rfl⟩ {} ⟨rfl, rfl⟩

/-- An index with copies of an object `c0 01 01 …`. -/
def copies (n : Nat) : List Entry := (List.range n).map fun i => ⟨0xc0 :: List.replicate 19 1, 7, 12 + 20 * i⟩

theorem copies_valid : ValidV2 (copies 2) := ⟨by decide, by decide, by decide, by decide, by decide⟩

/-- Two copies: the abbreviation `c001` is ambiguous. -/
example := C84_abbreviation (copies 2) [] [] copies_valid (by unfold Ascending; decide) [0xc0, 0x01] [0xc, 0, 0, 1]
  (by decide) (by decide) (by decide) (by decide) (0xc0 :: List.replicate 19 1) (by decide) (by decide) (by decide)
example : 2 ≤ ((copies 2).map Entry.name).count (0xc0 :: List.replicate 19 1) := by decide

/-- All 40 digits find the object if there are two copies of it, and are ambiguous if there are three. -/
theorem C84_all_digits :
    (∃ x, IndexFile.load (indexV2 (copies 2) [] []) = .ok x ∧
      x.partialShaToIndex (0xc0 :: List.replicate 19 1) 40 = .ok (some 1)) ∧
    ∃ x, IndexFile.load (indexV2 (copies 3) [] []) = .ok x ∧
      x.partialShaToIndex (0xc0 :: List.replicate 19 1) 40 = .error .ambiguousObjectName := by
  refine ⟨⟨_, v2_load _ _ _ copies_valid, ?_⟩, ⟨_, v2_load _ _ _ ⟨by decide, by decide, by decide, by decide, by decide⟩, ?_⟩⟩
  · decide +kernel
  · decide +kernel

end GitDB.Props
