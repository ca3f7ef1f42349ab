import Verif.Proofs.PackWrite
import Verif.Proofs.DecompUse
/-!
# Reading entries of packs
-/
set_option autoImplicit false

namespace GitDB
open Spec

variable {zl : Zlib}

/-! ### compressed data inside of a pack -/

theorem isZip_append (L : ZlibLaws zl) {zip content : Bytes} (h : IsZip zl zip zip.length content)
    (rest : Bytes) : IsZip zl (zip ++ rest) zip.length content :=
  ⟨L.stop_append _ _ _ h.stop, by rw [L.stop_out _ _ _ h.stop, h.out]⟩

theorem out_take_ge (L : ZlibLaws zl) {zip content : Bytes} (h : IsZip zl zip zip.length content)
    (rest : Bytes) (n : Nat) (hn : zip.length ≤ n) : zl.out ((zip ++ rest).take n) = content := by
  rw [List.take_append, List.take_of_length_le hn, L.stop_out _ _ _ h.stop, h.out]

theorem noStall_append (L : ZlibLaws zl) {zip content : Bytes} (h : IsZip zl zip zip.length content)
    (hns : NoStall zl zip) (rest : Bytes) : NoStall zl (zip ++ rest) := by
  intro n hn
  rw [(isZip_append L h rest).out] at hn
  rcases Nat.lt_or_ge n zip.length with h1 | h1
  · rw [List.take_append_of_le_length (by omega)] at hn ⊢
    have h2 := hns n (by rw [h.out]; exact hn)
    rcases Nat.lt_or_ge (n + 8) zip.length with h3 | h3
    · rw [List.take_append_of_le_length (by omega)]; exact h2
    · rw [out_take_ge L h rest _ h3]; exact hn
  · rw [out_take_ge L h rest _ h1] at hn; omega

theorem noStallFrom_append (L : ZlibLaws zl) {zip content : Bytes} (h : IsZip zl zip zip.length content) {p : Nat}
    (hns : NoStallFrom zl p zip) (rest : Bytes) : NoStallFrom zl p (zip ++ rest) := by
  intro n hp hn
  rw [(isZip_append L h rest).out] at hn
  rcases Nat.lt_or_ge n zip.length with h1 | h1
  · rw [List.take_append_of_le_length (by omega)] at hn hp ⊢
    have h2 := hns n hp (by rw [h.out]; exact hn)
    rcases Nat.lt_or_ge (n + 8) zip.length with h3 | h3
    · rw [List.take_append_of_le_length (by omega)]; exact h2
    · rw [out_take_ge L h rest _ h3]; exact hn
  · rw [out_take_ge L h rest _ h1] at hn; omega

theorem flows_append (L : ZlibLaws zl) {zip content : Bytes} (h : IsZip zl zip zip.length content) {k : Nat}
    (hf : Flows zl k zip) (rest : Bytes) : Flows zl k (zip ++ rest) := by
  refine ⟨?_, noStallFrom_append L h hf.rest rest⟩
  have h1 := hf.first
  rw [(isZip_append L h rest).out]
  rw [h.out] at h1
  rcases h1 with h1 | h1
  · exact .inl h1
  · right
    generalize max 8 (min k content.length) = n at *
    rcases Nat.lt_or_ge n zip.length with h2 | h2
    · rwa [List.take_append_of_le_length (by omega)]
    · rw [out_take_ge L h rest _ h2]
      rw [List.take_of_length_le h2, h.out] at h1
      exact h1

/-- The compressed data comes out completely if everything is asked for at once: it is not longer than
the content, or it never stalls. -/
def Smooth (zl : Zlib) (zip content : Bytes) : Prop := zip.length ≤ content.length ∨ NoStall zl zip

theorem smooth_read (L : ZlibLaws zl) {zip content : Bytes} (h : IsZip zl zip zip.length content)
    (hs : Smooth zl zip content) (rest : Bytes) (n : Int) (hn : n < 1 ∨ (content.length : Int) ≤ n) :
    ∃ r, (Reader.ofSize (zip ++ rest) content.length).read zl n = (r, .ok content) := by
  have hm := isZip_append L h rest
  obtain ⟨r, d, e, st⟩ := read_spec L hm 0 (Reader.ofSize (zip ++ rest) content.length) n
    (rinv_ofSize L hm _ (by omega)) rfl
  have hw : (Reader.ofSize (zip ++ rest) content.length).want n = content.length := by
    unfold Reader.want Reader.ofSize
    simp only
    split <;> omega
  have hd : content.length ≤ d.length := by
    rcases hs with hcl | hns
    · have h1 := st.least rfl (Or.inr rfl)
      rw [hw] at h1
      simp only [Reader.ofSize, List.length_nil, Nat.sub_zero, Nat.zero_add, Int.toNat_natCast,
        Int.toNat_zero] at h1
      rw [out_take_ge L h rest _ hcl, Nat.min_self] at h1
      exact h1
    · have h1 := st.exact (noStall_append L h hns rest) rfl
      rw [hw] at h1
      simp only [Reader.ofSize, Int.toNat_zero] at h1
      omega
  refine ⟨r, ?_⟩
  rw [e, st.data]
  simp only [Reader.ofSize, Int.toNat_zero, Nat.add_zero, List.drop_zero]
  rw [List.take_of_length_le hd]

/-! ### entries -/

/-- The corresponding `delta_info`. -/
def kindInfo : Kind → DeltaRef
  | .whole _ => .none
  | .ofs n => .ofs n
  | .ref s => .ref s

/-- The object `pack_object_at` returns for an entry. -/
def entryObj (pack : Bytes) (off : Nat) (e : Packed) : PackObj where
  packOffset := off
  typeId := e.kind.typeId
  size := e.content.length
  info := kindInfo e.kind
  dataOff := off + (e.hdr ++ e.ext).length
  stream := Reader.ofSize (pack.drop (off + (e.hdr ++ e.ext).length)) e.content.length

theorem entryAt_header {pack : Bytes} {off : Nat} {e : Packed} (h : EntryAt zl pack off e) :
    packObjectHeaderInfo (pack.drop off) = .ok (e.kind.typeId, e.content.length, e.hdr.length) := by
  obtain ⟨hv, rest, hd⟩ := h
  obtain ⟨b, bs, h1, h2, h3, h4⟩ := hv.head
  rw [h1] at h2
  rw [hd, Packed.bytes, h1, List.append_assoc, List.append_assoc, packObjectHeaderInfo_spec h2, h3, h4]
  rfl

theorem packObjectAt_spec {pack : Bytes} {off : Nat} {e : Packed} (h : EntryAt zl pack off e) :
    packObjectAt pack off = .ok (entryObj pack off e) := by
  have hh := entryAt_header h
  obtain ⟨hv, rest, hd⟩ := h
  have hext := hv.ext
  unfold packObjectAt
  simp only [hh]
  rcases hk : e.kind with t | back | name
  · rw [hk] at hext
    obtain ⟨h6, h7, hx⟩ := hext
    rw [if_neg (show ¬ (Kind.whole t).typeId = OFS_DELTA from h6),
      if_neg (show ¬ (Kind.whole t).typeId = REF_DELTA from h7)]
    simp [entryObj, hk, hx, kindInfo, List.drop_drop]
  · rw [hk] at hext
    obtain ⟨hx, hb⟩ := hext
    rw [if_pos (show (Kind.ofs back).typeId = OFS_DELTA from rfl)]
    have := ofsDecode_spec hx e.hdr (e.zip ++ rest)
    have hd' : e.hdr ++ (e.ext ++ (e.zip ++ rest)) = pack.drop off := by
      rw [hd, Packed.bytes, List.append_assoc, List.append_assoc]
    rw [hd'] at this
    simp only [this, entryObj, hk, kindInfo, hb, List.drop_drop, List.length_append]
  · rw [hk] at hext
    obtain ⟨hx, hb⟩ := hext
    rw [if_neg (show ¬ (Kind.ref name).typeId = OFS_DELTA from (by decide : ¬ (7 : Nat) = OFS_DELTA)),
      if_pos (show (Kind.ref name).typeId = REF_DELTA from rfl)]
    have hs : pySlice (pack.drop off) e.hdr.length (e.hdr.length + 20) = name := by
      rw [hd, Packed.bytes, pySlice, List.append_assoc, List.append_assoc, List.drop_left, hb,
        show e.hdr.length + 20 - e.hdr.length = name.length by omega, List.take_left]
    rw [hs]
    simp only [entryObj, hk, kindInfo, List.length_append, hb, hx, List.drop_drop]

theorem entryAt_data {pack : Bytes} {off : Nat} {e : Packed} (h : EntryAt zl pack off e) :
    ∃ rest, pack.drop (off + (e.hdr ++ e.ext).length) = e.zip ++ rest := by
  obtain ⟨_, rest, hd⟩ := h
  exact ⟨rest, by rw [← List.drop_drop, hd, Packed.bytes, List.append_assoc, List.drop_left]⟩

/-! ### whole packs -/

theorem flatMap_drop_take (es : List Packed) (i : Nat) (h : i < es.length) (tail : Bytes) :
    (es.flatMap Packed.bytes ++ tail).drop ((es.take i).flatMap Packed.bytes).length =
      es[i].bytes ++ ((es.drop (i + 1)).flatMap Packed.bytes ++ tail) := by
  conv => lhs; rw [← List.take_append_drop i es]
  rw [List.flatMap_append, List.append_assoc]
  have ht : (List.take i (List.take i es ++ List.drop i es)) = es.take i := by
    rw [List.take_append_drop]
  rw [ht, List.drop_left, List.drop_eq_getElem_cons h, List.flatMap_cons, List.append_assoc]

theorem packBody_drop (es : List Packed) (i : Nat) (h : i < es.length) (sha : Bytes) :
    (packFile es sha).drop (offsetOf es i) =
      es[i].bytes ++ ((es.drop (i + 1)).flatMap Packed.bytes ++ sha) := by
  unfold packFile packBody offsetOf
  rw [← List.drop_drop, List.append_assoc _ _ sha, List.drop_left' (by simp [u32_length])]
  exact flatMap_drop_take es i h sha

theorem packFile_entryAt {es : List Packed} (hv : ∀ e ∈ es, e.Valid zl) (sha : Bytes) (i : Nat)
    (h : i < es.length) : EntryAt zl (packFile es sha) (offsetOf es i) es[i] :=
  ⟨hv _ (List.getElem_mem h), _, packBody_drop es i h sha⟩

theorem packFile_load (es : List Packed) (sha : Bytes) (h : es.length < 2 ^ 32) :
    PackFile.load (packFile es sha) = .ok ⟨packFile es sha, 2, es.length⟩ := by
  have h1 : unpackL (packFile es sha) 0 = .ok packSignature := by
    have := unpackL_at [] (u32 2 ++ u32 es.length ++ es.flatMap Packed.bytes ++ sha) packSignature (by decide) 0 rfl
    simpa [packFile, packBody, u32, packSignature] using this
  have h2 : unpackL (packFile es sha) 4 = .ok 2 := by
    have := unpackL_at [80, 65, 67, 75] (u32 es.length ++ es.flatMap Packed.bytes ++ sha) 2 (by decide) 4 rfl
    simpa only [packFile, packBody, List.append_assoc] using this
  have h3 : unpackL (packFile es sha) 8 = .ok es.length := by
    have := unpackL_at ([80, 65, 67, 75] ++ u32 2) (es.flatMap Packed.bytes ++ sha) es.length h 8 rfl
    simpa only [packFile, packBody, List.append_assoc] using this
  unfold PackFile.load
  rw [h1, h2, h3]
  simp

theorem offsetOf_succ (es : List Packed) (i : Nat) (h : i < es.length) :
    offsetOf es (i + 1) = offsetOf es i + es[i].bytes.length := by
  unfold offsetOf
  rw [List.take_succ_eq_append_getElem h, List.flatMap_append, List.length_append]
  simp; omega

theorem offsetOf_length (es : List Packed) (sha : Bytes) :
    offsetOf es es.length = (packFile es sha).length - sha.length := by
  unfold offsetOf packFile packBody
  rw [List.take_length]
  simp [u32_length]; omega

theorem packed_bytes_pos {e : Packed} (h : e.Valid zl) : 0 < e.bytes.length := by
  obtain ⟨b, bs, h1, _⟩ := h.head
  unfold Packed.bytes
  rw [h1]
  simp

theorem offsetOf_lt {es : List Packed} (hv : ∀ e ∈ es, e.Valid zl) : ∀ (i j : Nat), i < j → j ≤ es.length →
    offsetOf es i < offsetOf es j := by
  intro i j hij hj
  induction j with
  | zero => omega
  | succ j ih =>
    rw [offsetOf_succ es j (by omega)]
    have := packed_bytes_pos (hv _ (List.getElem_mem (show j < es.length by omega)))
    rcases Nat.lt_or_eq_of_le (show i ≤ j by omega) with h | h
    · have := ih h (by omega); omega
    · subst h; omega

theorem idxOf_length : ∀ (ofs : Nat) (es : List Packed), (idxOf ofs es).length = es.length
  | _, [] => rfl
  | ofs, e :: es => by simp [idxOf, idxOf_length _ es]

theorem idxOf_get : ∀ (ofs : Nat) (es : List Packed) (i : Nat) (h : i < es.length),
    (idxOf ofs es)[i]'(by rw [idxOf_length]; exact h) =
      ⟨es[i].name, crc32 es[i].bytes 0, ofs + ((es.take i).flatMap Packed.bytes).length⟩
  | ofs, [], i, h => absurd h (by simp)
  | ofs, e :: es, 0, h => by simp [idxOf]
  | ofs, e :: es, i + 1, h => by
    simp only [idxOf, List.getElem_cons_succ]
    rw [idxOf_get _ es i (by simpa using h)]
    simp; omega

theorem idxOf_sha (ofs : Nat) (es : List Packed) : (idxOf ofs es).map IdxObj.sha = es.map Packed.name := by
  induction es generalizing ofs with
  | nil => rfl
  | cons e es ih => simp [idxOf, ih]

/-- The index gives for the name of each entry its offset and crc. -/
structure Lists (x : IndexFile) (es : List Packed) : Prop where
  find : ∀ (i : Nat) (h : i < es.length), ∃ j, x.shaToIndex es[i].name = .ok (some j) ∧
    x.offset j = .ok (offsetOf es i) ∧ x.crc j = .ok (crc32 es[i].bytes 0)
  miss : ∀ name, name ≠ [] → name ∉ es.map Packed.name → x.shaToIndex name = .ok none

theorem idx_found (objs : List IdxObj) (packSha idxSha : Bytes) (h : Indexable objs)
    (hd : (objs.map IdxObj.sha).Nodup) :
    (∀ o ∈ objs, ∃ j, (v2File ((sortObjs objs).map IdxObj.toEntry) packSha idxSha).shaToIndex o.sha =
        .ok (some j) ∧
      (v2File ((sortObjs objs).map IdxObj.toEntry) packSha idxSha).offset j = .ok o.ofs ∧
      (v2File ((sortObjs objs).map IdxObj.toEntry) packSha idxSha).crc j = .ok (o.crc % 2 ^ 32)) ∧
    ∀ name, name ≠ [] → name ∉ objs.map IdxObj.sha →
      (v2File ((sortObjs objs).map IdxObj.toEntry) packSha idxSha).shaToIndex name = .ok none := by
  have hv := (h.perm (sortObjs_perm objs)).valid
  have hnm : ((sortObjs objs).map IdxObj.toEntry).map Entry.name = (sortObjs objs).map IdxObj.sha := by
    rw [List.map_map]; rfl
  have hio := v2_indexOf _ packSha idxSha hv (by rw [hnm]; exact sortObjs_sorted objs)
  rw [hnm] at hio
  have hperm := sortObjs_perm objs
  constructor
  · intro o hob
    have hne : o.sha ≠ [] := by
      intro h0
      have := h.sha_len o hob
      rw [h0] at this; simp at this
    have hmem : o.sha ∈ (sortObjs objs).map IdxObj.sha :=
      List.mem_map_of_mem (hperm.mem_iff.2 hob)
    rcases shaToIndex_spec hio o.sha hne with ⟨i, hi, hi2⟩ | ⟨_, hn⟩
    · refine ⟨i, hi, ?_⟩
      obtain ⟨hil, hi3⟩ := List.getElem?_eq_some_iff.1 hi2
      have hil' : i < (sortObjs objs).length := by simpa using hil
      have : (sortObjs objs)[i] = o := by
        obtain ⟨j, hj, hj2⟩ := List.mem_iff_getElem.1 (hperm.mem_iff.2 hob)
        have hnd : ((sortObjs objs).map IdxObj.sha).Nodup := (hperm.map IdxObj.sha).nodup_iff.2 hd
        have : i = j := by
          apply (List.getElem_inj (h₀ := by simpa using hil') (h₁ := by simpa using hj) hnd).1
          rw [hi3, List.getElem_map, hj2]
        subst this
        exact hj2
      have h1 := v2_offset _ packSha idxSha hv i (by simpa using hil')
      have h2 := v2_crc _ packSha idxSha hv i (by simpa using hil')
      rw [h1, h2]
      simp [IdxObj.toEntry, this]
    · exact absurd hmem hn
  · intro name hne hnm'
    rcases shaToIndex_spec hio name hne with ⟨i, hi, hi2⟩ | ⟨hn, _⟩
    · have := List.mem_of_getElem? hi2
      exact absurd ((hperm.map IdxObj.sha).mem_iff.1 this) hnm'
    · exact hn

theorem lists_written (es : List Packed) (packSha idxSha : Bytes) (h : Indexable (idxOf 12 es))
    (hd : (es.map Packed.name).Nodup) :
    Lists (v2File ((sortObjs (idxOf 12 es)).map IdxObj.toEntry) packSha idxSha) es := by
  obtain ⟨h1, h2⟩ := idx_found (idxOf 12 es) packSha idxSha h (by rw [idxOf_sha]; exact hd)
  constructor
  · intro i hi
    have hil : i < (idxOf 12 es).length := by rw [idxOf_length]; exact hi
    obtain ⟨j, a, b, c⟩ := h1 _ (List.getElem_mem hil)
    rw [idxOf_get 12 es i hi] at a b c
    refine ⟨j, a, b, ?_⟩
    rw [c, Nat.mod_eq_of_lt]
    exact crc32_lt _ _ (by decide)
  · intro name hne hn
    exact h2 name hne (by rw [idxOf_sha]; exact hn)

theorem indexable_idxOf (es : List Packed) (sha : Bytes) (hn : ∀ e ∈ es, e.name.length = 20)
    (hlen : (packFile es sha).length < 2 ^ 64) (hc : es.length ≤ 2 ^ 31) (hv : ∀ e ∈ es, e.Valid zl) :
    Indexable (idxOf 12 es) where
  sha_len := by
    intro o ho
    obtain ⟨i, hi, rfl⟩ := List.mem_iff_getElem.1 ho
    rw [idxOf_length] at hi
    rw [idxOf_get 12 es i hi]
    exact hn _ (List.getElem_mem hi)
  ofs_lt := by
    intro o ho
    obtain ⟨i, hi, rfl⟩ := List.mem_iff_getElem.1 ho
    rw [idxOf_length] at hi
    rw [idxOf_get 12 es i hi]
    have h1 := offsetOf_lt hv i es.length hi (Nat.le_refl _)
    rw [offsetOf_length es sha] at h1
    unfold offsetOf at h1
    show 12 + _ < _
    omega
  count := by rw [idxOf_length]; omega
  large := Nat.le_trans List.countP_le_length (by rw [idxOf_length]; exact hc)

end GitDB
