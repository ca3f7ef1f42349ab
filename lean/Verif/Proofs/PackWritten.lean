import Verif.Proofs.PackIter
import Verif.Proofs.PackStream
/-!
# Packs written by `write_pack`, read back
-/
set_option autoImplicit false

namespace GitDB
open Spec

variable {zl : Zlib}

theorem ofsField_of_small {es : List Entry} (h : ∀ e ∈ es, e.ofs < 2 ^ 31) (e : Entry) (he : e ∈ es) (i : Nat) :
    ofsField es e i = e.ofs := by
  have := h e he
  unfold ofsField isLarge
  rw [if_neg (by simpa using this)]

/-- The offsets of an index without large offsets. -/
theorem v2_offsets_small (es : List Entry) (packSha idxSha : Bytes) (hv : ValidV2 es)
    (h : ∀ e ∈ es, e.ofs < 2 ^ 31) : (v2File es packSha idxSha).offsets = .ok (es.map Entry.ofs) := by
  rw [v2_offsets es packSha idxSha hv]
  congr 1
  apply List.ext_getElem (by simp)
  intro i h1 h2
  simp only [List.getElem_map, List.getElem_zipIdx]
  exact ofsField_of_small h _ (List.getElem_mem _) _

theorem mem_idxOf_ofs {es : List Packed} {o : Nat} (h : o ∈ (idxOf 12 es).map IdxObj.ofs) :
    ∃ i, i < es.length ∧ o = offsetOf es i := by
  obtain ⟨x, hx, rfl⟩ := List.mem_map.1 h
  obtain ⟨i, hi, rfl⟩ := List.mem_iff_getElem.1 hx
  rw [idxOf_length] at hi
  exact ⟨i, hi, by rw [idxOf_get 12 es i hi]; rfl⟩

theorem idxOf_ofs_mem {es : List Packed} {i : Nat} (h : i < es.length) :
    offsetOf es i ∈ (idxOf 12 es).map IdxObj.ofs := by
  have hi : i < (idxOf 12 es).length := by rw [idxOf_length]; exact h
  have := List.getElem_mem hi
  rw [idxOf_get 12 es i h] at this
  exact List.mem_map.2 ⟨_, this, rfl⟩

/-- The byte range found for an object is that of its entry. -/
theorem next_of_written {es : List Packed} (hv : ∀ e ∈ es, e.Valid zl) (offs : List Nat)
    (ho : ∀ o, o ∈ offs ↔ ∃ j, j < es.length ∧ o = offsetOf es j) (i : Nat) (hi : i < es.length) (next : Nat)
    (hn : IsNext offs (offsetOf es es.length) (offsetOf es i) next) : next = offsetOf es (i + 1) := by
  rcases hn with ⟨h1, h2, h3⟩ | ⟨h1, h2⟩
  · obtain ⟨j, hj, rfl⟩ := (ho next).1 h1
    have hij : i < j := by
      rcases Nat.lt_trichotomy i j with h | h | h
      · exact h
      · subst h; omega
      · have := offsetOf_lt hv j i h (by omega); omega
    rcases Nat.eq_or_lt_of_le (show i + 1 ≤ j by omega) with h | h
    · rw [h]
    · have h4 := offsetOf_lt hv (i + 1) j h (by omega)
      have h5 := h3 (offsetOf es (i + 1)) ((ho _).2 ⟨i + 1, by omega, rfl⟩)
        (offsetOf_lt hv i (i + 1) (by omega) (by omega))
      omega
  · subst h1
    rcases Nat.eq_or_lt_of_le (show i + 1 ≤ es.length by omega) with h | h
    · rw [h]
    · have h4 := offsetOf_lt hv i (i + 1) (by omega) (by omega)
      have h5 := h2 (offsetOf es (i + 1)) ((ho _).2 ⟨i + 1, by omega, rfl⟩)
      omega

theorem packFile_slice (es : List Packed) (sha : Bytes) (i : Nat) (hi : i < es.length) :
    pySlice (packFile es sha) (offsetOf es i) (offsetOf es (i + 1)) = es[i].bytes := by
  unfold pySlice
  obtain ⟨rest, hr⟩ : ∃ rest, (packFile es sha).drop (offsetOf es i) = es[i].bytes ++ rest := ⟨_, packBody_drop es i hi sha⟩
  rw [hr, offsetOf_succ es i hi, Nat.add_sub_cancel_left, List.take_left]

/-- The crc check of the object found under a name with the index of a written pack, and other data of the same length. -/
theorem written_crc_at (es : List Packed) (hv : ∀ e ∈ es, e.Valid zl) (packSha idxSha sha : Bytes)
    (hsha : sha.length = 20) (h : Indexable (idxOf 12 es))
    (hsmall : (packFile es sha).length ≤ 2 ^ 31) (p : PackEntity)
    (hx : p.index = v2File ((sortObjs (idxOf 12 es)).map IdxObj.toEntry) packSha idxSha)
    (hp : p.pack.data.length = (packFile es sha).length) (fuel : Nat) (hf : (packFile es sha).length < fuel)
    (i : Nat) (hi : i < es.length) (name : Bytes) (j : Nat) (a : p.index.shaToIndex name = .ok (some j))
    (b : p.index.offset j = .ok (offsetOf es i)) (c : p.index.crc j = .ok (crc32 es[i].bytes 0)) :
    p.isValidCrc fuel name = .ok (decide
      (crc32 (pySlice p.pack.data (offsetOf es i) (offsetOf es (i + 1))) 0 = crc32 es[i].bytes 0)) := by
  have hend := offsetOf_length es sha
  have hlast : p.pack.data.length - 20 = offsetOf es es.length := by rw [hp]; omega
  have hperm := sortObjs_perm (idxOf 12 es)
  have hlt : ∀ j, j < es.length → offsetOf es j < 2 ^ 31 := by
    intro j hj
    have := offsetOf_lt hv j es.length hj (Nat.le_refl _)
    omega
  have hof : p.index.offsets = .ok (((sortObjs (idxOf 12 es)).map IdxObj.toEntry).map Entry.ofs) := by
    rw [hx]
    refine v2_offsets_small _ _ _ (h.perm hperm).valid ?_
    intro e he
    obtain ⟨o, ho, rfl⟩ := List.mem_map.1 he
    obtain ⟨j, hj, hj2⟩ := mem_idxOf_ofs (List.mem_map.2 ⟨o, hperm.mem_iff.1 ho, rfl⟩)
    show o.ofs < _
    rw [hj2]; exact hlt j hj
  have hmem : ∀ o, o ∈ ((sortObjs (idxOf 12 es)).map IdxObj.toEntry).map Entry.ofs ↔
      ∃ j, j < es.length ∧ o = offsetOf es j := by
    intro o
    have : ((sortObjs (idxOf 12 es)).map IdxObj.toEntry).map Entry.ofs = (sortObjs (idxOf 12 es)).map IdxObj.ofs := by
      rw [List.map_map]; rfl
    rw [this, (hperm.map IdxObj.ofs).mem_iff]
    exact ⟨mem_idxOf_ofs, by rintro ⟨j, hj, rfl⟩; exact idxOf_ofs_mem hj⟩
  obtain ⟨next, h1, h2⟩ := isValidCrc_spec p name j _ _ _ (by rw [hx]; exact Nat.le_refl 2) a b c hof
    ((hmem _).2 ⟨i, hi, rfl⟩) fuel ⟨by rw [hp]; exact hf, by
      intro o ho
      obtain ⟨k, hk, rfl⟩ := (hmem o).1 ho
      have := offsetOf_lt hv k es.length hk (Nat.le_refl _)
      omega⟩
  rw [hlast] at h1
  have := next_of_written hv _ hmem i hi next h1
  subst this
  exact h2

/-- The crc check of an object with the index of a written pack, and other data of the same length. -/
theorem written_crc_of (es : List Packed) (hv : ∀ e ∈ es, e.Valid zl) (packSha idxSha sha : Bytes)
    (hsha : sha.length = 20) (h : Indexable (idxOf 12 es)) (hd : (es.map Packed.name).Nodup)
    (hsmall : (packFile es sha).length ≤ 2 ^ 31) (p : PackEntity)
    (hx : p.index = v2File ((sortObjs (idxOf 12 es)).map IdxObj.toEntry) packSha idxSha)
    (hp : p.pack.data.length = (packFile es sha).length) (fuel : Nat) (hf : (packFile es sha).length < fuel)
    (i : Nat) (hi : i < es.length) : p.isValidCrc fuel es[i].name = .ok (decide
      (crc32 (pySlice p.pack.data (offsetOf es i) (offsetOf es (i + 1))) 0 = crc32 es[i].bytes 0)) := by
  obtain ⟨j, a, b, c⟩ := (lists_written es packSha idxSha h hd).find i hi
  rw [← hx] at a b c
  exact written_crc_at es hv packSha idxSha sha hsha h hsmall p hx hp fuel hf i hi _ j a b c

/-- The crc check of an object of a written pack. -/
theorem written_crc (es : List Packed) (hv : ∀ e ∈ es, e.Valid zl) (packSha idxSha sha : Bytes)
    (hsha : sha.length = 20) (h : Indexable (idxOf 12 es)) (hd : (es.map Packed.name).Nodup)
    (hsmall : (packFile es sha).length ≤ 2 ^ 31) (p : PackEntity)
    (hx : p.index = v2File ((sortObjs (idxOf 12 es)).map IdxObj.toEntry) packSha idxSha)
    (hp : p.pack.data = packFile es sha) (fuel : Nat) (hf : (packFile es sha).length < fuel)
    (i : Nat) (hi : i < es.length) : p.isValidCrc fuel es[i].name = .ok true := by
  rw [written_crc_of es hv packSha idxSha sha hsha h hd hsmall p hx (by rw [hp]) fuel hf i hi, hp,
    packFile_slice es sha i hi]
  simp

theorem all2_names {σ : Type} {level : Int} {l : List (PackIn σ × Bytes)} {es : List Packed}
    (h : All2 (EntryOf zl level) l es) : es.map Packed.name = l.map (fun q => q.1.sha) := by
  induction h with
  | nil => rfl
  | cons h t ih => simp [ih, h.1]

/-- A large offset is not in the table of raw fields. -/
theorem ofsField_large_ne (es : List Entry) (e : Entry) (hl : 2 ^ 31 + es.length ≤ e.ofs) :
    ∀ (i : Nat) (h : i < es.length), ofsField es es[i] i ≠ e.ofs := by
  intro i h
  unfold ofsField
  split
  · have := List.countP_le_length (p := isLarge) (l := es.take i)
    rw [List.length_take] at this
    omega
  · rename_i hs
    simp [isLarge] at hs
    omega

theorem isValidCrc_large (es : List Entry) (packSha idxSha : Bytes) (hv : ValidV2 es)
    (hs : Ascending (es.map Entry.name)) (hd : (es.map Entry.name).Nodup) (p : PackEntity)
    (hx : p.index = v2File es packSha idxSha) (e : Entry) (he : e ∈ es) (hl : 2 ^ 31 + es.length ≤ e.ofs)
    (fuel : Nat) : p.isValidCrc fuel e.name = .error .keyError := by
  obtain ⟨i, hi, rfl⟩ := List.mem_iff_getElem.1 he
  have hio := v2_indexOf es packSha idxSha hv hs
  have hne : es[i].name ≠ [] := by
    intro h0
    have := hv.name_len _ (List.getElem_mem hi)
    rw [h0] at this; simp at this
  rcases shaToIndex_spec hio es[i].name hne with ⟨j, hj, hj2⟩ | ⟨_, hn⟩
  · obtain ⟨hjl, hj3⟩ := List.getElem?_eq_some_iff.1 hj2
    have hij : j = i := by
      apply (List.getElem_inj (h₀ := hjl) (h₁ := by simpa using hi) hd).1
      rw [hj3, List.getElem_map]
    subst hij
    have ho := v2_offset es packSha idxSha hv j hi
    have hof := v2_offsets es packSha idxSha hv
    rw [← hx] at hj ho hof
    have hnx : p.nextOffset es[j].ofs = .error .keyError := by
      unfold PackEntity.nextOffset
      rw [hof]
      simp only
      rw [if_neg (by
        intro h0
        have h1 := congrArg List.length h0
        rw [List.length_map, List.length_zipIdx] at h1
        rw [List.length_nil] at h1
        omega)]
      apply dictGet_missing
      intro q hq hqe
      have := offsetPairs_keys _ _ q hq
      rw [(sortNats_perm _).mem_iff] at this
      obtain ⟨⟨e', k⟩, hk, hk2⟩ := List.mem_map.1 this
      obtain ⟨m, hm, hm2⟩ := List.mem_iff_getElem.1 hk
      rw [List.getElem_zipIdx] at hm2
      have hm' : m < es.length := by simpa using hm
      simp only [Nat.zero_add, Prod.mk.injEq] at hm2
      obtain ⟨rfl, rfl⟩ := hm2
      exact ofsField_large_ne es es[j] hl m hm' (by rw [hk2, hqe])
    unfold PackEntity.isValidCrc PackEntity.shaToIndex
    rw [if_neg (by rw [hx]; simp [v2File]), hj]
    simp only [ho, hnx]
  · exact absurd (List.mem_map.2 ⟨_, he, rfl⟩) hn

end GitDB
