import Verif.Proofs.PackWritten
import Verif.Proofs.PackStream
/-!
# Indices in which a name occurs several times
-/
set_option autoImplicit false

namespace GitDB
open Spec

variable {zl : Zlib}

theorem all2_get {α β : Type} {R : α → β → Prop} {l : List α} {m : List β} (h : All2 R l m) :
    ∀ (i : Nat) (hl : i < l.length) (hm : i < m.length), R l[i] m[i] := by
  induction h with
  | nil => intro i hl; simp at hl
  | cons h t ih =>
    intro i hl hm
    cases i with
    | zero => exact h
    | succ i => exact ih i (by simpa using hl) (by simpa using hm)

/-- What is found under a name is one of the objects that have it. -/
theorem idx_found_one (objs : List IdxObj) (packSha idxSha : Bytes) (h : Indexable objs) :
    (∀ o ∈ objs, ∃ j, ∃ o' ∈ objs, o'.sha = o.sha ∧
      (v2File ((sortObjs objs).map IdxObj.toEntry) packSha idxSha).shaToIndex o.sha = .ok (some j) ∧
      (v2File ((sortObjs objs).map IdxObj.toEntry) packSha idxSha).offset j = .ok o'.ofs ∧
      (v2File ((sortObjs objs).map IdxObj.toEntry) packSha idxSha).crc j = .ok (o'.crc % 2 ^ 32)) ∧
    ∀ name, name ≠ [] → name ∉ objs.map IdxObj.sha →
      (v2File ((sortObjs objs).map IdxObj.toEntry) packSha idxSha).shaToIndex name = .ok none := by
  have hv := (h.perm (sortObjs_perm objs)).valid
  have hnm : ((sortObjs objs).map IdxObj.toEntry).map Entry.name = (sortObjs objs).map IdxObj.sha := by
    rw [List.map_map]; rfl
  have hio := v2_indexOf _ packSha idxSha hv (by rw [hnm]; exact sortObjs_sorted objs)
  rw [hnm] at hio
  have hperm := sortObjs_perm objs
  constructor
  · intro o hob
    have hne : o.sha ≠ [] := by
      intro h0
      have := h.sha_len o hob
      rw [h0] at this; simp at this
    have hmem : o.sha ∈ (sortObjs objs).map IdxObj.sha :=
      List.mem_map_of_mem (hperm.mem_iff.2 hob)
    rcases shaToIndex_spec hio o.sha hne with ⟨i, hi, hi2⟩ | ⟨_, hn⟩
    · obtain ⟨hil, hi3⟩ := List.getElem?_eq_some_iff.1 hi2
      have hil' : i < (sortObjs objs).length := by simpa using hil
      refine ⟨i, (sortObjs objs)[i], hperm.mem_iff.1 (List.getElem_mem hil'), ?_, hi, ?_, ?_⟩
      · rw [List.getElem_map] at hi3; exact hi3
      · rw [v2_offset _ packSha idxSha hv i (by simpa using hil')]
        simp [IdxObj.toEntry]
      · rw [v2_crc _ packSha idxSha hv i (by simpa using hil')]
        simp [IdxObj.toEntry]
    · exact absurd hmem hn
  · intro name hne hnm'
    rcases shaToIndex_spec hio name hne with ⟨i, hi, hi2⟩ | ⟨hn, _⟩
    · have := List.mem_of_getElem? hi2
      exact absurd ((hperm.map IdxObj.sha).mem_iff.1 this) hnm'
    · exact hn

/-- The index gives for a name the offset and crc of one of the entries with this name. -/
theorem lists_one (es : List Packed) (packSha idxSha : Bytes) (h : Indexable (idxOf 12 es)) :
    (∀ (i : Nat) (hi : i < es.length), ∃ j i', ∃ hi' : i' < es.length, es[i'].name = es[i].name ∧
      (v2File ((sortObjs (idxOf 12 es)).map IdxObj.toEntry) packSha idxSha).shaToIndex es[i].name = .ok (some j) ∧
      (v2File ((sortObjs (idxOf 12 es)).map IdxObj.toEntry) packSha idxSha).offset j = .ok (offsetOf es i') ∧
      (v2File ((sortObjs (idxOf 12 es)).map IdxObj.toEntry) packSha idxSha).crc j = .ok (crc32 es[i'].bytes 0)) ∧
    ∀ name, name ≠ [] → name ∉ es.map Packed.name →
      (v2File ((sortObjs (idxOf 12 es)).map IdxObj.toEntry) packSha idxSha).shaToIndex name = .ok none := by
  obtain ⟨h1, h2⟩ := idx_found_one (idxOf 12 es) packSha idxSha h
  constructor
  · intro i hi
    have hil : i < (idxOf 12 es).length := by rw [idxOf_length]; exact hi
    obtain ⟨j, o', ho', hs, a, b, c⟩ := h1 _ (List.getElem_mem hil)
    obtain ⟨i', hil', rfl⟩ := List.mem_iff_getElem.1 ho'
    have hi' : i' < es.length := by rw [idxOf_length] at hil'; exact hil'
    rw [idxOf_get 12 es i hi] at hs a
    rw [idxOf_get 12 es i' hi'] at hs b c
    refine ⟨j, i', hi', hs, a, b, ?_⟩
    rw [c, Nat.mod_eq_of_lt]
    exact crc32_lt _ _ (by decide)
  · intro name hne hn
    exact h2 name hne (by rw [idxOf_sha]; exact hn)

/-- An undeltified object at a place of the index. -/
theorem streamAt_whole (p : PackEntity) (sha : Bytes) (off i : Nat) (h0 : off ≠ 0) (h2 : p.index.offset i = .ok off)
    (e : Packed) (h : EntryAt zl p.pack.data off e) (t : Nat) (hk : e.kind = .whole t) (nm : Bytes)
    (ht : typeName t = some nm) (fuel : Nat) :
    p.streamAt fuel sha i = .ok ⟨sha, .bytes nm, some e.content.length, .base (entryObj p.pack.data off e).stream⟩ ∧
    p.infoAt zl fuel i = .ok (.bytes nm, e.content.length) := by
  obtain ⟨ht1, ht2, _⟩ := typeIdToType_name ht
  have hh := entryAt_header h
  have hti : e.kind.typeId = t := by rw [hk]; rfl
  have h67 : t ≠ OFS_DELTA ∧ t ≠ REF_DELTA := by unfold OFS_DELTA REF_DELTA; omega
  constructor
  · unfold PackEntity.streamAt PackFile.stream
    simp only [h2, hh, hti]
    rw [if_pos h67, if_neg h0, packObjectAt_spec h]
    simp [entryObj, hti, ht1]
  · unfold PackEntity.infoAt
    simp only [h2, hh, hti]
    rw [if_pos h67, ht1]

/-- Looking up an abbreviation whose zero-filled form is no name of the index: nothing if no name begins with the digits;
otherwise it depends on how often the smallest such name occurs. -/
theorem partial_smallest {x : IndexFile} {names : List Bytes} (hx : IndexOf x names) (part : Bytes) (digits : List Nat)
    (hp : IsAbbrev part digits) (h3 : 3 ≤ digits.length) (h40 : digits.length ≤ 40)
    (hf : part ++ List.replicate (20 - part.length) 0 ∉ names) (n : Bytes) (hn : n ∈ names) (hd : HasDigits digits n)
    (hmin : ∀ m ∈ names, HasDigits digits m → ¬ m < n) :
    (2 ≤ names.count n → x.partialShaToIndex part digits.length = .error .ambiguousObjectName) ∧
    (names.count n = 1 → ∃ i, x.partialShaToIndex part digits.length = .ok (some i) ∧ names[i]? = some n) := by
  obtain ⟨r, h1, h2, hr, h4, h5⟩ := partial_result hx part digits hp h3 h40
  have hlt : r < names.length := by
    rcases Nat.lt_or_eq_of_le hr with h | h
    · exact h
    · exact absurd hd (h2 h n hn)
  obtain ⟨k, hk, hkn⟩ := List.mem_iff_getElem.1 hn
  have hrd : HasDigits digits names[r] := by
    have := h1 hlt k hk (by rw [hkn]; exact hd)
    rwa [hx.sha r hlt] at this
  have hbefore : ∀ j (_ : j < r) (h : j < names.length), ¬ HasDigits digits names[j] := by
    rcases h4 with h4 | ⟨h', he⟩
    · exact h4
    · exact absurd (List.getElem_mem h') (by rw [← he]; exact hf)
  have hrk : r ≤ k := by
    rcases Nat.lt_or_ge k r with h | h
    · exact absurd (by rw [hkn]; exact hd) (hbefore k h hk)
    · exact h
  have hrn : names[r] = n := by
    have hs := hx.sorted_get r k hrk hk
    rw [hx.sha r hlt, hx.sha k hk, hkn] at hs
    exact bytes_trichotomy (hmin _ (List.getElem_mem hlt) hrd) hs
  rw [dif_pos hlt, if_pos (show (nibbles names[r]).take digits.length = digits from hrd)] at h5
  -- the entries from `r` on
  have hnb : ∀ j (_ : j < r) (h : j < names.length), names[j] ≠ n := by
    intro j hj h he
    exact hbefore j hj h (by rw [he]; exact hd)
  have hcount : names.count n = (names.drop (r + 1)).count n + 1 := by
    have hsp : names = names.take r ++ names[r] :: names.drop (r + 1) := by
      rw [← List.drop_eq_getElem_cons hlt, List.take_append_drop]
    have ht : (names.take r).count n = 0 := by
      rw [List.count_eq_zero]
      intro hm
      obtain ⟨j, hj, he⟩ := List.mem_iff_getElem.1 hm
      rw [List.length_take] at hj
      rw [List.getElem_take] at he
      exact hnb j (by omega) (by omega) he
    conv => lhs; rw [hsp]
    rw [List.count_append, ht, hrn, List.count_cons_self]
    omega
  constructor
  · intro h
    have hpos : 0 < (names.drop (r + 1)).count n := by omega
    obtain ⟨j, hj, he⟩ := List.mem_iff_getElem.1 (List.count_pos_iff.1 hpos)
    rw [List.getElem_drop] at he
    rw [List.length_drop] at hj
    have hnext : r + 1 < names.length := by omega
    have hs1 := hx.sorted_get r (r + 1) (by omega) hnext
    have hs2 := hx.sorted_get (r + 1) (r + 1 + j) (by omega) (by omega)
    rw [hx.sha r hlt, hx.sha (r + 1) hnext, hrn] at hs1
    rw [hx.sha (r + 1) hnext, hx.sha (r + 1 + j) (by omega), he] at hs2
    have := bytes_trichotomy hs1 hs2
    rw [if_pos ⟨hnext, by rw [hrn]; exact this⟩] at h5
    exact h5
  · intro h
    have hz : (names.drop (r + 1)).count n = 0 := by omega
    refine ⟨r, ?_, List.getElem?_eq_some_iff.2 ⟨hlt, hrn⟩⟩
    rw [h5, if_neg]
    rintro ⟨h', he⟩
    rw [List.count_eq_zero] at hz
    apply hz
    rw [hrn] at he
    rw [← he, List.mem_iff_getElem]
    exact ⟨0, by rw [List.length_drop]; omega, by rw [List.getElem_drop]⟩

end GitDB
