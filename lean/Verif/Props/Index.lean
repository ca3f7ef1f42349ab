import Verif.Proofs.IndexWrite
import Verif.Proofs.Writers
/-!
# C18-C23, C25: pack indices
-/
set_option autoImplicit false

namespace GitDB.Props
open GitDB Spec

/-- What a loaded index says about its entries: the number, and every accessor at every position. -/
def Holds (x : IndexFile) (es : List Entry) : Prop :=
  x.size = es.length ∧ ∀ (i : Nat) (h : i < es.length),
    x.entry i = .ok (es[i].ofs, es[i].name, es[i].crc) ∧ x.offset i = .ok es[i].ofs ∧
      x.sha i = es[i].name ∧ x.crc i = .ok es[i].crc

theorem v2_holds (es : List Entry) (packSha idxSha : Bytes) (hv : ValidV2 es) :
    Holds (v2File es packSha idxSha) es := by
  refine ⟨v2_size es packSha idxSha, fun i h => ?_⟩
  have ho := v2_offset es packSha idxSha hv i h
  have hc := v2_crc es packSha idxSha hv i h
  have hs := v2_sha es packSha idxSha hv i h
  refine ⟨?_, ho, hs, hc⟩
  unfold IndexFile.entry
  rw [ho, hc, hs]
  rfl

/-- A small but complete instance: three objects given out of order, two of them beyond 2 GiB. -/
def exObjs : List IdxObj :=
  [⟨0xc0 :: List.replicate 19 1, 0x1_0000_0007, 2 ^ 40⟩, ⟨0x00 :: List.replicate 19 2, 5, 12⟩,
   ⟨0xc0 :: List.replicate 19 0, 6, 2 ^ 31⟩]

/-- Git's version 2 index format, independently of the writer: every file in this format is read back
entry by entry. -/
theorem C18_read_v2 (es : List Entry) (packSha idxSha : Bytes) (hv : ValidV2 es) :
    ∃ x, IndexFile.load (indexV2 es packSha idxSha) = .ok x ∧ x.version = 2 ∧ Holds x es :=
  ⟨_, v2_load es packSha idxSha hv, rfl, v2_holds es packSha idxSha hv⟩

/-- **C18** For every list of indexable objects and every writer that stores what it is given, writing
the index succeeds, the file written is git's version 2 format of a permutation of the objects in
ascending order, and loading it gives back each object's name, offset and crc (as 32 bit number). -/
theorem C18_index_roundtrip {ω ρ : Type} {write : ω → Bytes → ω × Res ρ} {WRep : ω → Bytes → Prop}
    (hw : ∀ cap, Stores write WRep cap) (H : Hash) (objs : List IdxObj) (packSha : Bytes)
    (h : Indexable objs) (hp : packSha.length = 20) (w : ω) (ho : WRep w []) :
    ∃ w' sha file σ x, indexWrite H objs packSha write w = (w', .ok sha) ∧ WRep w' file ∧
      List.Perm σ objs ∧ Ascending (σ.map IdxObj.sha) ∧
      file = indexV2 (σ.map fun o => ⟨o.sha, o.crc % 2 ^ 32, o.ofs⟩) packSha sha ∧
      IndexFile.load file = .ok x ∧ x.version = 2 ∧ x.size = objs.length ∧
      (∀ (i : Nat) (hi : i < σ.length), x.entry i = .ok (σ[i].ofs, σ[i].sha, σ[i].crc % 2 ^ 32) ∧
        x.offset i = .ok σ[i].ofs ∧ x.sha i = σ[i].sha ∧ x.crc i = .ok (σ[i].crc % 2 ^ 32)) := by
  obtain ⟨w', e, hw'⟩ := indexWrite_spec hw H objs packSha h hp w [] ho
  have hv := (h.perm (sortObjs_perm objs)).valid
  obtain ⟨hz, hh⟩ := v2_holds _ packSha
    (H.digest (indexV2 ((sortObjs objs).map IdxObj.toEntry) packSha [])) hv
  refine ⟨w', _, _, sortObjs objs, _, e, hw', sortObjs_perm objs, sortObjs_sorted objs, rfl,
    v2_load _ packSha _ hv, rfl, ?_, ?_⟩
  · rw [hz, List.length_map, (sortObjs_perm objs).length_eq]
  · intro i hi
    have := hh i (by simpa using hi)
    simpa [IdxObj.toEntry] using this

/-- **C18**, by name: if the names are distinct, looking up the name of any object that was added finds
that object's own offset and crc. -/
theorem C18_written_then_found {ω ρ : Type} {write : ω → Bytes → ω × Res ρ} {WRep : ω → Bytes → Prop}
    (hw : ∀ cap, Stores write WRep cap) (H : Hash) (objs : List IdxObj) (packSha : Bytes)
    (h : Indexable objs) (hd : (objs.map IdxObj.sha).Nodup) (hp : packSha.length = 20) (w : ω)
    (ho : WRep w []) :
    ∃ w' sha file x, indexWrite H objs packSha write w = (w', .ok sha) ∧ WRep w' file ∧
      IndexFile.load file = .ok x ∧
      (∀ o ∈ objs, ∃ i, x.shaToIndex o.sha = .ok (some i) ∧
        x.entry i = .ok (o.ofs, o.sha, o.crc % 2 ^ 32)) ∧
      (∀ name, name ≠ [] → name ∉ objs.map IdxObj.sha → x.shaToIndex name = .ok none) := by
  obtain ⟨w', e, hw'⟩ := indexWrite_spec hw H objs packSha h hp w [] ho
  have hv := (h.perm (sortObjs_perm objs)).valid
  have hnm : ((sortObjs objs).map IdxObj.toEntry).map Entry.name = (sortObjs objs).map IdxObj.sha := by
    rw [List.map_map]; rfl
  have hio := v2_indexOf _ packSha (H.digest (indexV2 ((sortObjs objs).map IdxObj.toEntry) packSha [])) hv
    (by rw [hnm]; exact sortObjs_sorted objs)
  rw [hnm] at hio
  obtain ⟨hz, hh⟩ := v2_holds _ packSha
    (H.digest (indexV2 ((sortObjs objs).map IdxObj.toEntry) packSha [])) hv
  have hperm := sortObjs_perm objs
  refine ⟨w', _, _, _, e, hw', v2_load _ packSha _ hv, ?_, ?_⟩
  · intro o hob
    have hne : o.sha ≠ [] := by
      intro h0
      have := h.sha_len o hob
      rw [h0] at this; simp at this
    have hmem : o.sha ∈ (sortObjs objs).map IdxObj.sha :=
      List.mem_map_of_mem (hperm.mem_iff.2 hob)
    rcases shaToIndex_spec hio o.sha hne with ⟨i, hi, hi2⟩ | ⟨_, hn⟩
    · refine ⟨i, hi, ?_⟩
      obtain ⟨hil, hi3⟩ := List.getElem?_eq_some_iff.1 hi2
      have hil' : i < (sortObjs objs).length := by simpa using hil
      have he := (hh i (by simpa using hil')).1
      have : (sortObjs objs)[i] = o := by
        obtain ⟨j, hj, hj2⟩ := List.mem_iff_getElem.1 (hperm.mem_iff.2 hob)
        have hnd : ((sortObjs objs).map IdxObj.sha).Nodup := (hperm.map IdxObj.sha).nodup_iff.2 hd
        have : i = j := by
          apply (List.getElem_inj (h₀ := by simpa using hil') (h₁ := by simpa using hj) hnd).1
          rw [hi3, List.getElem_map, hj2]
        subst this
        exact hj2
      simpa [IdxObj.toEntry, this] using he
    · exact absurd hmem hn
  · intro name hne hnm'
    rcases shaToIndex_spec hio name hne with ⟨i, hi, hi2⟩ | ⟨hn, _⟩
    · have := List.mem_of_getElem? hi2
      exact absurd ((hperm.map IdxObj.sha).mem_iff.1 this) hnm'
    · exact hn

theorem writeSteps_error {ω ρ : Type} (write : ω → Bytes → ω × Res ρ) (e : Err) :
    ∀ (steps : List (Res Bytes)) (w : ω), .error e ∈ steps →
      ∃ w' e', writeSteps write w steps = (w', .error e') := by
  intro steps
  induction steps with
  | nil => intro w h; simp at h
  | cons s steps ih =>
    intro w h
    rcases s with e' | d
    · exact ⟨w, e', rfl⟩
    · rw [writeSteps]
      rcases hd : write w d with ⟨w', e' | r⟩
      · exact ⟨w', e', rfl⟩
      · exact ih w' (by simpa using h)

/-- **C18** What does not fit is refused, with any write function: offsets of 2^64 and more, and pack
checksums of the wrong length. -/
theorem C18_refuses {ω ρ : Type} (write : ω → Bytes → ω × Res ρ) (H : Hash) (objs : List IdxObj)
    (packSha : Bytes) (w : ω) (hbad : packSha.length ≠ 20 ∨ ∃ o ∈ objs, 2 ^ 64 ≤ o.ofs) :
    ∃ w' e, indexWrite H objs packSha write w = (w', .error e) := by
  have : ∃ e, Except.error e ∈ indexSteps (sortObjs objs) packSha := by
    rcases hbad with h | ⟨o, ho, hofs⟩
    · refine ⟨.assertionError, ?_⟩
      unfold indexSteps
      rw [if_neg h]
      simp
    · refine ⟨.structError, ?_⟩
      unfold indexSteps
      have : Except.error Err.structError ∈
          (((sortObjs objs).map IdxObj.ofs).filter (· > 0x7fffffff)).map packQ := by
        refine List.mem_map.2 ⟨o.ofs, List.mem_filter.2 ⟨List.mem_map_of_mem
          ((sortObjs_perm objs).mem_iff.2 ho), by simp; omega⟩, ?_⟩
        rw [packQ, if_neg (by omega)]
      simp only [List.mem_append]
      exact Or.inl (Or.inr this)
  obtain ⟨e, he⟩ := this
  obtain ⟨f, e', hs⟩ := writeSteps_error (FlexibleSha1Writer.write write) e _ { inner := w } he
  exact ⟨f.inner, e', by unfold indexWrite; rw [hs]⟩

theorem exObjs_indexable : Indexable exObjs where
  sha_len := by decide
  ofs_lt := by decide
  count := by decide
  large := by decide

example : (exObjs.map IdxObj.sha).Nodup := by decide

/-- `BytesIO.write` at the end of the buffer is a writer that stores. -/
theorem bytesIO_stores : ∀ cap, Stores (fun (b : BytesIO) d => (b.write d, (.ok d.length : Res Nat)))
    (fun b out => b.data = out ∧ b.pos = out.length) cap := by
  rintro cap ⟨data, pos⟩ out d ⟨rfl, hpos⟩ _
  simp only at hpos
  subst hpos
  refine ⟨_, _, rfl, ?_⟩
  unfold BytesIO.write
  split
  · rename_i h; subst h; simp
  · simp

/-- **C18** on the concrete objects, into a `BytesIO`. -/
example (H : Hash) := C18_written_then_found bytesIO_stores H exObjs (List.replicate 20 0)
  exObjs_indexable (by decide) (by decide) {} ⟨rfl, rfl⟩

/-- **C19** In every index of ascending 20 byte names, `sha_to_index` returns a position holding the name
exactly if the name is in the index, and `None` otherwise. -/
theorem C19_lookup (es : List Entry) (packSha idxSha : Bytes) (hv : ValidV2 es)
    (hs : Ascending (es.map Entry.name)) (name : Bytes) (hn : name ≠ []) :
    ∃ x, IndexFile.load (indexV2 es packSha idxSha) = .ok x ∧
      ((∃ i, x.shaToIndex name = .ok (some i) ∧ (es.map Entry.name)[i]? = some name) ∨
       (x.shaToIndex name = .ok none ∧ name ∉ es.map Entry.name)) :=
  ⟨_, v2_load es packSha idxSha hv, shaToIndex_spec (v2_indexOf es packSha idxSha hv hs) name hn⟩

/-- **C19** Termination: the interval shrinks in every round, so the loop needs no more rounds than the
interval is wide; more fuel changes nothing.  No hypothesis on the contents of the index at all. -/
theorem C19_terminates (sha : Bytes) (get : Nat → Bytes) (lo hi fuel : Nat) (h : hi - lo < fuel) :
    bisect sha get fuel lo hi = bisect sha get (hi - lo + 1) lo hi :=
  bisect_fuel sha get (hi - lo + 1) lo hi fuel (by omega) (by omega)

/-- The empty name is an `IndexError`. -/
theorem C19_empty_name (x : IndexFile) : x.shaToIndex [] = .error .indexError := rfl

/-- The entries of `exObjs` in index order. -/
def exEntries : List Entry :=
  [⟨0x00 :: List.replicate 19 2, 5, 12⟩, ⟨0xc0 :: List.replicate 19 0, 6, 2 ^ 31⟩,
   ⟨0xc0 :: List.replicate 19 1, 7, 2 ^ 40⟩]

theorem exEntries_valid : ValidV2 exEntries where
  name_len := by decide
  crc_lt := by decide
  ofs_lt := by decide
  count := by decide
  large := by decide

theorem exEntries_asc : Ascending (exEntries.map Entry.name) := by unfold Ascending; decide

/-- **C20** An abbreviation of 3 to 40 hex digits, looked up in an index of distinct names, gives the
first object whose name begins with these digits, and `None` if there is none. -/
theorem C20_partial_lookup (es : List Entry) (packSha idxSha : Bytes) (hv : ValidV2 es)
    (hs : Ascending (es.map Entry.name)) (hd : (es.map Entry.name).Nodup)
    (part : Bytes) (digits : List Nat) (hp : IsAbbrev part digits) (h3 : 3 ≤ digits.length)
    (h40 : digits.length ≤ 40) :
    ∃ x, IndexFile.load (indexV2 es packSha idxSha) = .ok x ∧
      ((∃ i, ∃ h : i < (es.map Entry.name).length, x.partialShaToIndex part digits.length = .ok (some i) ∧
          HasDigits digits (es.map Entry.name)[i] ∧
          ∀ (j : Nat) (hj : j < i), ¬ HasDigits digits ((es.map Entry.name)[j]'(by omega))) ∨
       (x.partialShaToIndex part digits.length = .ok none ∧
          ∀ name ∈ es.map Entry.name, ¬ HasDigits digits name)) :=
  ⟨_, v2_load es packSha idxSha hv,
    partial_first (v2_indexOf es packSha idxSha hv hs) hd part digits hp h3 h40⟩

/-- **C20** Shorter abbreviations (one byte, or none) are refused. -/
theorem C20_too_short (x : IndexFile) (part : Bytes) (n : Nat) (h : part.length < 2) :
    x.partialShaToIndex part n = .error .valueError := by
  unfold IndexFile.partialShaToIndex
  rw [if_pos h]

example : IsAbbrev [0xc0, 0x00] [0xc, 0, 0] := by decide
example : IsAbbrev [0xc0, 0x01] [0xc, 0, 0, 1] := by decide
example : (exEntries.map Entry.name).Nodup := by decide

/-- The full statement of **C21**. -/
def C21_full : Prop :=
  ∀ (es : List Entry) (packSha idxSha part : Bytes) (digits : List Nat) (x : IndexFile),
    ValidV2 es → Ascending (es.map Entry.name) → (es.map Entry.name).Nodup → IsAbbrev part digits →
    3 ≤ digits.length → digits.length ≤ 40 →
    IndexFile.load (indexV2 es packSha idxSha) = .ok x →
    (∃ a ∈ es, ∃ b ∈ es, a.name ≠ b.name ∧ HasDigits digits a.name ∧ HasDigits digits b.name) →
    x.partialShaToIndex part digits.length = .error .ambiguousObjectName

/-- **C21** is false, for every index: the code compares the next name with the found one instead of with
the abbreviation, so with distinct names the exception is never raised. -/
theorem C21_never_ambiguous (es : List Entry) (packSha idxSha : Bytes) (hv : ValidV2 es)
    (hs : Ascending (es.map Entry.name)) (hd : (es.map Entry.name).Nodup)
    (part : Bytes) (digits : List Nat) (hp : IsAbbrev part digits) (h3 : 3 ≤ digits.length)
    (h40 : digits.length ≤ 40) (x : IndexFile)
    (hx : IndexFile.load (indexV2 es packSha idxSha) = .ok x) :
    x.partialShaToIndex part digits.length ≠ .error .ambiguousObjectName := by
  obtain ⟨x', hx', h⟩ := C20_partial_lookup es packSha idxSha hv hs hd part digits hp h3 h40
  rw [hx] at hx'
  obtain rfl := Except.ok.inj hx'
  rcases h with ⟨i, _, h, _⟩ | ⟨h, _⟩ <;> rw [h] <;> simp

/-- **C21** fails on the index of two objects `c000…` and `c001…` with the abbreviation `c00`. -/
theorem C21_not_full : ¬ C21_full := by
  intro h
  refine C21_never_ambiguous exEntries [] [] exEntries_valid exEntries_asc (by decide) [0xc0, 0x00]
    [0xc, 0, 0] (by decide) (by decide) (by decide) _ (v2_load exEntries [] [] exEntries_valid)
    (h exEntries [] [] [0xc0, 0x00] [0xc, 0, 0] _ exEntries_valid exEntries_asc (by decide) (by decide)
      (by decide) (by decide) (v2_load exEntries [] [] exEntries_valid) ?_)
  exact ⟨⟨0xc0 :: List.replicate 19 0, 6, 2 ^ 31⟩, by decide, ⟨0xc0 :: List.replicate 19 1, 7, 2 ^ 40⟩,
    by decide, by decide, by decide, by decide⟩

/-- **C21** The part that holds: no false alarms.  If the exception is raised, two entries of the index begin
with the digits.  Missing: the converse, which is false. -/
theorem C21_no_false_alarm_partial (es : List Entry) (packSha idxSha : Bytes) (hv : ValidV2 es)
    (hs : Ascending (es.map Entry.name)) (part : Bytes) (digits : List Nat) (hp : IsAbbrev part digits)
    (h3 : 3 ≤ digits.length) (h40 : digits.length ≤ 40) (x : IndexFile)
    (hx : IndexFile.load (indexV2 es packSha idxSha) = .ok x)
    (ha : x.partialShaToIndex part digits.length = .error .ambiguousObjectName) :
    ∃ (i j : Nat) (hi : i < es.length) (hj : j < es.length), i ≠ j ∧ HasDigits digits es[i].name ∧
      HasDigits digits es[j].name := by
  rw [v2_load es packSha idxSha hv] at hx
  obtain rfl := Except.ok.inj hx
  obtain ⟨r, _, _, _, _, h5⟩ := partial_result (v2_indexOf es packSha idxSha hv hs) part digits hp h3 h40
  rw [h5] at ha
  split at ha
  · rename_i hr
    split at ha
    · rename_i hd
      split at ha
      · rename_i hdup
        obtain ⟨h', he⟩ := hdup
        have hr' : r < es.length := by simpa using hr
        have hr2 : r + 1 < es.length := by simpa using h'
        refine ⟨r, r + 1, hr', hr2, by omega, ?_, ?_⟩
        · rw [List.getElem_map] at hd; exact hd
        · rw [← he, List.getElem_map] at hd; exact hd
      · simp at ha
    · simp at ha
  · simp at ha

/-- Two entries of the same name: the exception is raised. -/
def exDup : List Entry := [⟨List.replicate 20 7, 0, 12⟩, ⟨List.replicate 20 7, 0, 99⟩]

theorem exDup_valid : ValidV2 exDup where
  name_len := by decide
  crc_lt := by decide
  ofs_lt := by decide
  count := by decide
  large := by decide

example : Ascending (exDup.map Entry.name) := by unfold Ascending; decide
example : (v2File exDup [] []).partialShaToIndex [7, 0] 3 = .error .ambiguousObjectName := by
  decide +kernel

/-- **C22** The value returned for a written index is the digest of everything before it and is what
`indexfile_checksum` reads back; `packfile_checksum` is the checksum of the pack. -/
theorem C22_index_checksums {ω ρ : Type} {write : ω → Bytes → ω × Res ρ} {WRep : ω → Bytes → Prop}
    (hw : ∀ cap, Stores write WRep cap) (H : Hash) (objs : List IdxObj) (packSha : Bytes)
    (h : Indexable objs) (hp : packSha.length = 20) (w : ω) (ho : WRep w []) :
    ∃ w' sha body x, indexWrite H objs packSha write w = (w', .ok sha) ∧ WRep w' (body ++ sha) ∧
      sha = H.digest body ∧ IndexFile.load (body ++ sha) = .ok x ∧ x.indexfileChecksum = sha ∧
      x.packfileChecksum = packSha := by
  obtain ⟨w', e, hw'⟩ := indexWrite_spec hw H objs packSha h hp w [] ho
  have hv := (h.perm (sortObjs_perm objs)).valid
  generalize hes : (sortObjs objs).map IdxObj.toEntry = es at *
  have hc := v2_checksums es packSha (H.digest (indexV2 es packSha [])) hp (H.len _)
  have hb : indexV2 es packSha (H.digest (indexV2 es packSha [])) =
      indexV2 es packSha [] ++ H.digest (indexV2 es packSha []) := by
    generalize H.digest (indexV2 es packSha []) = s
    simp only [indexV2, List.append_assoc, List.nil_append]
  refine ⟨w', _, indexV2 es packSha [], v2File es packSha (H.digest (indexV2 es packSha [])), e, ?_, rfl,
    ?_, hc.2, hc.1⟩
  · rw [← hb]; exact hw'
  · rw [← hb]; exact v2_load es packSha _ hv

/-- The full statement of **C23**. -/
def C23_full : Prop :=
  ∀ (es : List Entry) (packSha idxSha : Bytes) (x : IndexFile), ValidV2 es →
    IndexFile.load (indexV2 es packSha idxSha) = .ok x → x.offsets = .ok (es.map Entry.ofs)

/-- **C23** holds if all offsets are below 2 GiB.  Missing: offsets of 2 GiB and more, for which it is
false. -/
theorem C23_offsets_partial (es : List Entry) (packSha idxSha : Bytes) (x : IndexFile) (hv : ValidV2 es)
    (hx : IndexFile.load (indexV2 es packSha idxSha) = .ok x) (hsmall : ∀ e ∈ es, e.ofs < 2 ^ 31) :
    x.offsets = .ok (es.map Entry.ofs) := by
  rw [v2_load es packSha idxSha hv] at hx
  obtain rfl := Except.ok.inj hx
  rw [v2_offsets es packSha idxSha hv]
  congr 1
  have : es.map Entry.ofs = (es.zipIdx.map Prod.fst).map Entry.ofs := by
    rw [List.zipIdx_map_fst]
  rw [this, List.map_map]
  apply List.map_congr_left
  rintro ⟨e, i⟩ he
  have hm : e ∈ es := by
    have := List.mem_map_of_mem (f := Prod.fst) he
    rwa [List.zipIdx_map_fst] at this
  have : isLarge e = false := by
    have := hsmall e hm
    unfold isLarge
    exact decide_eq_false (by omega)
  simp [ofsField, this]

/-- **C23** Exactly what is returned instead: the raw table, in which an offset of 2 GiB or more is
replaced by 2^31 plus its rank among the large offsets. -/
theorem C23_what_is_returned (es : List Entry) (packSha idxSha : Bytes) (x : IndexFile)
    (hv : ValidV2 es) (hx : IndexFile.load (indexV2 es packSha idxSha) = .ok x) :
    x.offsets = .ok (es.zipIdx.map fun p =>
      if 2 ^ 31 ≤ p.1.ofs then 2 ^ 31 + (es.take p.2).countP (fun e => decide (2 ^ 31 ≤ e.ofs)) else p.1.ofs) := by
  rw [v2_load es packSha idxSha hv] at hx
  obtain rfl := Except.ok.inj hx
  rw [v2_offsets es packSha idxSha hv]
  congr 1
  apply List.map_congr_left
  intro p _
  unfold ofsField isLarge
  simp only [decide_eq_true_eq]

/-- **C23** fails for an object at 2^40. -/
theorem C23_not_full : ¬ C23_full := by
  intro h
  have := h exEntries [] [] _ exEntries_valid (v2_load exEntries [] [] exEntries_valid)
  rw [v2_offsets exEntries [] [] exEntries_valid] at this
  revert this
  decide

/-- Version 1: offsets are complete. -/
theorem C23_offsets_v1 (es : List Entry) (packSha idxSha : Bytes) (x : IndexFile) (hv : ValidV1 es)
    (h0 : (es.map Entry.name).countP (firstLe 0) ≠ 0xff744f63)
    (hx : IndexFile.load (indexV1 es packSha idxSha) = .ok x) : x.offsets = .ok (es.map Entry.ofs) := by
  rw [v1_load es packSha idxSha hv h0] at hx
  obtain rfl := Except.ok.inj hx
  have hz : (v1File es packSha idxSha).size = es.length := by
    unfold IndexFile.size v1File
    simp only
    rw [fanoutTable_getD _ _ (by omega), countP_firstLe_255, List.length_map]
  unfold IndexFile.offsets
  rw [if_neg (by simp [v1File]), hz, mapM_ok _ (fun i => (es.map Entry.ofs).getD i 0)]
  · congr 1
    apply List.ext_getElem (by simp)
    intro i h1 h2
    simp only [List.getElem_map, List.getElem_range]
    rw [List.getD_eq_getElem?_getD, List.getElem?_eq_getElem h2, Option.getD_some, List.getElem_map]
  · intro i hi
    have hi' : i < es.length := by simpa using hi
    rw [v1_offset es packSha idxSha hv i hi', List.getD_eq_getElem?_getD,
      List.getElem?_eq_getElem (by simpa using hi'), Option.getD_some, List.getElem_map]

/-- **C25** Version 1 files: recognised, every entry read back (the crc is reported as 0), and exactly
the names present are found. -/
theorem C25_read_v1 (es : List Entry) (packSha idxSha : Bytes) (hv : ValidV1 es)
    (h0 : (es.map Entry.name).countP (firstLe 0) ≠ 0xff744f63) (hs : Ascending (es.map Entry.name)) :
    ∃ x, IndexFile.load (indexV1 es packSha idxSha) = .ok x ∧ x.version = 1 ∧ x.size = es.length ∧
      (∀ (i : Nat) (h : i < es.length), x.entry i = .ok (es[i].ofs, es[i].name, 0) ∧
        x.offset i = .ok es[i].ofs ∧ x.sha i = es[i].name ∧ x.crc i = .ok 0) ∧
      (∀ name, name ≠ [] →
        (∃ i, x.shaToIndex name = .ok (some i) ∧ (es.map Entry.name)[i]? = some name) ∨
        (x.shaToIndex name = .ok none ∧ name ∉ es.map Entry.name)) := by
  have hio := v1_indexOf es packSha idxSha hv hs
  refine ⟨_, v1_load es packSha idxSha hv h0, rfl, ?_, ?_, fun name hn => shaToIndex_spec hio name hn⟩
  · rw [hio.size, List.length_map]
  · intro i h
    exact ⟨v1_entry es packSha idxSha hv i h, v1_offset es packSha idxSha hv i h,
      v1_sha es packSha idxSha hv i h, rfl⟩

/-- **C25** Abbreviations in version 1 files, as in C20. -/
theorem C25_partial_v1 (es : List Entry) (packSha idxSha : Bytes) (hv : ValidV1 es)
    (h0 : (es.map Entry.name).countP (firstLe 0) ≠ 0xff744f63)
    (hs : Ascending (es.map Entry.name)) (hd : (es.map Entry.name).Nodup)
    (part : Bytes) (digits : List Nat) (hp : IsAbbrev part digits) (h3 : 3 ≤ digits.length)
    (h40 : digits.length ≤ 40) :
    ∃ x, IndexFile.load (indexV1 es packSha idxSha) = .ok x ∧
      ((∃ i, ∃ h : i < (es.map Entry.name).length, x.partialShaToIndex part digits.length = .ok (some i) ∧
          HasDigits digits (es.map Entry.name)[i] ∧
          ∀ (j : Nat) (hj : j < i), ¬ HasDigits digits ((es.map Entry.name)[j]'(by omega))) ∨
       (x.partialShaToIndex part digits.length = .ok none ∧
          ∀ name ∈ es.map Entry.name, ¬ HasDigits digits name)) :=
  ⟨_, v1_load es packSha idxSha hv h0,
    partial_first (v1_indexOf es packSha idxSha hv hs) hd part digits hp h3 h40⟩

/-- Entries of a version 1 index. -/
def exEntriesV1 : List Entry :=
  [⟨0x00 :: List.replicate 19 2, 0, 12⟩, ⟨0xc0 :: List.replicate 19 0, 0, 2 ^ 31⟩]

example : ValidV1 exEntriesV1 where
  name_len := by decide
  ofs_lt := by decide
  count := by decide
example : (exEntriesV1.map Entry.name).countP (firstLe 0) ≠ 0xff744f63 := by decide
example : Ascending (exEntriesV1.map Entry.name) := by unfold Ascending; decide

end GitDB.Props
