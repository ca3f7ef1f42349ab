import Verif.Props.Index
import Verif.Props.MergeDeltas
/-!
# C89: lookups look at few names

A lookup depends only on the table of counts and on some positions of the list of names: for every index with the same names at these
positions it gives the same answer.  There are at most `log2 n + 1` such positions (one more to compare, and one more for the neighbour,
with an abbreviation), `n` being the number of names with the same first byte.
-/
set_option autoImplicit false

namespace GitDB.Props
open GitDB Spec

/-- At most `log2 n + 1` positions: none, or `2 ^ (number - 1) ≤ n`. -/
def Few (S : List Nat) (n : Nat) : Prop := S = [] ∨ 2 ^ S.length ≤ 2 * n

theorem few_log {S : List Nat} {n : Nat} (h : Few S n) : S.length ≤ Nat.log2 n + 1 := by
  rcases h with rfl | h
  · simp
  · rcases hl : S.length with _ | k
    · omega
    · rw [hl, Nat.pow_succ] at h
      have hn : n ≠ 0 := by
        rintro rfl
        have := Nat.two_pow_pos k
        omega
      have : k ≤ Nat.log2 n := (Nat.le_log2 hn).mpr (by omega)
      omega

theorem few_half {S : List Nat} {n m i : Nat} (h : Few S m) (hm : 2 * m ≤ n) (hn : 0 < n) : Few (i :: S) n := by
  right
  rcases h with rfl | h
  · simp; omega
  · rw [List.length_cons, Nat.pow_succ]; omega

theorem bisect_probes (sha : Bytes) (get : Nat → Bytes) : ∀ (k lo hi : Nat), hi - lo < k →
    ∃ S, Few S (hi - lo) ∧ (∀ i ∈ S, lo ≤ i ∧ i < hi) ∧
      ∀ get' : Nat → Bytes, (∀ i ∈ S, get' i = get i) → bisect sha get' k lo hi = bisect sha get k lo hi
  | 0, lo, hi, hk => by omega
  | k + 1, lo, hi, hk => by
    by_cases hlt : lo < hi
    · by_cases h1 : sha < get ((lo + hi) / 2)
      · obtain ⟨S, a, b, c⟩ := bisect_probes sha get k lo ((lo + hi) / 2) (by omega)
        refine ⟨(lo + hi) / 2 :: S, few_half a (by omega) (by omega), ?_, fun get' hg => ?_⟩
        · intro i hi'
          rcases List.mem_cons.mp hi' with rfl | h
          · omega
          · have := b i h; omega
        · simp only [bisect, if_pos hlt, hg _ List.mem_cons_self, if_pos h1]
          exact c get' fun i h => hg i (List.mem_cons_of_mem _ h)
      · by_cases h2 : sha = get ((lo + hi) / 2)
        · refine ⟨[(lo + hi) / 2], .inr (by simp; omega), by simp; omega, fun get' hg => ?_⟩
          simp only [bisect, if_pos hlt, hg _ List.mem_cons_self, if_neg h1, if_pos h2]
        · obtain ⟨S, a, b, c⟩ := bisect_probes sha get k ((lo + hi) / 2 + 1) hi (by omega)
          refine ⟨(lo + hi) / 2 :: S, few_half a (by omega) (by omega), ?_, fun get' hg => ?_⟩
          · intro i hi'
            rcases List.mem_cons.mp hi' with rfl | h
            · omega
            · have := b i h; omega
          · simp only [bisect, if_pos hlt, hg _ List.mem_cons_self, if_neg h1, if_neg h2]
            exact c get' fun i h => hg i (List.mem_cons_of_mem _ h)
    · exact ⟨[], .inl rfl, by simp, fun get' _ => by rw [bisect, bisect, if_neg hlt, if_neg hlt]⟩

theorem bisectLow_probes (sha : Bytes) (get : Nat → Bytes) : ∀ (k lo hi : Nat), hi - lo < k →
    ∃ S, Few S (hi - lo) ∧ (∀ i ∈ S, lo ≤ i ∧ i < hi) ∧
      ∀ get' : Nat → Bytes, (∀ i ∈ S, get' i = get i) → bisectLow sha get' k lo hi = bisectLow sha get k lo hi
  | 0, lo, hi, hk => by omega
  | k + 1, lo, hi, hk => by
    by_cases hlt : lo < hi
    · by_cases h1 : sha < get ((lo + hi) / 2)
      · obtain ⟨S, a, b, c⟩ := bisectLow_probes sha get k lo ((lo + hi) / 2) (by omega)
        refine ⟨(lo + hi) / 2 :: S, few_half a (by omega) (by omega), ?_, fun get' hg => ?_⟩
        · intro i hi'
          rcases List.mem_cons.mp hi' with rfl | h
          · omega
          · have := b i h; omega
        · simp only [bisectLow, if_pos hlt, hg _ List.mem_cons_self, if_pos h1]
          exact c get' fun i h => hg i (List.mem_cons_of_mem _ h)
      · by_cases h2 : sha = get ((lo + hi) / 2)
        · refine ⟨[(lo + hi) / 2], .inr (by simp; omega), by simp; omega, fun get' hg => ?_⟩
          simp only [bisectLow, if_pos hlt, hg _ List.mem_cons_self, if_neg h1, if_pos h2]
        · obtain ⟨S, a, b, c⟩ := bisectLow_probes sha get k ((lo + hi) / 2 + 1) hi (by omega)
          refine ⟨(lo + hi) / 2 :: S, few_half a (by omega) (by omega), ?_, fun get' hg => ?_⟩
          · intro i hi'
            rcases List.mem_cons.mp hi' with rfl | h
            · omega
            · have := b i h; omega
          · simp only [bisectLow, if_pos hlt, hg _ List.mem_cons_self, if_neg h1, if_neg h2]
            exact c get' fun i h => hg i (List.mem_cons_of_mem _ h)
    · exact ⟨[], .inl rfl, by simp, fun get' _ => by rw [bisectLow, bisectLow, if_neg hlt, if_neg hlt]⟩

/-- The number of names with this first byte, according to the table of counts. -/
def bucket (x : IndexFile) (first : Nat) : Nat := (x.bounds first).2 - (x.bounds first).1

/-- **C89** for `sha_to_index`, whatever the index file contains. -/
theorem C89_lookup (x : IndexFile) (b : UInt8) (sha : Bytes) :
    ∃ S : List Nat, S.length ≤ Nat.log2 (bucket x b.toNat) + 1 ∧
      ∀ y : IndexFile, y.fanout = x.fanout → (∀ i ∈ S, y.sha i = x.sha i) → y.shaToIndex (b :: sha) = x.shaToIndex (b :: sha) := by
  obtain ⟨S, h1, -, h3⟩ := bisect_probes (b :: sha) x.sha ((x.bounds b.toNat).2 - (x.bounds b.toNat).1 + 1) (x.bounds b.toNat).1
    (x.bounds b.toNat).2 (by omega)
  refine ⟨S, few_log h1, fun y hf hs => ?_⟩
  have hb : y.bounds b.toNat = x.bounds b.toNat := by unfold IndexFile.bounds; rw [hf]
  simp only [IndexFile.shaToIndex, List.head?_cons, hb]
  rw [h3 y.sha hs]

/-- **C89** for `partial_sha_to_index`: also the position found and the one after it. -/
theorem C89_abbreviation (x : IndexFile) (part : Bytes) (n : Nat) :
    ∃ S : List Nat, S.length ≤ Nat.log2 (bucket x (part.headD 0).toNat) + 3 ∧
      ∀ y : IndexFile, y.fanout = x.fanout → (∀ i ∈ S, y.sha i = x.sha i) → y.partialShaToIndex part n = x.partialShaToIndex part n := by
  rcases part with _ | ⟨b, part⟩
  · exact ⟨[], by simp, fun y _ _ => rfl⟩
  · obtain ⟨S, h1, -, h3⟩ := bisectLow_probes (b :: part ++ List.replicate (20 - (b :: part).length) 0) x.sha
      ((x.bounds b.toNat).2 - (x.bounds b.toNat).1 + 1) (x.bounds b.toNat).1 (x.bounds b.toNat).2 (by omega)
    have hl := few_log h1
    obtain ⟨j, hj⟩ : ∃ j, bisectLow (b :: part ++ List.replicate (20 - (b :: part).length) 0) x.sha
      ((x.bounds b.toNat).2 - (x.bounds b.toNat).1 + 1) (x.bounds b.toNat).1 (x.bounds b.toNat).2 = j := ⟨_, rfl⟩
    refine ⟨j :: (j + 1) :: S, by simp only [List.length_cons, List.headD_cons]; unfold bucket; omega, fun y hf hs => ?_⟩
    have hb : y.bounds b.toNat = x.bounds b.toNat := by unfold IndexFile.bounds; rw [hf]
    have hz : y.size = x.size := by unfold IndexFile.size; rw [hf]
    have h4 := h3 y.sha fun i h => hs i (List.mem_cons_of_mem _ (List.mem_cons_of_mem _ h))
    simp only [IndexFile.partialShaToIndex, List.head?_cons, hb, hz, h4, hj, hs j List.mem_cons_self,
      hs (j + 1) (List.mem_cons_of_mem _ List.mem_cons_self)]

theorem closest_probes (dcl : List DeltaChunk) (absofs : Int) : ∀ (k lo hi : Nat), hi - lo < k →
    ∃ S, Few S (hi - lo) ∧ ∀ dcl' : List DeltaChunk, dcl'.length = dcl.length → (∀ i ∈ S, dcl'[i]? = dcl[i]?) →
      closestLoop .meant dcl' absofs k lo hi = closestLoop .meant dcl absofs k lo hi
  | 0, lo, hi, hk => by omega
  | k + 1, lo, hi, hk => by
    by_cases hlt : lo < hi
    · have hat : ∀ dcl' : List DeltaChunk, dcl'[(lo + hi) / 2]? = dcl[(lo + hi) / 2]? →
          pyAt dcl' (((lo + hi) / 2 : Nat) : Int) = pyAt dcl (((lo + hi) / 2 : Nat) : Int) := by
        intro dcl' h
        unfold pyAt
        simp only [show ¬ (((lo + hi) / 2 : Nat) : Int) < 0 by omega, if_false, Int.toNat_natCast, h]
      rcases hp : pyAt dcl (((lo + hi) / 2 : Nat) : Int) with e | dc
      · refine ⟨[(lo + hi) / 2], .inr (by simp; omega), fun dcl' hl hg => ?_⟩
        simp only [closestLoop, if_pos hlt, PyOps.meant, hat dcl' (hg _ List.mem_cons_self), hp]
      · by_cases h1 : dc.to > absofs
        · obtain ⟨S, a, c⟩ := closest_probes dcl absofs k lo ((lo + hi) / 2) (by omega)
          refine ⟨(lo + hi) / 2 :: S, few_half a (by omega) (by omega), fun dcl' hl hg => ?_⟩
          have := c dcl' hl fun i h => hg i (List.mem_cons_of_mem _ h)
          simp only [PyOps.meant] at this
          simp only [closestLoop, if_pos hlt, PyOps.meant, hat dcl' (hg _ List.mem_cons_self), hp, if_pos h1]
          exact this
        · by_cases h2 : dc.rbound > absofs ∨ dc.to = absofs
          · refine ⟨[(lo + hi) / 2], .inr (by simp; omega), fun dcl' hl hg => ?_⟩
            simp only [closestLoop, if_pos hlt, PyOps.meant, hat dcl' (hg _ List.mem_cons_self), hp, if_neg h1, if_pos h2]
          · obtain ⟨S, a, c⟩ := closest_probes dcl absofs k ((lo + hi) / 2 + 1) hi (by omega)
            refine ⟨(lo + hi) / 2 :: S, few_half a (by omega) (by omega), fun dcl' hl hg => ?_⟩
            have := c dcl' hl fun i h => hg i (List.mem_cons_of_mem _ h)
            simp only [PyOps.meant] at this
            simp only [closestLoop, if_pos hlt, PyOps.meant, hat dcl' (hg _ List.mem_cons_self), hp, if_neg h1, if_neg h2]
            exact this
    · exact ⟨[], .inl rfl, fun dcl' hl _ => by simp only [closestLoop, if_neg hlt, hl]⟩

/-- **C89** for `_closest_index` (with integer division, as meant). -/
theorem C89_closest (dcl : List DeltaChunk) (absofs : Int) :
    ∃ S : List Nat, S.length ≤ Nat.log2 dcl.length + 1 ∧ ∀ dcl' : List DeltaChunk, dcl'.length = dcl.length →
      (∀ i ∈ S, dcl'[i]? = dcl[i]?) → closestIndex .meant dcl' absofs = closestIndex .meant dcl absofs := by
  obtain ⟨S, h1, h2⟩ := closest_probes dcl absofs (dcl.length + 1) 0 dcl.length (by omega)
  refine ⟨S, by simpa using few_log h1, fun dcl' hl hs => ?_⟩
  unfold closestIndex
  rw [hl]
  exact h2 dcl' hl hs

theorem count_first (b : UInt8) : ∀ names : List Bytes, (∀ n ∈ names, n.length = 20) → b ≠ 0 →
    names.countP (firstLe b.toNat) = names.countP (firstLe (b.toNat - 1)) + names.countP (fun n => n.head? == some b)
  | [], _, _ => rfl
  | [] :: ns, h, _ => by simp at h
  | (c :: n) :: ns, h, h0 => by
    have ih := count_first b ns (fun m hm => h m (List.mem_cons_of_mem _ hm)) h0
    have hb : b.toNat ≠ 0 := fun e => h0 (UInt8.toNat_inj.mp (by simpa using e))
    rw [List.countP_cons, List.countP_cons, List.countP_cons, ih]
    have hc : ((c :: n).head? == some b) = true ↔ c.toNat = b.toNat := by simp [UInt8.toNat_inj]
    have h1 : firstLe b.toNat (c :: n) = true ↔ c.toNat ≤ b.toNat := by simp [firstLe]
    have h2 : firstLe (b.toNat - 1) (c :: n) = true ↔ c.toNat ≤ b.toNat - 1 := by simp [firstLe]
    simp only [hc, h1, h2]
    split <;> split <;> split <;> omega

theorem bucket_names {x : IndexFile} {names : List Bytes} (hx : IndexOf x names) (b : UInt8) :
    bucket x b.toNat = names.countP (fun n => n.head? == some b) := by
  have hb := UInt8.toNat_lt b
  unfold bucket IndexFile.bounds
  by_cases h0 : b = 0
  · subst h0
    simp only [UInt8.toNat_zero, ne_eq, not_true, if_false, Nat.sub_zero]
    rw [hx.fanout 0 (by omega)]
    refine List.countP_congr fun n hn => ?_
    have := hx.len n hn
    rcases n with _ | ⟨c, n⟩
    · simp at this
    · simp [firstLe, ← UInt8.toNat_inj]
  · have hb0 : b.toNat ≠ 0 := fun e => h0 (UInt8.toNat_inj.mp (by simpa using e))
    simp only [ne_eq, hb0, not_false_eq_true, if_true]
    rw [hx.fanout _ (by omega), hx.fanout _ (by omega), count_first b names hx.len h0]
    omega

/-- **C89** The number in it, for an index with these entries: the names with the first byte in question. -/
theorem C89_bucket (es : List Entry) (packSha idxSha : Bytes) (hv : ValidV2 es) (hs : Ascending (es.map Entry.name)) (x : IndexFile)
    (hx : IndexFile.load (indexV2 es packSha idxSha) = .ok x) (b : UInt8) :
    bucket x b.toNat = (es.map Entry.name).countP (fun n => n.head? == some b) := by
  rw [v2_load es packSha idxSha hv] at hx
  cases hx
  exact bucket_names (v2_indexOf es packSha idxSha hv hs) b

/-! ### Instances -/

/-- The bucket of the first entry of an index, and what its lookup looks at. -/
example : ∃ x, IndexFile.load (indexV2 exEntries [] []) = .ok x ∧ ∃ S : List Nat, S.length ≤ 2 ∧
    ∀ y : IndexFile, y.fanout = x.fanout → (∀ i ∈ S, y.sha i = x.sha i) →
      y.shaToIndex (0xc0 :: List.replicate 19 0) = x.shaToIndex (0xc0 :: List.replicate 19 0) := by
  refine ⟨_, v2_load exEntries [] [] exEntries_valid, ?_⟩
  obtain ⟨S, h1, h2⟩ := C89_lookup (v2File exEntries [] []) 0xc0 (List.replicate 19 0)
  refine ⟨S, ?_, h2⟩
  rw [C89_bucket exEntries [] [] exEntries_valid exEntries_asc _ (v2_load exEntries [] [] exEntries_valid)] at h1
  exact Nat.le_trans h1 (by decide)

/-- A million names with the same first byte: 20 comparisons. -/
example (x : IndexFile) (h : bucket x 7 = 1000000) (sha : Bytes) : ∃ S : List Nat, S.length ≤ 20 ∧ ∀ y : IndexFile,
    y.fanout = x.fanout → (∀ i ∈ S, y.sha i = x.sha i) → y.shaToIndex (7 :: sha) = x.shaToIndex (7 :: sha) := by
  obtain ⟨S, h1, h2⟩ := C89_lookup x 7 sha
  exact ⟨S, by rw [show UInt8.toNat 7 = 7 from rfl, h] at h1; exact Nat.le_trans h1 (by decide +kernel), h2⟩

example := C89_abbreviation (v2File exEntries [] []) [0xc0, 0x00] 3

/-- Three chunks: at most two are looked at. -/
example : ∃ S : List Nat, S.length ≤ 2 ∧ ∀ dcl' : List DeltaChunk, dcl'.length = 3 →
    (∀ i ∈ S, dcl'[i]? = ([⟨0, 4, 0, none⟩, ⟨4, 2, 0, some [1, 2]⟩, ⟨6, 3, 9, none⟩] : List DeltaChunk)[i]?) →
    closestIndex .meant dcl' 5 = .ok 1 := by
  obtain ⟨S, h1, h2⟩ := C89_closest [⟨0, 4, 0, none⟩, ⟨4, 2, 0, some [1, 2]⟩, ⟨6, 3, 9, none⟩] 5
  exact ⟨S, Nat.le_trans h1 (by decide), fun dcl' hl hs => (h2 dcl' hl hs).trans (by decide +kernel)⟩

end GitDB.Props
