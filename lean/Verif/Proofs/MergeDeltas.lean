import Verif.Model.MergeDeltas
import Verif.Spec.DeltaChain
import Verif.Proofs.Delta
import Verif.Proofs.DeltaReader
/-!
# Merging deltas: chunk lists and what they stand for
-/
set_option autoImplicit false

namespace GitDB
open Spec

/-- A chunk which can be applied to every base of `n` bytes. -/
def ChunkOk (n : Nat) (c : DeltaChunk) : Prop :=
  0 < c.ts ∧ match c.data with
    | none => 0 ≤ c.so ∧ c.so + c.ts ≤ n
    | some d => c.ts ≤ d.length

/-- Chunks which can be applied and follow each other without gaps, starting at target offset `lo`. -/
def ChunksOk (n : Nat) : Int → List DeltaChunk → Prop
  | _, [] => True
  | lo, c :: cs => c.to = lo ∧ ChunkOk n c ∧ ChunksOk n (lo + c.ts) cs

/-- Number of bytes described by chunks. -/
def chunkTotal (l : List DeltaChunk) : Int := (l.map DeltaChunk.ts).sum

/-- The bytes described by chunks. -/
def chunkOut (base : Bytes) (l : List DeltaChunk) : Bytes := l.flatMap fun c => chunkApply c base

@[simp] theorem chunkTotal_nil : chunkTotal [] = 0 := rfl
@[simp] theorem chunkTotal_cons (c : DeltaChunk) (l : List DeltaChunk) :
    chunkTotal (c :: l) = c.ts + chunkTotal l := by simp [chunkTotal]
@[simp] theorem chunkTotal_append (a b : List DeltaChunk) :
    chunkTotal (a ++ b) = chunkTotal a + chunkTotal b := by
  induction a with
  | nil => simp
  | cons c a ih => simp [ih]; omega

@[simp] theorem chunkOut_nil (base : Bytes) : chunkOut base [] = [] := rfl
@[simp] theorem chunkOut_cons (base : Bytes) (c : DeltaChunk) (l : List DeltaChunk) :
    chunkOut base (c :: l) = chunkApply c base ++ chunkOut base l := by simp [chunkOut]
@[simp] theorem chunkOut_append (base : Bytes) (a b : List DeltaChunk) :
    chunkOut base (a ++ b) = chunkOut base a ++ chunkOut base b := by simp [chunkOut]

theorem chunksOk_append (n : Nat) (a b : List DeltaChunk) : ∀ lo,
    ChunksOk n lo (a ++ b) ↔ ChunksOk n lo a ∧ ChunksOk n (lo + chunkTotal a) b := by
  induction a with
  | nil => intro lo; simp [ChunksOk]
  | cons c a ih =>
    intro lo
    simp only [List.cons_append, ChunksOk, ih, chunkTotal_cons, Int.add_assoc]
    constructor
    · rintro ⟨h1, h2, h3, h4⟩; exact ⟨⟨h1, h2, h3⟩, h4⟩
    · rintro ⟨⟨h1, h2, h3⟩, h4⟩; exact ⟨h1, h2, h3, h4⟩

theorem chunksOk_mem {n : Nat} {l : List DeltaChunk} : ∀ {lo : Int}, ChunksOk n lo l →
    ∀ c ∈ l, ChunkOk n c := by
  induction l with
  | nil => intro lo _ c hc; cases hc
  | cons a l ih =>
    intro lo h c hc
    rcases List.mem_cons.1 hc with rfl | hc
    · exact h.2.1
    · exact ih h.2.2 c hc

theorem chunkTotal_nonneg {n : Nat} {l : List DeltaChunk} : ∀ {lo : Int}, ChunksOk n lo l →
    0 ≤ chunkTotal l ∧ (l ≠ [] → 0 < chunkTotal l) := by
  induction l with
  | nil => intro lo _; simp
  | cons a l ih =>
    intro lo h
    have h1 := h.2.1.1
    have h2 := (ih h.2.2).1
    simp only [chunkTotal_cons]
    refine ⟨by omega, fun _ => by omega⟩

/-! ### one chunk -/

theorem pySliceI_nonneg (b : Bytes) (i j : Int) (hi : 0 ≤ i) (hj : 0 ≤ j) :
    pySliceI b i j = pySlice b i.toNat j.toNat := by
  simp only [pySliceI]
  rw [if_neg (by omega), if_neg (by omega)]

theorem chunkApply_copy {c : DeltaChunk} (base : Bytes) (hd : c.data = none) (h1 : 0 ≤ c.so)
    (h2 : 0 ≤ c.ts) : chunkApply c base = (base.drop c.so.toNat).take c.ts.toNat := by
  simp only [chunkApply, hd]
  rw [pySliceI_nonneg _ _ _ h1 (by omega), pySlice]
  congr 1
  omega

theorem chunkApply_data {c : DeltaChunk} (base d : Bytes) (hd : c.data = some d) (h2 : 0 ≤ c.ts) :
    chunkApply c base = d.take c.ts.toNat := by
  simp only [chunkApply, hd]
  split
  · rw [pySliceI_nonneg _ _ _ (by omega) h2, pySlice]
    simp
  · rw [List.take_of_length_le (by omega)]

theorem chunkApply_length {n : Nat} {c : DeltaChunk} (h : ChunkOk n c) (base : Bytes)
    (hb : base.length = n) : ((chunkApply c base).length : Int) = c.ts := by
  obtain ⟨h1, h2⟩ := h
  rcases hd : c.data with _ | d
  · rw [hd] at h2
    simp only at h2
    rw [chunkApply_copy base hd h2.1 (by omega), List.length_take, List.length_drop]
    omega
  · rw [hd] at h2
    simp only at h2
    rw [chunkApply_data base d hd (by omega), List.length_take]
    omega

theorem chunkOut_length {n : Nat} {l : List DeltaChunk} : ∀ {lo : Int}, ChunksOk n lo l →
    ∀ base : Bytes, base.length = n → ((chunkOut base l).length : Int) = chunkTotal l := by
  induction l with
  | nil => intro lo _ base _; simp
  | cons a l ih =>
    intro lo h base hb
    have h1 := chunkApply_length h.2.1 base hb
    have h2 := ih h.2.2 base hb
    simp only [chunkOut_cons, chunkTotal_cons, List.length_append]
    omega

/-- The last part of a chunk, cut at `size`. -/
theorem moveLbound_ok {n : Nat} {c : DeltaChunk} (h : ChunkOk n c) (k size : Int) (hk : 0 < k)
    (hk' : k < c.ts) (hs : 0 < size) :
    let t : DeltaChunk := { moveLbound c k with ts := min (moveLbound c k).ts size }
    ChunkOk n t ∧ t.to = c.to + k ∧ t.ts = min (c.ts - k) size ∧
      ∀ base, chunkApply t base = ((chunkApply c base).drop k.toNat).take t.ts.toNat := by
  obtain ⟨h1, h2⟩ := h
  have hne : k ≠ 0 := by omega
  have hm : moveLbound c k =
      ⟨c.to + k, c.ts - k, c.so + k, c.data.map fun b => pySliceI b k b.length⟩ := by
    simp [moveLbound, hne]
  simp only [hm]
  rcases hd : c.data with _ | d
  · rw [hd] at h2
    simp only at h2
    refine ⟨⟨by simp only; omega, by simp only [Option.map_none]; omega⟩, trivial, trivial, ?_⟩
    intro base
    rw [chunkApply_copy base rfl (by simp only; omega) (by simp only; omega),
      chunkApply_copy base hd h2.1 (by omega)]
    simp only [List.drop_take, List.drop_drop, List.take_take]
    rw [Int.toNat_add (by omega) (by omega)]
    congr 1
    omega
  · rw [hd] at h2
    simp only at h2
    have hsl : pySliceI d k d.length = d.drop k.toNat := by
      rw [pySliceI_nonneg _ _ _ (by omega) (by omega), pySlice]
      rw [List.take_of_length_le]
      simp
    refine ⟨⟨by simp only; omega, ?_⟩, trivial, trivial, ?_⟩
    · simp only [Option.map_some, hsl, List.length_drop]
      omega
    · intro base
      rw [chunkApply_data base (d.drop k.toNat) (by simp [hsl]) (by simp only; omega),
        chunkApply_data base d hd (by omega)]
      simp only [List.drop_take, List.take_take]
      congr 1
      omega

/-- The first part of a chunk. -/
theorem trunc_ok {n : Nat} {c : DeltaChunk} (h : ChunkOk n c) (size : Int) (hs : 0 < size)
    (hs' : size ≤ c.ts) :
    ChunkOk n { c with ts := size } ∧
      ∀ base, chunkApply { c with ts := size } base = (chunkApply c base).take size.toNat := by
  obtain ⟨h1, h2⟩ := h
  rcases hd : c.data with _ | d
  · rw [hd] at h2
    simp only at h2
    refine ⟨⟨hs, by simp only; omega⟩, ?_⟩
    intro base
    rw [chunkApply_copy base rfl (by simp only; omega) (by simp only; omega),
      chunkApply_copy base hd h2.1 (by omega)]
    simp only [List.take_take]
    congr 1
    omega
  · rw [hd] at h2
    simp only at h2
    refine ⟨⟨hs, by simp only; omega⟩, ?_⟩
    intro base
    rw [chunkApply_data base d rfl (by simp only; omega),
      chunkApply_data base d hd (by omega)]
    simp only [List.take_take]
    congr 1
    omega

/-! ### slicing -/

theorem sliceLoop_spec {n : Nat} (l : List DeltaChunk) : ∀ {lo size : Int}, ChunksOk n lo l →
    0 ≤ size → size ≤ chunkTotal l →
    ChunksOk n lo (sliceLoop l size) ∧ chunkTotal (sliceLoop l size) = size ∧
      ∀ base : Bytes, base.length = n →
        chunkOut base (sliceLoop l size) = (chunkOut base l).take size.toNat := by
  induction l with
  | nil =>
    intro lo size _ h1 h2
    simp only [chunkTotal_nil] at h2
    have : size = 0 := by omega
    subst this
    simp [sliceLoop, ChunksOk]
  | cons c l ih =>
    intro lo size h h1 h2
    simp only [chunkTotal_cons] at h2
    obtain ⟨hto, hc, hl⟩ := h
    simp only [sliceLoop]
    by_cases h0 : size = 0
    · subst h0
      simp [ChunksOk]
    · rw [if_pos h0]
      by_cases hle : c.ts ≤ size
      · rw [if_pos hle]
        obtain ⟨a1, a2, a3⟩ := ih (size := size - c.ts) hl (by omega) (by omega)
        refine ⟨⟨hto, hc, a1⟩, by simp only [chunkTotal_cons, a2]; omega, ?_⟩
        intro base hb
        have hlen := chunkApply_length hc base hb
        simp only [chunkOut_cons, a3 base hb]
        rw [List.take_append, List.take_of_length_le (l := chunkApply c base) (by omega)]
        congr 2
        omega
      · rw [if_neg hle]
        obtain ⟨b1, b2⟩ := trunc_ok hc size (by omega) (by omega)
        refine ⟨⟨hto, b1, trivial⟩, by simp, ?_⟩
        intro base hb
        have hlen := chunkApply_length hc base hb
        simp only [chunkOut_cons, chunkOut_nil, List.append_nil, b2 base]
        rw [List.take_append, show size.toNat - (chunkApply c base).length = 0 by omega]
        simp

/-- Where the chunks of a list begin. -/
theorem chunksOk_at {n : Nat} {l : List DeltaChunk} {lo : Int} (h : ChunksOk n lo l) (j : Nat)
    (hj : j < l.length) :
    l[j].to = lo + chunkTotal (l.take j) ∧ l[j].rbound = lo + chunkTotal (l.take (j + 1)) := by
  have hs : l = l.take j ++ l[j] :: l.drop (j + 1) := by
    rw [List.getElem_cons_drop, List.take_append_drop]
  have h' : ChunksOk n lo (l.take j ++ l[j] :: l.drop (j + 1)) := by rw [← hs]; exact h
  rw [chunksOk_append] at h'
  have h1 := h'.2.1
  refine ⟨h1, ?_⟩
  rw [List.take_succ_eq_append_getElem hj, chunkTotal_append, DeltaChunk.rbound, h1]
  simp
  omega

theorem chunkTotal_take_mono {n : Nat} {l : List DeltaChunk} {lo : Int} (h : ChunksOk n lo l)
    {a b : Nat} (hab : a ≤ b) : chunkTotal (l.take a) ≤ chunkTotal (l.take b) := by
  have hs : l.take b = l.take a ++ (l.take b).drop a := by
    have := List.take_append_drop a (l.take b)
    rw [List.take_take, Nat.min_eq_left hab] at this
    exact this.symm
  have hok : ChunksOk n (lo + chunkTotal (l.take a)) ((l.take b).drop a) := by
    have h2 : ChunksOk n lo (l.take b ++ l.drop b) := by rw [List.take_append_drop]; exact h
    rw [chunksOk_append] at h2
    have h3 := h2.1
    rw [hs, chunksOk_append] at h3
    exact h3.2
  have := (chunkTotal_nonneg hok).1
  rw [hs, chunkTotal_append]
  omega

theorem exists_chunk {n : Nat} (l : List DeltaChunk) : ∀ {lo : Int}, ChunksOk n lo l →
    ∀ absofs, lo ≤ absofs → absofs < lo + chunkTotal l →
    ∃ k, ∃ hk : k < l.length, l[k].to ≤ absofs ∧ absofs < l[k].rbound := by
  induction l with
  | nil => intro lo _ absofs h1 h2; simp at h2; omega
  | cons c l ih =>
    intro lo h absofs h1 h2
    by_cases hc : absofs < c.rbound
    · exact ⟨0, by simp, by simpa [h.1] using h1, by simpa using hc⟩
    · simp only [DeltaChunk.rbound, h.1] at hc
      simp only [chunkTotal_cons] at h2
      obtain ⟨k, hk, h3, h4⟩ := ih h.2.2 absofs (by omega) (by omega)
      exact ⟨k + 1, by simpa using hk, by simpa using h3, by simpa using h4⟩

theorem pyAt_nat {α : Type} (l : List α) (k : Nat) (hk : k < l.length) : pyAt l (k : Int) = .ok l[k] := by
  simp only [pyAt]
  have h0 : ¬ ((k : Int) < 0) := by omega
  simp only [if_neg h0]
  have : ((k : Int)).toNat = k := by omega
  rw [this, List.getElem?_eq_getElem hk]

theorem closestLoop_spec {n : Nat} {l : List DeltaChunk} {lo : Int} (h : ChunksOk n lo l) (absofs : Int)
    (k : Nat) (hk : k < l.length) (hk1 : l[k].to ≤ absofs) (hk2 : absofs < l[k].rbound) :
    ∀ fuel a b, a ≤ k → k < b → b ≤ l.length → b - a < fuel →
      closestLoop .meant l absofs fuel a b = .ok (k : Int) := by
  intro fuel
  induction fuel with
  | zero => intro a b _ _ _ h4; omega
  | succ fuel ih =>
    intro a b h1 h2 h3 h4
    simp only [closestLoop, PyOps.meant]
    rw [if_pos (by omega)]
    have hm : (a + b) / 2 < l.length := by omega
    simp only [pyAt_nat l _ hm]
    obtain ⟨m1, m2⟩ := chunksOk_at h _ hm
    obtain ⟨k1, k2⟩ := chunksOk_at h _ hk
    rcases Nat.lt_trichotomy ((a + b) / 2) k with hlt | heq | hgt
    · have := chunkTotal_take_mono h (show (a + b) / 2 + 1 ≤ k by omega)
      have := chunkTotal_take_mono h (show (a + b) / 2 ≤ k by omega)
      have hpos := (chunksOk_mem h _ (List.getElem_mem hm)).1
      have hto : l[(a + b) / 2].to + l[(a + b) / 2].ts = l[(a + b) / 2].rbound := rfl
      rw [if_neg (by omega), if_neg (by omega)]
      exact ih _ _ (by omega) h2 h3 (by omega)
    · simp only [heq]
      rw [if_neg (by omega), if_pos (by omega)]
    · have := chunkTotal_take_mono h (show k + 1 ≤ (a + b) / 2 by omega)
      rw [if_pos (by omega)]
      exact ih _ _ h1 hgt (by omega) (by omega)

theorem listSlice_spec {n : Nat} {l : List DeltaChunk} (h : ChunksOk n 0 l) (absofs size : Int)
    (ha : 0 ≤ absofs) (hs : 0 < size) (ht : absofs + size ≤ chunkTotal l) :
    ∃ ccl, listSlice .meant l absofs size = .ok ccl ∧ ChunksOk n absofs ccl ∧ chunkTotal ccl = size ∧
      ∀ base : Bytes, base.length = n →
        chunkOut base ccl = ((chunkOut base l).drop absofs.toNat).take size.toNat := by
  obtain ⟨k, hk, hk1, hk2⟩ := exists_chunk l h absofs ha (by omega)
  have hci : closestIndex .meant l absofs = .ok (k : Int) :=
    closestLoop_spec h absofs k hk hk1 hk2 _ 0 l.length (by omega) hk (by omega) (by omega)
  have hsplit : l = l.take k ++ l[k] :: l.drop (k + 1) := by
    rw [List.getElem_cons_drop, List.take_append_drop]
  have h' : ChunksOk n 0 (l.take k ++ l[k] :: l.drop (k + 1)) := by rw [← hsplit]; exact h
  rw [chunksOk_append] at h'
  obtain ⟨hpre, hto, hck, hpost⟩ := h'
  have htot : chunkTotal l = chunkTotal (l.take k) + (l[k].ts + chunkTotal (l.drop (k + 1))) := by
    have := congrArg chunkTotal hsplit
    rwa [chunkTotal_append, chunkTotal_cons] at this
  have hout : ∀ base, chunkOut base l =
      chunkOut base (l.take k) ++ (chunkApply l[k] base ++ chunkOut base (l.drop (k + 1))) := by
    intro base
    have := congrArg (chunkOut base) hsplit
    rwa [chunkOut_append, chunkOut_cons] at this
  have hpn := (chunkTotal_nonneg hpre).1
  have hqn := (chunkTotal_nonneg hpost).1
  simp only [DeltaChunk.rbound] at hk2
  simp only [listSlice, hci, pyAt_nat l k hk, Int.toNat_natCast]
  by_cases hne : l[k].to = absofs
  · rw [if_neg (by simp [hne])]
    obtain ⟨s1, s2, s3⟩ := sliceLoop_spec (n := n) (l.drop k) (lo := absofs) (size := size)
      (by rw [← List.getElem_cons_drop hk]
          exact ⟨hne, hck, by rw [← hne, hto]; exact hpost⟩) (by omega)
      (by rw [← List.getElem_cons_drop hk]; simp only [chunkTotal_cons]; omega)
    refine ⟨_, rfl, s1, s2, ?_⟩
    intro base hb
    rw [s3 base hb, hout base]
    have hl := chunkOut_length hpre base hb
    rw [List.drop_append, List.drop_eq_nil_of_le (as := chunkOut base (l.take k)) (by omega), List.nil_append,
      show absofs.toNat - (chunkOut base (l.take k)).length = 0 by omega, List.drop_zero,
      ← List.getElem_cons_drop hk, chunkOut_cons]
  · rw [if_pos hne]
    obtain ⟨t1, t2, t3, t4⟩ := moveLbound_ok hck (absofs - l[k].to) size (by omega) (by omega) hs
    simp only at t1 t2 t3 t4
    have hmts : (moveLbound l[k] (absofs - l[k].to)).ts = l[k].ts - (absofs - l[k].to) := by
      simp only [moveLbound]
      rw [if_neg (by omega)]
    obtain ⟨s1, s2, s3⟩ := sliceLoop_spec (n := n) (l.drop (k + 1)) (lo := 0 + chunkTotal (l.take k) + l[k].ts)
      (size := size - min (moveLbound l[k] (absofs - l[k].to)).ts size) hpost (by omega) (by omega)
    refine ⟨_, rfl, ⟨by rw [t2]; omega, t1, ?_⟩, ?_, ?_⟩
    · by_cases hcut : l[k].ts - (absofs - l[k].to) ≤ size
      · simp only
        have : absofs + min (moveLbound l[k] (absofs - l[k].to)).ts size =
            0 + chunkTotal (l.take k) + l[k].ts := by omega
        rw [this]
        exact s1
      · have : size - min (moveLbound l[k] (absofs - l[k].to)).ts size = 0 := by omega
        rw [this]
        cases l.drop (k + 1) with
        | nil => simp [sliceLoop, ChunksOk]
        | cons x xs => simp [sliceLoop, ChunksOk]
    · simp only [chunkTotal_cons, s2]
      omega
    · intro base hb
      rw [chunkOut_cons, t4 base, s3 base hb, hout base]
      have hl := chunkOut_length hpre base hb
      have hlk := chunkApply_length hck base hb
      rw [List.drop_append, List.drop_eq_nil_of_le (as := chunkOut base (l.take k)) (by omega), List.nil_append,
        List.drop_append, List.take_append]
      have e1 : absofs.toNat - (chunkOut base (l.take k)).length = (absofs - l[k].to).toNat := by omega
      rw [e1]
      have e2 : (absofs - l[k].to).toNat - (chunkApply l[k] base).length = 0 := by omega
      rw [e2, List.drop_zero]
      by_cases hcut : l[k].ts - (absofs - l[k].to) ≤ size
      · rw [List.take_of_length_le (by rw [List.length_drop]; omega),
          List.take_of_length_le (i := size.toNat) (by rw [List.length_drop]; omega)]
        congr 2
        rw [List.length_drop]
        omega
      · have e3 : (size - min (moveLbound l[k] (absofs - l[k].to)).ts size).toNat = 0 := by omega
        have e4 : size.toNat - ((chunkApply l[k] base).drop (absofs - l[k].to).toNat).length = 0 := by
          rw [List.length_drop]; omega
        rw [e3, e4]
        congr 2
        omega

/-! ### connecting with the next base -/

theorem chunkApply_shift (c : DeltaChunk) (x : Int) (base : Bytes) :
    chunkApply { c with to := x } base = chunkApply c base := rfl

theorem chunksOk_shift {n : Nat} (l : List DeltaChunk) (d : Int) : ∀ {lo : Int}, ChunksOk n lo l →
    ChunksOk n (lo + d) (l.map fun c => { c with to := c.to + d }) := by
  induction l with
  | nil => intro lo _; trivial
  | cons c l ih =>
    intro lo h
    obtain ⟨h1, h2, h3⟩ := h
    refine ⟨by simp [h1], h2, ?_⟩
    have := ih h3
    simp only
    rw [show lo + d + c.ts = lo + c.ts + d by omega]
    exact this

theorem chunkTotal_shift (l : List DeltaChunk) (d : Int) :
    chunkTotal (l.map fun c => { c with to := c.to + d }) = chunkTotal l := by
  induction l with
  | nil => rfl
  | cons c l ih => simp [ih]

theorem chunkOut_shift (l : List DeltaChunk) (d : Int) (base : Bytes) :
    chunkOut base (l.map fun c => { c with to := c.to + d }) = chunkOut base l := by
  induction l with
  | nil => rfl
  | cons c l ih => simp [ih, chunkApply_shift]

theorem connectChunks_spec {n m : Nat} {bdcl : List DeltaChunk} (hb : ChunksOk n 0 bdcl)
    (hm : chunkTotal bdcl = m) (l : List DeltaChunk) : ∀ {lo : Int}, ChunksOk m lo l →
    ∃ l' nfc, connectChunks .meant bdcl l = .ok (l', nfc) ∧ ChunksOk n lo l' ∧
      chunkTotal l' = chunkTotal l ∧
      (∀ base : Bytes, base.length = n → chunkOut base l' = chunkOut (chunkOut base bdcl) l) ∧
      nfc ≤ l'.length ∧ (nfc = l'.length → ∀ c ∈ l', c.data ≠ none) := by
  induction l with
  | nil => intro lo _; exact ⟨[], 0, rfl, trivial, rfl, fun _ _ => rfl, by simp, by simp⟩
  | cons c l ih =>
    intro lo h
    obtain ⟨hto, hc, hl⟩ := h
    obtain ⟨l', nfc, e1, e2, e3, e4, e5, e6⟩ := ih hl
    rcases hd : c.data with _ | d
    · obtain ⟨h1, h2⟩ := hc
      rw [hd] at h2
      simp only at h2
      obtain ⟨ccl, s1, s2, s3, s4⟩ := listSlice_spec hb c.so c.ts h2.1 h1 (by omega)
      refine ⟨(ccl.map fun x => { x with to := x.to + (c.to - c.so) }) ++ l', nfc, ?_, ?_, ?_, ?_, ?_, ?_⟩
      · simp only [connectChunks, hd, s1, e1]
      · rw [chunksOk_append, chunkTotal_shift, s3]
        refine ⟨?_, e2⟩
        have := chunksOk_shift ccl (c.to - c.so) s2
        rw [show c.so + (c.to - c.so) = lo by omega] at this
        exact this
      · rw [chunkTotal_append, chunkTotal_shift, s3, e3, chunkTotal_cons]
      · intro base hbase
        rw [chunkOut_append, chunkOut_shift, s4 base hbase, e4 base hbase, chunkOut_cons,
          chunkApply_copy _ hd h2.1 (by omega)]
      · rw [List.length_append]; omega
      · intro hn
        rw [List.length_append, List.length_map] at hn
        have : ccl ≠ [] := by
          intro h0
          rw [h0] at s3
          simp at s3
          omega
        have := List.length_pos_iff.2 this
        omega
    · refine ⟨c :: l', nfc + 1, by simp only [connectChunks, hd, e1], ⟨hto, ?_, e2⟩,
        by simp [e3], ?_, by simp; omega, ?_⟩
      · obtain ⟨h1, h2⟩ := hc
        rw [hd] at h2
        exact ⟨h1, by rw [hd]; exact h2⟩
      · intro base hbase
        simp only [chunkOut_cons, e4 base hbase]
        rw [chunkApply_data _ d hd (by have := hc.1; omega), chunkApply_data _ d hd (by have := hc.1; omega)]
      · intro hn x hx
        rcases List.mem_cons.1 hx with rfl | hx
        · simp [hd]
        · exact e6 (by simpa using hn) x hx

/-- Chunks which all have data do not need a base. -/
theorem chunkOut_frozen {n : Nat} (l : List DeltaChunk) : ∀ {lo : Int}, ChunksOk n lo l →
    (∀ c ∈ l, c.data ≠ none) → ∀ base base' : Bytes, chunkOut base l = chunkOut base' l := by
  induction l with
  | nil => intros; rfl
  | cons c l ih =>
    intro lo h hd base base'
    obtain ⟨_, hc, hl⟩ := h
    rcases hdc : c.data with _ | d
    · exact absurd hdc (hd c (by simp))
    · have := hc.1
      rw [chunkOut_cons, chunkOut_cons, ih hl (fun x hx => hd x (by simp [hx])) base base',
        chunkApply_data _ d hdc (by omega), chunkApply_data _ d hdc (by omega)]

/-! ### compressing -/

theorem joinData_spec {n : Nat} (l : List DeltaChunk) : ∀ {lo : Int}, ChunksOk n lo l →
    (∀ c ∈ l, c.data ≠ none) → ∃ buf, joinData .meant l = .ok buf ∧ (buf.length : Int) = chunkTotal l ∧
      ∀ base, chunkOut base l = buf := by
  induction l with
  | nil => intro lo _ _; exact ⟨[], rfl, rfl, fun _ => rfl⟩
  | cons c l ih =>
    intro lo h hd
    obtain ⟨_, hc, hl⟩ := h
    obtain ⟨buf, e1, e2, e3⟩ := ih hl (fun x hx => hd x (by simp [hx]))
    rcases hdc : c.data with _ | d
    · exact absurd hdc (hd c (by simp))
    · have h1 := hc.1
      have h2 := hc.2
      rw [hdc] at h2
      simp only at h2
      have hs : pySliceI d 0 c.ts = d.take c.ts.toNat := by
        rw [pySliceI_nonneg _ _ _ (by omega) (by omega)]
        simp [pySlice]
      refine ⟨d.take c.ts.toNat ++ buf, ?_, ?_, ?_⟩
      · have ht : PyOps.meant.text (d.take c.ts.toNat) = .ok (d.take c.ts.toNat) := rfl
        simp only [joinData, hdc, hs, ht, e1]
      · rw [List.length_append, List.length_take, chunkTotal_cons]
        omega
      · intro base
        rw [chunkOut_cons, chunkApply_data _ d hdc (by omega), e3 base]

theorem compressLoop_spec {n : Nat} : ∀ (fuel : Nat) (l : List DeltaChunk) (i : Nat) (first : Option Nat)
    (lo : Int), ChunksOk n lo l → i ≤ l.length →
    (∀ f, first = some f → f < i ∧ ∀ c ∈ (l.take i).drop f, c.data ≠ none) →
    (l.length - i) + l.length < fuel →
    ∃ l', compressLoop .meant fuel l i first = .ok l' ∧ ChunksOk n lo l' ∧
      chunkTotal l' = chunkTotal l ∧ ∀ base, chunkOut base l' = chunkOut base l := by
  intro fuel
  induction fuel with
  | zero => intro l i first lo _ _ _ h; omega
  | succ fuel ih =>
    intro l i first lo h hi hf hfu
    simp only [compressLoop]
    by_cases hlt : i < l.length
    · rw [if_pos hlt]
      simp only [List.getElem?_eq_getElem hlt]
      rcases hd : l[i].data with _ | d
      · simp only
        rcases first with _ | f
        · exact ih l (i + 1) none lo h (by omega) (by simp) (by omega)
        · obtain ⟨hfi, hfd⟩ := hf f rfl
          simp only
          split
          · next hbig =>
            have hfl : f < l.length := by omega
            simp only [List.getElem?_eq_getElem hfl, Nat.add_sub_cancel]
            have hsplit : l = l.take f ++ ((l.take i).drop f ++ l.drop i) := by
              have h1 : l.take f = (l.take i).take f := by
                rw [List.take_take, Nat.min_eq_left (by omega)]
              rw [h1, ← List.append_assoc, List.take_append_drop, List.take_append_drop]
            have h' : ChunksOk n lo (l.take f ++ ((l.take i).drop f ++ l.drop i)) := by
              rw [← hsplit]; exact h
            rw [chunksOk_append, chunksOk_append] at h'
            obtain ⟨ha, hdd, hr⟩ := h'
            obtain ⟨buf, j1, j2, j3⟩ := joinData_spec _ hdd hfd
            have htot := congrArg chunkTotal hsplit
            rw [chunkTotal_append, chunkTotal_append] at htot
            have hlen : ((l.take i).drop f).length = i - f := by
              rw [List.length_drop, List.length_take]; omega
            have hne : (l.take i).drop f ≠ [] := by
              intro h0; rw [h0] at hlen; simp at hlen; omega
            have hpos := (chunkTotal_nonneg hdd).2 hne
            have hto := (chunksOk_at h f hfl).1
            rw [j1]
            simp only
            have g1 : ChunksOk n lo (l.take f ++ ⟨l[f].to, buf.length, 0, some buf⟩ :: l.drop i) := by
              rw [chunksOk_append]
              refine ⟨ha, hto, ⟨by simp only; omega, by simp⟩, ?_⟩
              simp only [j2]
              exact hr
            have g2 : (l.take f ++ (⟨l[f].to, buf.length, 0, some buf⟩ : DeltaChunk) :: l.drop i).length =
                f + 1 + (l.length - i) := by
              simp only [List.length_append, List.length_cons, List.length_take, List.length_drop]
              omega
            obtain ⟨l', e1, e2, e3, e4⟩ := ih _ (f + 1) none lo g1 (by omega) (by simp) (by omega)
            refine ⟨l', e1, e2, ?_, ?_⟩
            · rw [e3, chunkTotal_append, chunkTotal_cons, htot]
              simp only
              omega
            · intro base
              have hout := congrArg (chunkOut base) hsplit
              rw [chunkOut_append, chunkOut_append] at hout
              rw [e4 base, hout, chunkOut_append, chunkOut_cons, j3 base,
                chunkApply_data base buf rfl (by simp)]
              simp
          · exact ih l (i + 1) none lo h (by omega) (by simp) (by omega)
      · simp only
        refine ih l (i + 1) _ lo h (by omega) ?_ (by omega)
        intro f hff
        have htk : l.take (i + 1) = l.take i ++ [l[i]] := List.take_succ_eq_append_getElem hlt
        rcases first with _ | f'
        · simp only [Option.getD_none, Nat.add_sub_cancel, Option.some.injEq] at hff
          subst hff
          refine ⟨by omega, ?_⟩
          rw [htk, List.drop_append, List.drop_eq_nil_of_le (by simp; omega)]
          intro c hc
          have : i - (l.take i).length = 0 := by simp; omega
          rw [this] at hc
          simp at hc
          rw [hc, hd]
          simp
        · simp only [Option.getD_some, Option.some.injEq] at hff
          subst hff
          obtain ⟨hfi, hfd⟩ := hf f' rfl
          refine ⟨by omega, ?_⟩
          rw [htk, List.drop_append]
          intro c hc
          have : f' - (l.take i).length = 0 := by simp; omega
          rw [this] at hc
          rcases List.mem_append.1 hc with hc | hc
          · exact hfd c hc
          · simp at hc
            rw [hc, hd]
            simp
    · rw [if_neg hlt]
      exact ⟨l, rfl, h, rfl, fun _ => rfl⟩

theorem compress_spec {n : Nat} {lo : Int} (l : List DeltaChunk) (h : ChunksOk n lo l) :
    ∃ l', compress .meant l = .ok l' ∧ ChunksOk n lo l' ∧ chunkTotal l' = chunkTotal l ∧
      ∀ base, chunkOut base l' = chunkOut base l := by
  simp only [compress]
  split
  · exact ⟨l, rfl, h, rfl, fun _ => rfl⟩
  · exact compressLoop_spec _ l 0 none lo h (by omega) (by simp) (by omega)

/-! ### reading one delta -/

/-- The chunks of instructions, one for each; the first writes at `pos`. -/
def chunkList : Nat → List Instr → List DeltaChunk
  | _, [] => []
  | pos, .copy o0 o1 o2 o3 s0 s1 s2 :: is =>
    ⟨pos, copySize s0 s1 s2, copyOff o0 o1 o2 o3, none⟩ :: chunkList (pos + copySize s0 s1 s2) is
  | pos, .insert d :: is => ⟨pos, d.length, 0, some d⟩ :: chunkList (pos + d.length) is

theorem parseChunks_spec (n : Nat) (is : List Instr) : ∀ (pre : Bytes) (tbw : Nat),
    (∀ x ∈ is, x.Valid n) →
    ∃ l, parseChunks .meant (pre ++ encodeAll is) (pre ++ encodeAll is).length n pre.length tbw = .ok l ∧
      l = chunkList tbw is ∧
      ChunksOk n tbw l ∧ ∀ base : Bytes, base.length = n → chunkOut base l = runAll base is := by
  induction is with
  | nil =>
    intro pre tbw _
    refine ⟨[], ?_, rfl, trivial, fun _ _ => rfl⟩
    rw [parseChunks, dif_neg (by simp [encodeAll])]
  | cons x is ih =>
    intro pre tbw hv
    have hx := hv x (by simp)
    have hpe : pre ++ encodeAll (x :: is) = (pre ++ x.encode) ++ encodeAll is := by simp [encodeAll]
    cases x with
    | copy o0 o1 o2 o3 s0 s1 s2 =>
      obtain ⟨hc, h80, _⟩ := copyOp_bits o0 o1 o2 o3 s0 s1 s2
      obtain ⟨l, e1, e0, e2, e3⟩ := ih (pre ++ (Instr.copy o0 o1 o2 o3 s0 s1 s2).encode)
        (tbw + copySize s0 s1 s2) (fun y hy => hv y (by simp [hy]))
      have hpos := copySize_pos s0 s1 s2
      simp only [Instr.Valid] at hx
      refine ⟨⟨tbw, copySize s0 s1 s2, copyOff o0 o1 o2 o3, none⟩ :: l, ?_, by rw [e0, chunkList], ?_, ?_⟩
      · have hlt : pre.length < (pre ++ encodeAll (.copy o0 o1 o2 o3 s0 s1 s2 :: is)).length := by
          simp [encodeAll, Instr.encode]
        have hidx : (pre ++ encodeAll (.copy o0 o1 o2 o3 s0 s1 s2 :: is))[pre.length]? =
            some (UInt8.ofNat (copyOp o0 o1 o2 o3 s0 s1 s2)) := by
          simp [encodeAll, Instr.encode]
        have hdec : decodeCopy (pre ++ encodeAll (.copy o0 o1 o2 o3 s0 s1 s2 :: is))
            (copyOp o0 o1 o2 o3 s0 s1 s2) (pre.length + 1) =
            .ok (copyOff o0 o1 o2 o3, copySize s0 s1 s2,
              (pre ++ (Instr.copy o0 o1 o2 o3 s0 s1 s2).encode).length) := by
          have := decodeCopy_spec o0 o1 o2 o3 s0 s1 s2
            (pre ++ [UInt8.ofNat (copyOp o0 o1 o2 o3 s0 s1 s2)]) (encodeAll is)
          simp only [List.length_append, List.length_singleton] at this
          simp only [encodeAll, List.flatMap_cons, Instr.encode]
          simpa [encodeAll, Nat.add_assoc, Nat.add_comm, Nat.add_left_comm] using this
        rw [parseChunks, dif_pos hlt, hidx]
        simp only [PyOps.meant, toNat_ofNat hc]
        rw [if_pos h80]
        split
        · next e h => rw [hdec] at h; cases h
        · next off sz j h =>
          rw [hdec] at h
          injection h with h
          injection h with h1 h
          injection h with h2 h3
          subst h1 h2 h3
          rw [if_neg (by omega)]
          rw [hpe]
          simp only [PyOps.meant] at e1
          rw [e1]
      · refine ⟨rfl, ⟨by simp only; omega, by simp only; omega⟩, ?_⟩
        simp only
        rw [show (tbw : Int) + (copySize s0 s1 s2 : Int) = ((tbw + copySize s0 s1 s2 : Nat) : Int) by omega]
        exact e2
      · intro base hb
        rw [chunkOut_cons, e3 base hb, chunkApply_copy base rfl (by simp only; omega) (by simp only; omega)]
        simp [runAll, Instr.run]
    | insert d =>
      obtain ⟨l, e1, e0, e2, e3⟩ := ih (pre ++ (Instr.insert d).encode)
        (tbw + d.length) (fun y hy => hv y (by simp [hy]))
      simp only [Instr.Valid] at hx
      have hdl : (UInt8.ofNat d.length).toNat = d.length := toNat_ofNat (by omega)
      have h80 : d.length &&& 0x80 = 0 := (and_80_eq_zero (by omega)).mpr (by omega)
      refine ⟨⟨tbw, d.length, 0, some d⟩ :: l, ?_, by rw [e0, chunkList], ?_, ?_⟩
      · have hlt : pre.length < (pre ++ encodeAll (.insert d :: is)).length := by
          simp [encodeAll, Instr.encode]
        have hidx : (pre ++ encodeAll (.insert d :: is))[pre.length]? =
            some (UInt8.ofNat d.length) := by
          simp [encodeAll, Instr.encode]
        have hsl : pySlice (pre ++ encodeAll (.insert d :: is)) (pre.length + 1)
            (pre.length + 1 + d.length) = d := by
          have : (pre ++ encodeAll (.insert d :: is)).drop (pre.length + 1) = d ++ encodeAll is := by
            simp [encodeAll, Instr.encode]
          rw [pySlice, this, show pre.length + 1 + d.length - (pre.length + 1) = d.length by omega]
          simp
        rw [parseChunks, dif_pos hlt, hidx]
        simp only [PyOps.meant, hdl]
        rw [if_neg (by simp [h80]), if_pos (by omega), hsl]
        simp only [PyOps.meant] at e1
        have hl2 : (pre ++ (Instr.insert d).encode).length = pre.length + 1 + d.length := by
          simp [Instr.encode]; omega
        rw [hl2] at e1
        rw [hpe, e1]
      · refine ⟨rfl, ⟨by simp only; omega, by simp⟩, ?_⟩
        simp only
        rw [show (tbw : Int) + (d.length : Int) = ((tbw + d.length : Nat) : Int) by omega]
        exact e2
      · intro base hb
        rw [chunkOut_cons, e3 base hb, chunkApply_data base d rfl (by simp only; omega)]
        simp [runAll, Instr.run]

theorem readChunks_spec {d : DeltaObj} {base : Bytes} (h : d.Fits base) :
    ∃ l, readChunks .meant d.bytes d.bytes.length = .ok l ∧ ChunksOk base.length 0 l ∧
      chunkTotal l = (d.run base).length ∧
      ∀ b : Bytes, b.length = base.length → chunkOut b l = d.run b := by
  have m1 := msbSize_at [] d.src (d.tgt ++ encodeAll d.instrs) h.src_term
  have m2 := msbSize_at d.src d.tgt (encodeAll d.instrs) h.tgt_term
  simp only [List.nil_append, List.length_nil, Nat.zero_add] at m1
  obtain ⟨l, e1, -, e2, e3⟩ := parseChunks_spec base.length d.instrs (d.src ++ d.tgt) 0 h.valid
  obtain ⟨l', c1, c2, c3, c4⟩ := compress_spec l e2
  have hby : d.bytes = (d.src ++ d.tgt) ++ encodeAll d.instrs := by simp [DeltaObj.bytes]
  refine ⟨l', ?_, c2, ?_, ?_⟩
  · simp only [readChunks, DeltaObj.bytes, m1, bind, Except.bind]
    rw [m2]
    simp only [h.src_size]
    have hl : (d.src ++ d.tgt).length = d.src.length + d.tgt.length := List.length_append
    rw [hl] at e1
    rw [← List.append_assoc, e1]
    exact c1
  · rw [c3, ← chunkOut_length e2 base rfl, e3 base rfl]
    rfl
  · intro b hb
    rw [c4 b, e3 b hb]
    rfl

/-! ### the whole chain -/

/-- The list of streams for a chain, topmost delta first. -/
def chainStreams (ds : List DeltaObj) : List (Bytes × Nat) :=
  ds.reverse.map fun d => (d.bytes, d.bytes.length)

theorem chainFits_append (a b : List DeltaObj) : ∀ (base : Bytes), ChainFits base (a ++ b) ↔
    ChainFits base a ∧ ChainFits (resolveChain base a) b := by
  induction a with
  | nil => intro base; simp [ChainFits, resolveChain]
  | cons x a ih =>
    intro base
    simp only [List.cons_append, ChainFits, ih, and_assoc]
    rfl

theorem connectLoop_spec (base : Bytes) : ∀ (k : Nat) (ds : List DeltaObj) (tdcl : List DeltaChunk) (result : Bytes),
    ds.length = k → ChainFits base ds → ChunksOk (resolveChain base ds).length 0 tdcl →
    chunkOut (resolveChain base ds) tdcl = result →
    ∃ l, connectLoop .meant tdcl (chainStreams ds) = .ok l ∧ ChunksOk base.length 0 l ∧
      chunkTotal l = chunkTotal tdcl ∧ chunkOut base l = result := by
  intro k
  induction k with
  | zero =>
    intro ds tdcl result hk hc ht hr
    have : ds = [] := List.length_eq_zero_iff.1 hk
    subst this
    exact ⟨tdcl, rfl, ht, rfl, hr⟩
  | succ k ih =>
    intro ds tdcl result hk hc ht hr
    rcases List.eq_nil_or_concat ds with h0 | ⟨ds', d, h0⟩
    · subst h0; simp at hk
    · rw [List.concat_eq_append] at h0
      subst h0
      rw [chainFits_append] at hc
      obtain ⟨hc1, hfit, _⟩ := hc
      have hres : resolveChain base (ds' ++ [d]) = d.run (resolveChain base ds') := by
        simp [resolveChain]
      rw [hres] at ht hr
      obtain ⟨dcl, r1, r2, r3, r4⟩ := readChunks_spec hfit
      obtain ⟨l', nfc, e1, e2, e3, e4, e5, e6⟩ := connectChunks_spec r2 r3 tdcl ht
      have hst : chainStreams (ds' ++ [d]) = (d.bytes, d.bytes.length) :: chainStreams ds' := by
        simp [chainStreams]
      have hr' : chunkOut (resolveChain base ds') l' = result := by
        rw [e4 _ rfl, r4 _ rfl, hr]
      rw [hst]
      simp only [connectLoop, r1, e1, bind, Except.bind, pure, Except.pure]
      by_cases hn : nfc = l'.length
      · rw [if_pos hn]
        refine ⟨l', rfl, ?_, e3, ?_⟩
        · have hall := e6 hn
          clear e1 e3 e4 e5 e6 hr' hn
          generalize (0 : Int) = lo at e2
          revert lo
          induction l' with
          | nil => intro lo _; trivial
          | cons c l' ih' =>
            intro lo e2
            obtain ⟨h1, h2, h3⟩ := e2
            refine ⟨h1, ⟨h2.1, ?_⟩, ih' (fun x hx => hall x (by simp [hx])) _ h3⟩
            have h22 := h2.2
            rcases hd : c.data with _ | dd
            · exact absurd hd (hall c (by simp))
            · rw [hd] at h22
              simpa using h22
        · rw [← hr']
          exact chunkOut_frozen l' e2 (e6 hn) _ _
      · rw [if_neg hn]
        obtain ⟨l, f1, f2, f3, f4⟩ := ih ds' l' result (by simp at hk; omega) hc1 e2 hr'
        exact ⟨l, f1, f2, f3.trans e3, f4⟩

theorem connectDeltas_spec (base : Bytes) (ds : List DeltaObj) (hne : ds ≠ []) (h : ChainFits base ds) :
    ∃ l, connectDeltas .meant (chainStreams ds) = .ok l ∧ ChunksOk base.length 0 l ∧
      chunkTotal l = (resolveChain base ds).length ∧ chunkOut base l = resolveChain base ds := by
  rcases List.eq_nil_or_concat ds with h0 | ⟨ds', d, h0⟩
  · exact absurd h0 hne
  · rw [List.concat_eq_append] at h0
    subst h0
    rw [chainFits_append] at h
    obtain ⟨hc1, hfit, _⟩ := h
    have hres : resolveChain base (ds' ++ [d]) = d.run (resolveChain base ds') := by
      simp [resolveChain]
    obtain ⟨dcl, r1, r2, r3, r4⟩ := readChunks_spec hfit
    obtain ⟨l, f1, f2, f3, f4⟩ := connectLoop_spec base ds'.length ds' dcl _ rfl hc1 r2 rfl
    have hst : chainStreams (ds' ++ [d]) = (d.bytes, d.bytes.length) :: chainStreams ds' := by
      simp [chainStreams]
    rw [hst, hres]
    refine ⟨l, ?_, f2, f3.trans r3, by rw [f4, r4 _ rfl]⟩
    simp only [connectDeltas, r1, bind, Except.bind]
    exact f1

theorem listApply_collect (base : Bytes) (l : List DeltaChunk) : ∀ w,
    listApply base collect w l = (w ++ chunkOut base l, .ok ()) := by
  induction l with
  | nil => intro w; simp [listApply]
  | cons c l ih => intro w; simp [listApply, collect, ih]

end GitDB
