import Verif.Proofs.MergeDeltas
import Verif.Props.DeltaReader
/-!
# C09: merging a chain of deltas
-/
set_option autoImplicit false

namespace GitDB.Props
open GitDB Spec

/-- The streams given to `connect_deltas` for a chain: what `read()` returns and `size`, topmost delta
first. -/
def deltaStreams (ds : List DeltaObj) : List (Bytes × Nat) :=
  ds.reverse.map fun d => (d.bytes, d.bytes.length)

/-- The chunk list describes `size` bytes without gap or overlap: what `check_integrity(size)`,
`gitdb/fun.py` 291-319, was written to verify, and in addition that the list starts at 0 and that copies
stay inside of the base. -/
structure Integrity (baseSize size : Nat) (l : List DeltaChunk) : Prop where
  size_eq : (l.map DeltaChunk.ts).sum = size
  bound : ∀ c, l.getLast? = some c → c.to + c.ts = size
  start : ∀ c, l.head? = some c → c.to = 0
  contiguous : ∀ i (h : i + 1 < l.length), l[i].to + l[i].ts = l[i + 1].to
  positive : ∀ c ∈ l, 0 < c.ts
  data : ∀ c ∈ l, ∀ d, c.data = some d → c.ts ≤ d.length
  copy : ∀ c ∈ l, c.data = none → 0 ≤ c.so ∧ c.so + c.ts ≤ baseSize

/-- Full statement: in Python 3, merging any chain of deltas and applying the merged list to the base is
the same as applying the deltas one after the other. -/
def C09_full : Prop :=
  ∀ (base : Bytes) (ds : List DeltaObj), ds ≠ [] → ChainFits base ds →
    ∃ l, connectDeltas .python3 (deltaStreams ds) = .ok l ∧
      listApply base collect [] l = (resolveChain base ds, .ok ())

theorem integrity_of {n size : Nat} {l : List DeltaChunk} (h : ChunksOk n 0 l) (ht : chunkTotal l = size) :
    Integrity n size l := by
  have hat := fun j (hj : j < l.length) => chunksOk_at h j hj
  refine ⟨ht, ?_, ?_, ?_, ?_, ?_, ?_⟩
  · intro c hc
    rw [List.getLast?_eq_getElem?] at hc
    obtain ⟨hl, rfl⟩ := List.getElem?_eq_some_iff.1 hc
    have := (hat (l.length - 1) hl).2
    rw [show l.length - 1 + 1 = l.length by omega, List.take_length] at this
    simp only [DeltaChunk.rbound] at this
    omega
  · intro c hc
    cases l with
    | nil => simp at hc
    | cons a l => simp at hc; subst hc; exact h.1
  · intro i hi
    have h1 := (hat i (by omega)).2
    have h2 := (hat (i + 1) hi).1
    simp only [DeltaChunk.rbound] at h1
    omega
  · intro c hc; exact (chunksOk_mem h c hc).1
  · intro c hc d hd
    have := (chunksOk_mem h c hc).2
    rw [hd] at this
    exact this
  · intro c hc hd
    have := (chunksOk_mem h c hc).2
    rw [hd] at this
    exact this

/-- **C09**, with the three Python 2 constructs read as they were meant: for every chain of deltas which
fit, whatever their number and however their chunks overlap, merging succeeds; the merged list applied to
the base writes exactly the object obtained by applying the deltas one by one; `rbound()` is its size; and
the list has no gaps and overlaps.  Missing for `C09_full`: in Python 3 the code does not get that far,
see `C09_python3`. -/
theorem C09_merge_partial (base : Bytes) (ds : List DeltaObj) (hne : ds ≠ []) (h : ChainFits base ds) :
    ∃ l, connectDeltas .meant (deltaStreams ds) = .ok l ∧
      listApply base collect [] l = (resolveChain base ds, .ok ()) ∧
      listRbound l = (resolveChain base ds).length ∧
      Integrity base.length (resolveChain base ds).length l := by
  obtain ⟨l, h1, h2, h3, h4⟩ := connectDeltas_spec base ds hne h
  have hi := integrity_of h2 h3
  refine ⟨l, h1, by rw [listApply_collect, h4]; rfl, ?_, hi⟩
  simp only [listRbound]
  rcases hl : l.getLast? with _ | c
  · have := List.getLast?_eq_none_iff.1 hl
    subst this
    simp only
    have := hi.size_eq
    simpa using this
  · exact hi.bound c hl

/-- **C09** the part of a delta taken by `delta_list_slice`, `gitdb/fun.py` 182-214: for any list without gaps and
any range inside of it, the slice describes exactly the bytes of the range.  (Python 2 reading.) -/
theorem C09_slice_partial {n size : Nat} {l : List DeltaChunk} (base : Bytes) (hb : base.length = n)
    (hi : Integrity n size l) (absofs len : Nat) (hl : 0 < len) (ha : absofs + len ≤ size) :
    ∃ ccl, listSlice .meant l absofs len = .ok ccl ∧
      (listApply base collect [] ccl).1 = ((listApply base collect [] l).1.drop absofs).take len := by
  have hok : ∀ (l : List DeltaChunk) (lo : Int), (∀ c, l.head? = some c → c.to = lo) →
      (∀ i (h : i + 1 < l.length), l[i].to + l[i].ts = l[i + 1].to) → (∀ c ∈ l, ChunkOk n c) →
      ChunksOk n lo l := by
    intro l
    induction l with
    | nil => intros; trivial
    | cons a l ih =>
      intro lo h1 h2 h3
      have ha := h1 a rfl
      refine ⟨ha, h3 a (by simp), ih _ ?_ ?_ (fun c hc => h3 c (by simp [hc]))⟩
      · intro c hc
        cases l with
        | nil => simp at hc
        | cons b l =>
          simp at hc; subst hc
          have := h2 0 (by simp)
          simp at this
          omega
      · intro i hi
        have := h2 (i + 1) (by simpa using hi)
        simpa using this
  have h : ChunksOk n 0 l := by
    refine hok l 0 hi.start hi.contiguous (fun c hc => ⟨hi.positive c hc, ?_⟩)
    rcases hd : c.data with _ | d
    · exact hi.copy c hc hd
    · exact hi.data c hc d hd
  have ht : chunkTotal l = size := hi.size_eq
  obtain ⟨ccl, s1, _, _, s4⟩ := listSlice_spec h (absofs : Int) (len : Int) (by omega) (by omega)
    (by omega)
  refine ⟨ccl, s1, ?_⟩
  simp only [listApply_collect, List.nil_append]
  simpa using s4 base hb

/-- **C09** `compress` changes neither the bytes nor the bounds (Python 2 reading). -/
theorem C09_compress_partial {n : Nat} {l : List DeltaChunk} (h : ChunksOk n 0 l) (base : Bytes) :
    ∃ l', compress .meant l = .ok l' ∧ ChunksOk n 0 l' ∧
      listApply base collect [] l' = listApply base collect [] l := by
  obtain ⟨l', h1, h2, _, h4⟩ := compress_spec l h
  exact ⟨l', h1, h2, by simp only [listApply_collect, h4 base]⟩

/-- **C09** what Python 3 does: for every chain whose topmost delta has an instruction - whatever the
instructions are - `connect_deltas` raises `TypeError`. -/
theorem C09_python3 (d : DeltaObj) (rest : List (Bytes × Nat)) (hs : Terminated d.src)
    (ht : Terminated d.tgt) (hi : d.instrs ≠ []) :
    connectDeltas .python3 ((d.bytes, d.bytes.length) :: rest) = .error .typeError := by
  have m1 := msbSize_at [] d.src (d.tgt ++ encodeAll d.instrs) hs
  have m2 := msbSize_at d.src d.tgt (encodeAll d.instrs) ht
  simp only [List.nil_append, List.length_nil, Nat.zero_add] at m1
  have hne : 0 < (encodeAll d.instrs).length := by
    cases hd : d.instrs with
    | nil => exact absurd hd hi
    | cons x l => cases x <;> simp [encodeAll, Instr.encode]
  have hp : parseChunks .python3 d.bytes d.bytes.length (leValue d.src) (d.src.length + d.tgt.length) 0 =
      .error .typeError := by
    have hlt : d.src.length + d.tgt.length < d.bytes.length := by
      simp only [DeltaObj.bytes, List.length_append]; omega
    rw [parseChunks, dif_pos hlt, List.getElem?_eq_getElem hlt]
    rfl
  simp only [connectDeltas, readChunks, bind, Except.bind]
  rw [show d.bytes = d.src ++ (d.tgt ++ encodeAll d.instrs) from rfl] at hp ⊢
  rw [m1]
  simp only
  rw [m2]
  simp only
  rw [hp]

/-- The chain of the examples in `DeltaReader`: `ABC` → `XBC` → `XBCY`. -/
theorem exChain : ChainFits exBase [exD1, exD2] := by
  refine ⟨⟨⟨[], 3, rfl, by simp, by decide⟩, ⟨[], 3, rfl, by simp, by decide⟩, by decide, by decide, by decide, ?_⟩,
    ⟨⟨[0x83], 0, rfl, by decide, by decide⟩, ⟨[], 4, rfl, by simp, by decide⟩, by decide, by decide, by decide, ?_⟩,
    trivial⟩
  · simp [exD1, exBase, Instr.Valid, copyOff, copySize, opVal]
  · simp [exD1, exD2, exBase, Instr.Valid, copyOff, copySize, opVal, DeltaObj.run, runAll, Instr.run]

theorem closestLoop_total (l : List DeltaChunk) (absofs : Int) : ∀ fuel a b, a ≤ b → b ≤ l.length → b - a < fuel →
    ∃ k : Int, closestLoop .meant l absofs fuel a b = .ok k ∧ (k = (l.length : Int) - 1 ∨
      ∃ (i : Nat) (h : i < l.length), k = i ∧ l[i].to ≤ absofs ∧ (absofs < l[i].rbound ∨ l[i].to = absofs)) := by
  intro fuel
  induction fuel with
  | zero => intro a b _ _ h; omega
  | succ fuel ih =>
    intro a b h1 h2 h3
    simp only [closestLoop, PyOps.meant]
    by_cases hab : a < b
    · rw [if_pos hab]
      have hm : (a + b) / 2 < l.length := by omega
      simp only [pyAt_nat l _ hm]
      by_cases c1 : l[(a + b) / 2].to > absofs
      · rw [if_pos c1]
        exact ih _ _ (by omega) (by omega) (by omega)
      · rw [if_neg c1]
        by_cases c2 : l[(a + b) / 2].rbound > absofs ∨ l[(a + b) / 2].to = absofs
        · rw [if_pos c2]
          exact ⟨_, rfl, Or.inr ⟨_, hm, rfl, by omega, c2⟩⟩
        · rw [if_neg c2]
          exact ih _ _ (by omega) (by omega) (by omega)
    · rw [if_neg hab]
      exact ⟨_, rfl, Or.inl rfl⟩

/-- **C09** The binary search for the chunk at an offset (as meant) always ends, whatever the list - also one whose chunks
overlap, leave gaps or are in no order -, and returns either a chunk at that offset or the last index. -/
theorem C09_closest (l : List DeltaChunk) (absofs : Int) :
    ∃ k : Int, closestIndex .meant l absofs = .ok k ∧ (k = (l.length : Int) - 1 ∨
      ∃ (i : Nat) (h : i < l.length), k = i ∧ l[i].to ≤ absofs ∧ (absofs < l[i].rbound ∨ l[i].to = absofs)) :=
  closestLoop_total l absofs _ 0 l.length (by omega) (by omega) (by omega)

/-- Behind the end of a list of two. -/
example : closestIndex .meant [⟨0, 2, 0, none⟩, ⟨2, 3, 5, none⟩] 5 = .ok 1 := by decide

/-- **C09** is false as stated for Python 3. -/
theorem C09_not_full : ¬ C09_full := by
  intro h
  obtain ⟨l, h1, _⟩ := h exBase [exD1, exD2] (by simp) exChain
  have := C09_python3 exD2 [(exD1.bytes, exD1.bytes.length)] exChain.2.1.src_term exChain.2.1.tgt_term
    (by simp [exD2])
  simp only [deltaStreams, List.reverse_cons, List.reverse_nil, List.nil_append, List.singleton_append,
    List.map_cons, List.map_nil] at h1
  rw [this] at h1
  cases h1

-- the merged list of the chain: the copied part is cut out of the first delta
example : connectDeltas .meant (deltaStreams [exD1, exD2]) =
    .ok [⟨0, 1, 0, some [88]⟩, ⟨1, 2, 1, none⟩, ⟨3, 1, 0, some [89]⟩] := by decide +kernel
example : (listApply exBase collect [] [⟨0, 1, 0, some [88]⟩, ⟨1, 2, 1, none⟩, ⟨3, 1, 0, some [89]⟩]).1 =
    [88, 66, 67, 89] := by decide
-- a range which starts and ends inside of chunks
def sliceEx : List DeltaChunk := [⟨0, 3, 0, some [1, 2, 3]⟩, ⟨3, 2, 5, none⟩, ⟨5, 4, 0, some [6, 7, 8, 9]⟩]
example : listSlice .meant sliceEx 1 6 =
    .ok [⟨1, 2, 1, some [2, 3]⟩, ⟨3, 2, 5, none⟩, ⟨5, 2, 0, some [6, 7, 8, 9]⟩] := by decide +kernel
example : ChunksOk 7 0 sliceEx := by simp [sliceEx, ChunksOk, ChunkOk]
example : Integrity 7 9 sliceEx :=
  integrity_of (by simp [sliceEx, ChunksOk, ChunkOk]) (by decide)
-- three additions before a copy are concatenated, trailing ones are not
example : compress .meant [⟨0, 1, 0, some [1]⟩, ⟨1, 1, 0, some [2]⟩, ⟨2, 1, 0, some [3]⟩, ⟨3, 2, 0, none⟩,
    ⟨5, 1, 0, some [4]⟩] = .ok [⟨0, 3, 0, some [1, 2, 3]⟩, ⟨3, 2, 0, none⟩, ⟨5, 1, 0, some [4]⟩] := by
  decide +kernel

end GitDB.Props
