import Verif.Props.MergeDeltas
/-!
# C09: which chunks `DeltaChunkList.compress` joins
-/
set_option autoImplicit false

namespace GitDB.Props
open GitDB Spec

/-- Chunks with data. -/
def Adds (r : List DeltaChunk) : Prop := ∀ c ∈ r, c.data ≠ none

/-- The bytes that chunks with data write. -/
def addedBytes (r : List DeltaChunk) : Bytes := r.flatMap fun c => (c.data.getD []).take c.ts.toNat

/-- `Joined l l'`: in `l'` every run of three or more chunks with data that is followed by a copy has become one chunk; all else is as
in `l`, in particular shorter runs, and the chunks behind the last copy. -/
inductive Joined : List DeltaChunk → List DeltaChunk → Prop
  | last {r : List DeltaChunk} : Adds r → Joined r r
  | few {r l l' : List DeltaChunk} {c : DeltaChunk} : Adds r → r.length ≤ 2 → c.data = none → Joined l l' →
      Joined (r ++ c :: l) (r ++ c :: l')
  | many {a c : DeltaChunk} {r l l' : List DeltaChunk} : Adds (a :: r) → 3 ≤ (a :: r).length → c.data = none → Joined l l' →
      Joined ((a :: r) ++ c :: l)
        (⟨a.to, (addedBytes (a :: r)).length, 0, some (addedBytes (a :: r))⟩ :: c :: l')

theorem joined_copy {c : DeltaChunk} (hc : c.data = none) {l m : List DeltaChunk} (h : Joined (c :: l) m) :
    ∃ l', m = c :: l' ∧ Joined l l' := by
  generalize hx : c :: l = x at h
  cases h with
  | last ha => subst hx; exact absurd hc (ha c (by simp))
  | @few r l1 l' c1 ha _ _ hj =>
    cases r with
    | nil =>
      simp only [List.nil_append, List.cons.injEq] at hx
      obtain ⟨rfl, rfl⟩ := hx
      exact ⟨l', rfl, hj⟩
    | cons b r =>
      simp only [List.cons_append, List.cons.injEq] at hx
      obtain ⟨rfl, _⟩ := hx
      exact absurd hc (ha c (by simp))
  | many ha _ _ _ =>
    simp only [List.cons_append, List.cons.injEq] at hx
    obtain ⟨rfl, _⟩ := hx
    exact absurd hc (ha c (by simp))

theorem joinData_adds (r : List DeltaChunk) : Adds r → (∀ c ∈ r, 0 ≤ c.ts) → joinData .meant r = .ok (addedBytes r) := by
  induction r with
  | nil => intros; rfl
  | cons c r ih =>
    intro ha ht
    have e := ih (fun x hx => ha x (by simp [hx])) (fun x hx => ht x (by simp [hx]))
    have h0 := ht c (by simp)
    rcases hd : c.data with _ | d
    · exact absurd hd (ha c (by simp))
    · have hs : pySliceI d 0 c.ts = d.take c.ts.toNat := by
        rw [pySliceI_nonneg _ _ _ (by omega) h0]
        simp [pySlice]
      have hm : PyOps.meant.text (d.take c.ts.toNat) = .ok (d.take c.ts.toNat) := rfl
      simp only [joinData, hd, hs, hm, e]
      simp [addedBytes, hd]

theorem adds_snoc {r : List DeltaChunk} {c : DeltaChunk} (h : Adds r) (hc : c.data ≠ none) : Adds (r ++ [c]) := by
  intro x hx
  rcases List.mem_append.1 hx with hx | hx
  · exact h x hx
  · simp at hx; rw [hx]; exact hc

/-- Where the loop stands: behind `done` and a run of chunks with data. -/
def runStart (done run : List DeltaChunk) : Option Nat := if run = [] then none else some done.length

theorem runStart_snoc (done run : List DeltaChunk) (c : DeltaChunk) :
    some ((runStart done run).getD (done.length + run.length)) = runStart done (run ++ [c]) := by
  cases run <;> simp [runStart]

theorem joinLoop : ∀ (fuel : Nat) (done run todo : List DeltaChunk), (∀ c ∈ run ++ todo, 0 ≤ c.ts) → Adds run →
    todo.length + (done ++ (run ++ todo)).length < fuel →
    ∃ l', compressLoop .meant fuel (done ++ (run ++ todo)) (done.length + run.length) (runStart done run) = .ok (done ++ l') ∧
      Joined (run ++ todo) l' := by
  intro fuel
  induction fuel with
  | zero => intro done run todo _ _ h; omega
  | succ fuel ih =>
    intro done run todo ht ha hf
    simp only [compressLoop]
    cases todo with
    | nil =>
      rw [if_neg (by simp)]
      exact ⟨run, by simp, by simpa using Joined.last ha⟩
    | cons c todo =>
      have hget : (done ++ (run ++ c :: todo))[done.length + run.length]? = some c := by
        rw [List.getElem?_append_right (by omega), List.getElem?_append_right (by omega)]
        simp
      rw [if_pos (by simp)]
      simp only [hget]
      rcases hd : c.data with _ | d
      · simp only
        have hskip : run.length ≤ 2 → ∃ l', compressLoop .meant fuel (done ++ (run ++ c :: todo)) (done.length + run.length + 1) none =
            .ok (done ++ l') ∧ Joined (run ++ c :: todo) l' := by
          intro h2
          obtain ⟨l', e1, e2⟩ := ih (done ++ (run ++ [c])) [] todo (fun x hx => ht x (by simp at hx; simp [hx])) (by simp [Adds])
            (by simp at hf ⊢; omega)
          refine ⟨run ++ c :: l', ?_, .few ha h2 hd (by simpa using e2)⟩
          simpa [runStart, Nat.add_assoc] using e1
        cases run with
        | nil => simpa [runStart] using hskip (by simp)
        | cons a run =>
          have hrs : runStart done (a :: run) = some done.length := by simp [runStart]
          simp only [hrs]
          by_cases h3 : 3 ≤ (a :: run).length
          · rw [if_pos (by simp at h3 ⊢; omega)]
            have hfd : (done ++ ((a :: run) ++ c :: todo))[done.length]? = some a := by simp
            simp only [hfd]
            have htake : ((done ++ ((a :: run) ++ c :: todo)).take (done.length + (a :: run).length + 1 - 1)).drop done.length =
                a :: run := by
              rw [Nat.add_sub_cancel, ← List.append_assoc, List.take_left' (by simp)]
              simp
            have hdrop : (done ++ ((a :: run) ++ c :: todo)).drop (done.length + (a :: run).length + 1 - 1) = c :: todo := by
              rw [Nat.add_sub_cancel, ← List.append_assoc, List.drop_left' (by simp)]
            rw [htake, joinData_adds _ ha (fun x hx => ht x (by simp at hx ⊢; rcases hx with h | h <;> simp [h])), hdrop]
            simp only
            have hk : (done ++ ((a :: run) ++ c :: todo)).take done.length = done := by simp
            rw [hk]
            obtain ⟨m, e1, e2⟩ := ih (done ++ [⟨a.to, (addedBytes (a :: run)).length, 0, some (addedBytes (a :: run))⟩]) [] (c :: todo)
              (fun x hx => ht x (by simp at hx; rcases hx with h | h <;> simp [h])) (by simp [Adds])
              (by simp at hf h3 ⊢; omega)
            obtain ⟨l', rfl, hj⟩ := joined_copy hd (by simpa using e2)
            refine ⟨_, ?_, .many ha h3 hd hj⟩
            simpa [runStart] using e1
          · rw [if_neg (by simp at h3 ⊢; omega)]
            exact hskip (by omega)
      · simp only
        obtain ⟨l', e1, e2⟩ := ih done (run ++ [c]) todo (fun x hx => ht x (by simpa using hx)) (adds_snoc ha (by simp [hd]))
          (by simp at hf ⊢; omega)
        rw [Nat.add_sub_cancel, runStart_snoc done run c]
        refine ⟨l', ?_, by simpa using e2⟩
        simpa [Nat.add_assoc] using e1

theorem joined_short {l : List DeltaChunk} (h : l.length < 2) : Joined l l := by
  match l, h with
  | [], _ => exact .last (by simp [Adds])
  | [c], _ =>
    rcases hd : c.data with _ | d
    · exact .few (r := []) (l := []) (by simp [Adds]) (by simp) hd (.last (by simp [Adds]))
    · exact .last (by simp [Adds, hd])

/-- `Joined` determines the result. -/
theorem joined_unique {l a b : List DeltaChunk} (ha : Joined l a) : Joined l b → a = b := by
  have key : ∀ {r s : List DeltaChunk} {c d : DeltaChunk} {x y : List DeltaChunk}, Adds r → Adds s → c.data = none → d.data = none →
      r ++ c :: x = s ++ d :: y → r = s ∧ c = d ∧ x = y := by
    intro r
    induction r with
    | nil =>
      intro s c d x y _ hs hc _ h
      cases s with
      | nil => simpa using h
      | cons e s =>
        simp at h
        exact absurd (h.1 ▸ hc) (hs e (by simp))
    | cons e r ih =>
      intro s c d x y hr hs hc hd h
      cases s with
      | nil =>
        simp at h
        exact absurd (h.1 ▸ hd) (hr e (by simp))
      | cons f s =>
        simp at h
        obtain ⟨h1, h2, h3⟩ := ih (fun z hz => hr z (by simp [hz])) (fun z hz => hs z (by simp [hz])) hc hd h.2
        exact ⟨by rw [h.1, h1], h2, h3⟩
  have nocopy : ∀ {r s : List DeltaChunk} {d : DeltaChunk} {y : List DeltaChunk}, Adds r → d.data = none → r = s ++ d :: y → False := by
    intro r s d y hr hd h
    exact hr d (by rw [h]; simp) hd
  induction ha generalizing b with
  | @last r ha =>
    intro hb
    generalize hx : r = x at hb
    cases hb with
    | last => rfl
    | few _ _ hd _ => exact (nocopy ha hd hx).elim
    | many _ _ hd _ => exact (nocopy ha hd hx).elim
  | @few r l l' c ha hl hc _ ih =>
    intro hb
    generalize hx : r ++ c :: l = x at hb
    cases hb with
    | last hb => exact (nocopy hb hc hx.symm).elim
    | few hb _ hd hj =>
      obtain ⟨rfl, rfl, rfl⟩ := key ha hb hc hd hx
      rw [ih hj]
    | many hb hm hd hj =>
      obtain ⟨rfl, rfl, rfl⟩ := key ha hb hc hd hx
      omega
  | @many a c r l l' ha hl hc _ ih =>
    intro hb
    generalize hx : (a :: r) ++ c :: l = x at hb
    cases hb with
    | last hb => exact (nocopy hb hc hx.symm).elim
    | few hb hm hd hj =>
      obtain ⟨rfl, rfl, rfl⟩ := key ha hb hc hd hx
      omega
    | many hb hm hd hj =>
      obtain ⟨h1, rfl, rfl⟩ := key ha hb hc hd hx
      injection h1 with h1 h2
      subst h1 h2
      rw [ih hj]

/-- **C09** What `compress` was meant to do: every run of three or more additions in front of a copy becomes a single addition of the
same bytes at the same place; nothing else changes. -/
theorem C09_compress_joins (l : List DeltaChunk) (h : ∀ c ∈ l, 0 ≤ c.ts) :
    ∃ l', compress .meant l = .ok l' ∧ Joined l l' ∧ ∀ m, Joined l m → m = l' := by
  unfold compress
  split
  · next h2 => exact ⟨l, rfl, joined_short h2, fun m hm => joined_unique hm (joined_short h2)⟩
  · obtain ⟨l', e1, e2⟩ := joinLoop (2 * l.length + 1) [] [] l (by simpa using h) (by simp [Adds]) (by simp; omega)
    have e3 : Joined l l' := by simpa using e2
    exact ⟨l', by simpa [runStart] using e1, e3, fun m hm => joined_unique hm e3⟩

/-- A run of three or more chunks with data in front of a copy. -/
def LongRun (l : List DeltaChunk) : Prop :=
  ∃ (a r : List DeltaChunk) (c : DeltaChunk) (b : List DeltaChunk), l = a ++ (r ++ c :: b) ∧ Adds r ∧ 3 ≤ r.length ∧ c.data = none

theorem longRun_copy {r l : List DeltaChunk} {c : DeltaChunk} (hr : Adds r) (hc : c.data = none) (h2 : r.length ≤ 2)
    (h : LongRun (r ++ c :: l)) : LongRun l := by
  obtain ⟨a, s, d, b, he, hs, h3, hd⟩ := h
  rcases List.append_eq_append_iff.1 he with ⟨x, hx1, hx2⟩ | ⟨x, hx1, hx2⟩
  · -- the copy lies behind the start of the long run, or in front of it
    cases x with
    | nil =>
      simp at hx2
      cases s with
      | nil => simp at h3
      | cons e s =>
        simp at hx2
        exact absurd (hx2.1 ▸ hc) (hs e (by simp))
    | cons e x =>
      simp at hx2
      exact ⟨x, s, d, b, by simpa using hx2.2, hs, h3, hd⟩
  · -- the long run begins in `r`
    rcases List.append_eq_append_iff.1 hx2 with ⟨y, hy1, hy2⟩ | ⟨y, hy1, hy2⟩
    · have := congrArg List.length hy1
      have h4 := congrArg List.length hx1
      simp at this h4
      cases y with
      | nil => simp at this; omega
      | cons e y =>
        have : d ∈ r := by
          rw [hx1, hy1]
          simp at hy2
          simp [hy2.1]
        exact absurd hd (hr d this)
    · cases y with
      | nil =>
        simp at hy1
        have h4 := congrArg List.length hx1
        simp [← hy1] at h4
        omega
      | cons e y =>
        simp at hy2
        exact absurd (hy2.1 ▸ hc) (hs e (by rw [hy1]; simp))

theorem longRun_adds {r : List DeltaChunk} (hr : Adds r) : ¬ LongRun r := by
  rintro ⟨a, s, c, b, rfl, _, _, hc⟩
  exact hr c (by simp) hc

theorem textLoop : ∀ (fuel : Nat) (done run todo : List DeltaChunk), Adds run → todo.length < fuel →
    (compressLoop .python3 fuel (done ++ (run ++ todo)) (done.length + run.length) (runStart done run) =
        .ok (done ++ (run ++ todo)) ∧ ¬ LongRun (run ++ todo)) ∨
    (compressLoop .python3 fuel (done ++ (run ++ todo)) (done.length + run.length) (runStart done run) = .error .typeError ∧
        LongRun (run ++ todo)) := by
  intro fuel
  induction fuel with
  | zero => intro done run todo _ h; omega
  | succ fuel ih =>
    intro done run todo ha hf
    simp only [compressLoop]
    cases todo with
    | nil =>
      rw [if_neg (by simp)]
      exact .inl ⟨rfl, by simpa using longRun_adds ha⟩
    | cons c todo =>
      have hget : (done ++ (run ++ c :: todo))[done.length + run.length]? = some c := by
        rw [List.getElem?_append_right (by omega), List.getElem?_append_right (by omega)]
        simp
      rw [if_pos (by simp)]
      simp only [hget]
      rcases hd : c.data with _ | d
      · simp only
        have hskip : run.length ≤ 2 →
            (compressLoop .python3 fuel (done ++ (run ++ c :: todo)) (done.length + run.length + 1) none =
              .ok (done ++ (run ++ c :: todo)) ∧ ¬ LongRun (run ++ c :: todo)) ∨
            (compressLoop .python3 fuel (done ++ (run ++ c :: todo)) (done.length + run.length + 1) none = .error .typeError ∧
              LongRun (run ++ c :: todo)) := by
          intro h2
          have := ih (done ++ (run ++ [c])) [] todo (by simp [Adds]) (by simp at hf ⊢; omega)
          rcases this with ⟨e1, e2⟩ | ⟨e1, e2⟩
          · refine .inl ⟨by simpa [runStart, Nat.add_assoc] using e1, fun h => e2 (by simpa using longRun_copy ha hd h2 h)⟩
          · refine .inr ⟨by simpa [runStart, Nat.add_assoc] using e1, ?_⟩
            obtain ⟨a, r, d, b, h3, h4⟩ := e2
            exact ⟨run ++ c :: a, r, d, b, by simp at h3; simp [h3], h4⟩
        cases run with
        | nil => simpa [runStart] using hskip (by simp)
        | cons a run =>
          have hrs : runStart done (a :: run) = some done.length := by simp [runStart]
          simp only [hrs]
          by_cases h3 : 3 ≤ (a :: run).length
          · rw [if_pos (by simp at h3 ⊢; omega)]
            have hfd : (done ++ ((a :: run) ++ c :: todo))[done.length]? = some a := by simp
            simp only [hfd]
            have htake : ((done ++ ((a :: run) ++ c :: todo)).take (done.length + (a :: run).length + 1 - 1)).drop done.length =
                a :: run := by
              rw [Nat.add_sub_cancel, ← List.append_assoc, List.take_left' (by simp)]
              simp
            rw [htake]
            have hj : joinData .python3 (a :: run) = .error .typeError := by
              rcases hda : a.data with _ | x <;> simp [joinData, hda, PyOps.python3]
            rw [hj]
            exact .inr ⟨rfl, [], a :: run, c, todo, rfl, ha, h3, hd⟩
          · rw [if_neg (by simp at h3 ⊢; omega)]
            exact hskip (by omega)
      · simp only
        have := ih done (run ++ [c]) todo (adds_snoc ha (by simp [hd])) (by simp at hf ⊢; omega)
        rw [Nat.add_sub_cancel, runStart_snoc done run c]
        simpa [Nat.add_assoc] using this

/-- **C09** What `compress` does in Python 3: it raises `TypeError` if there is a run of additions to join, and otherwise leaves the list
as it is. -/
theorem C09_compress_python3 (l : List DeltaChunk) :
    (LongRun l → compress .python3 l = .error .typeError) ∧ (¬ LongRun l → compress .python3 l = .ok l) := by
  unfold compress
  split
  · next h2 =>
    refine ⟨?_, fun _ => rfl⟩
    rintro ⟨a, r, c, b, rfl, _, h3, _⟩
    simp at h2
    omega
  · have := textLoop (2 * l.length + 1) [] [] l (by simp [Adds]) (by omega)
    simp only [List.nil_append, List.length_nil, Nat.add_zero, runStart, if_true] at this
    rcases this with ⟨e1, e2⟩ | ⟨e1, e2⟩
    · exact ⟨fun h => absurd h e2, fun _ => e1⟩
    · exact ⟨fun _ => e1, fun h => absurd e2 h⟩

/-- **C09** A single delta (Python 2 reading): one chunk for each instruction, in order, joined as above. -/
theorem C09_one_delta (base : Bytes) (d : DeltaObj) (h : d.Fits base) :
    ∃ l, connectDeltas .meant [(d.bytes, d.bytes.length)] = .ok l ∧ Joined (chunkList 0 d.instrs) l := by
  have m1 := msbSize_at [] d.src (d.tgt ++ encodeAll d.instrs) h.src_term
  have m2 := msbSize_at d.src d.tgt (encodeAll d.instrs) h.tgt_term
  simp only [List.nil_append, List.length_nil, Nat.zero_add] at m1
  obtain ⟨l, e1, rfl, e2, -⟩ := parseChunks_spec base.length d.instrs (d.src ++ d.tgt) 0 h.valid
  obtain ⟨l', c1, c2, -⟩ := C09_compress_joins (chunkList 0 d.instrs) (fun c hc => by
    have := (chunksOk_mem e2 c hc).1
    omega)
  refine ⟨l', ?_, c2⟩
  simp only [connectDeltas, readChunks, DeltaObj.bytes, m1, bind, Except.bind]
  rw [m2]
  simp only [h.src_size]
  have hl : (d.src ++ d.tgt).length = d.src.length + d.tgt.length := List.length_append
  rw [hl] at e1
  rw [← List.append_assoc, e1]
  simp only [c1, connectLoop]

/-- **C09** In Python 3 there is no chunk to be found at any offset, nor any range to be cut out of any list: the search raises
`TypeError` for every list that is not empty, and for the empty list the slice fails with `IndexError`. -/
theorem C09_closest_python3 (l : List DeltaChunk) (absofs size : Int) :
    (l ≠ [] → closestIndex .python3 l absofs = .error .typeError ∧ listSlice .python3 l absofs size = .error .typeError) ∧
    (l = [] → closestIndex .python3 l absofs = .ok (-1) ∧ listSlice .python3 l absofs size = .error .indexError) := by
  constructor
  · intro h
    have hl : 0 < l.length := List.length_pos_iff.2 h
    have hc : closestIndex .python3 l absofs = .error .typeError := by
      simp only [closestIndex, closestLoop, PyOps.python3]
      rw [if_pos hl]
    exact ⟨hc, by simp only [listSlice, hc]⟩
  · rintro rfl
    exact ⟨rfl, rfl⟩

/-! ### Cases -/

/-- Three additions, a copy, two additions, a copy, and three additions at the end. -/
def runsEx : List DeltaChunk :=
  [⟨0, 1, 0, some [1]⟩, ⟨1, 1, 0, some [2]⟩, ⟨2, 1, 0, some [3]⟩, ⟨3, 2, 0, none⟩, ⟨5, 1, 0, some [4]⟩, ⟨6, 1, 0, some [5]⟩,
    ⟨7, 1, 1, none⟩, ⟨8, 1, 0, some [6]⟩, ⟨9, 1, 0, some [7]⟩, ⟨10, 1, 0, some [8]⟩]
example : compress .meant runsEx = .ok (⟨0, 3, 0, some [1, 2, 3]⟩ :: runsEx.drop 3) := by decide +kernel
example : compress .python3 runsEx = .error .typeError := by decide +kernel
example : compress .python3 (runsEx.drop 3) = .ok (runsEx.drop 3) := by decide +kernel
example : LongRun runsEx := ⟨[], runsEx.take 3, ⟨3, 2, 0, none⟩, runsEx.drop 4, rfl, by simp [Adds, runsEx], by decide, rfl⟩
/-- **C09** a chunk of data whose size is negative (a delta copying beyond what the delta below makes): as a slice `d[:-k]` of
Python it is the data without its last `k` bytes. -/
theorem C09_negative_size (to so : Int) (d base : Bytes) (k : Nat) (hk : 0 < k) :
    chunkApply ⟨to, -(k : Int), so, some d⟩ base = d.take (d.length - k) := by
  have h1 : (-(k : Int)) < d.length := by omega
  have h3 : (-(k : Int) + d.length).toNat = d.length - k := by omega
  simp [chunkApply, pySliceI, pySlice, h1, h3, hk]

example := C09_negative_size 0 0 [1, 2, 3, 4] [] 1 (by decide)
example : chunkApply ⟨0, -1, 0, some [1, 2, 3, 4]⟩ [] = [1, 2, 3] := by decide

example := C09_compress_joins runsEx (by decide)
example := (C09_closest_python3 runsEx 4 2).1 (by simp [runsEx])
example := C09_one_delta exBase exD1 exChain.1

end GitDB.Props
