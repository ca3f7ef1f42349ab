import Verif.Proofs.DeltaReject
/-!
# C06, C07: applying one delta
-/
set_option autoImplicit false

namespace GitDB.Props
open GitDB Spec

/-! ## C06 -/

/-- **C06** a sequence of valid instructions, in any spelling, produces exactly the instructed bytes. -/
theorem C06_apply_delta (src : Bytes) (srcSize : Nat) (is : List Instr)
    (hv : ∀ x ∈ is, x.Valid srcSize) :
    applyDeltaData src srcSize (encodeAll is) (encodeAll is).length collect [] =
      (runAll src is, .ok ()) := by
  have h := (applyDelta_outcome src srcSize is [] hv).1 rfl
  simpa using h

/-- **C06** if the declared source size is not larger than the source, the result has exactly the
size announced by the instructions. -/
theorem C06_result_size (src : Bytes) (srcSize : Nat) (is : List Instr) (hs : srcSize ≤ src.length)
    (hv : ∀ x ∈ is, x.Valid srcSize) :
    (applyDeltaData src srcSize (encodeAll is) (encodeAll is).length collect []).1.length =
      (is.map Instr.size).sum := by
  rw [C06_apply_delta src srcSize is hv]
  induction is with
  | nil => rfl
  | cons x xs ih =>
    have := ih (fun y hy => hv y (by simp [hy]))
    have hx := hv x (by simp)
    simp only [runAll, List.flatMap_cons, List.length_append, List.map_cons, List.sum_cons] at this ⊢
    rw [this]
    congr 1
    cases x with
    | copy o0 o1 o2 o3 s0 s1 s2 =>
      simp only [Instr.Valid] at hx
      simp only [Instr.run, Instr.size, List.length_take, List.length_drop]
      omega
    | insert d => rfl

/-- A copy of bytes 1..3, spelled with a redundant zero offset byte, and an insert. -/
def exampleDelta : List Instr :=
  [.copy (some 1) (some 0) none none (some 3) none none, .insert [9, 9],
   .copy none none none none (some 2) none none]

example : ∀ x ∈ exampleDelta, x.Valid 5 := by
  intro x hx
  simp only [exampleDelta, List.mem_cons, List.not_mem_nil, or_false] at hx
  rcases hx with rfl | rfl | rfl <;> simp [Instr.Valid, copyOff, copySize, opVal]
example : encodeAll exampleDelta = [0x93, 1, 0, 3, 2, 9, 9, 0x90, 2] := by decide
example : runAll [10, 11, 12, 13, 14] exampleDelta = [11, 12, 13, 9, 9, 10, 11] := by decide

/-! ## C07 -/

/-- The full statement of C07: no malformed delta is accepted. -/
def C07_full : Prop := ∀ (src : Bytes) (srcSize : Nat) (db : Bytes), ¬ WellFormedDelta srcSize db →
  ∃ e, (applyDeltaData src srcSize db db.length collect []).2 = .error e

/-- **C07** the full statement is false of the code: a copy outside the source is accepted if it is
the last instruction (`gitdb/fun.py` 665-667 leaves the loop, and the final assertion compares only the
position).  Here a delta whose only instruction copies 1 byte at offset 5 of a 2 byte source. -/
theorem C07_not_full : ¬ C07_full := by
  intro h
  have hout : applyDeltaData [1, 2] 2 [0x91, 5, 1] 3 collect [] = ([], .ok ()) := by
    have := (applyDelta_outcome [1, 2] 2 [] [0x91, 5, 1] (by simp)).2.2.2.2
      (some 5) none none none (some 1) none none [] (by decide) (by decide)
    simpa [encodeAll, runAll] using this
  obtain ⟨e, he⟩ := h [1, 2] 2 [0x91, 5, 1] (by
    rintro ⟨is, hv, e⟩
    have h1 := C06_apply_delta [1, 2] 2 is hv
    have h2 := C06_result_size [1, 2] 2 is (by simp) hv
    rw [← e] at h1 h2
    simp only [List.length_cons, List.length_nil, Nat.zero_add, Nat.reduceAdd] at h1 h2
    rw [hout] at h2
    simp only [List.length_nil] at h2
    cases is with
    | nil => simp [encodeAll] at e
    | cons x xs =>
      simp only [List.map_cons, List.sum_cons] at h2
      cases x with
      | copy o0 o1 o2 o3 s0 s1 s2 =>
        have := copySize_pos s0 s1 s2
        simp only [Instr.size] at h2
        omega
      | insert d =>
        have := hv (.insert d) (by simp)
        simp only [Instr.Valid] at this
        simp only [Instr.size] at h2
        omega)
  simp only [List.length_cons, List.length_nil, Nat.zero_add, Nat.reduceAdd] at he
  rw [hout] at he
  simp at he

/-- **C07** (partial: every malformed delta raises except those ending with a copy outside the
source) A malformed delta raises unless it is a sequence of valid instructions followed by exactly one
copy that reaches outside of the source. -/
theorem C07_malformed_rejected_partial (src : Bytes) (srcSize : Nat) (db : Bytes)
    (hm : ¬ WellFormedDelta srcSize db)
    (hlast : ¬ ∃ is o0 o1 o2 o3 s0 s1 s2, (∀ x ∈ is, x.Valid srcSize) ∧
      db = encodeAll is ++ (Instr.copy o0 o1 o2 o3 s0 s1 s2).encode ∧
      ¬ (Instr.copy o0 o1 o2 o3 s0 s1 s2).Valid srcSize) :
    ∃ e, (applyDeltaData src srcSize db db.length collect []).2 = .error e := by
  obtain ⟨is, rest, hv, rfl, hs⟩ := parse_delta srcSize db
  obtain ⟨_, h2, h3, h4, h5⟩ := applyDelta_outcome src srcSize is rest hv
  cases hs with
  | nil => exact absurd ⟨is, hv, by simp⟩ hm
  | zero t => rw [h2 t rfl]; exact ⟨_, rfl⟩
  | copyTruncated c t h ht => rw [h3 c t rfl h ht]; exact ⟨_, rfl⟩
  | insertTruncated c t h ht => rw [h4 c t rfl h ht]; exact ⟨_, rfl⟩
  | copyOutside o0 o1 o2 o3 s0 s1 s2 t h =>
    rw [h5 o0 o1 o2 o3 s0 s1 s2 t rfl h]
    by_cases ht : t = []
    · subst ht
      exact absurd ⟨is, o0, o1, o2, o3, s0, s1, s2, hv, by simp, by simp [Instr.Valid]; omega⟩ hlast
    · rw [if_neg ht]; exact ⟨_, rfl⟩

/-- **C07** which exception is raised: opcode 0, truncated copy, truncated insert, and a copy outside
the source that is followed by anything. -/
theorem C07_exceptions (src : Bytes) (srcSize : Nat) (is : List Instr)
    (hv : ∀ x ∈ is, x.Valid srcSize) :
    (∀ t, let db := encodeAll is ++ 0 :: t
      (applyDeltaData src srcSize db db.length collect []).2 = .error .valueError) ∧
    (∀ (c : UInt8) t, 128 ≤ c.toNat → t.length < operands c.toNat → let db := encodeAll is ++ c :: t
      (applyDeltaData src srcSize db db.length collect []).2 = .error .indexError) ∧
    (∀ (c : UInt8) t, c.toNat < 128 → t.length < c.toNat → let db := encodeAll is ++ c :: t
      (applyDeltaData src srcSize db db.length collect []).2 = .error .assertionError) ∧
    (∀ o0 o1 o2 o3 s0 s1 s2 t, ¬ (Instr.copy o0 o1 o2 o3 s0 s1 s2).Valid srcSize → t ≠ [] →
      let db := encodeAll is ++ ((Instr.copy o0 o1 o2 o3 s0 s1 s2).encode ++ t)
      (applyDeltaData src srcSize db db.length collect []).2 = .error .assertionError) := by
  refine ⟨fun t => ?_, fun c t h ht => ?_, fun c t h ht => ?_,
    fun o0 o1 o2 o3 s0 s1 s2 t h ht => ?_⟩
  · simp only [(applyDelta_outcome src srcSize is _ hv).2.1 t rfl]
  · simp only [(applyDelta_outcome src srcSize is _ hv).2.2.1 c t rfl h ht]
  · simp only [(applyDelta_outcome src srcSize is _ hv).2.2.2.1 c t rfl h ht]
  · simp only [Instr.Valid, Nat.not_le] at h
    simp only [(applyDelta_outcome src srcSize is _ hv).2.2.2.2 o0 o1 o2 o3 s0 s1 s2 t rfl h,
      if_neg ht]

/-- **C07** whatever the delta and the writer do, nothing outside the declared part of the source can
influence what is written: replacing the source by its declared part changes nothing. -/
theorem C07_reads_declared_source_only {ω : Type} (src : Bytes) (srcSize : Nat) (db : Bytes)
    (dbSize : Nat) (write : ω → Bytes → ω × Res Unit) (w : ω) :
    applyDeltaData src srcSize db dbSize write w =
      applyDeltaData (src.take srcSize) srcSize db dbSize write w :=
  applyLoop_src src srcSize write db dbSize _ 0 w rfl

/-- An accepted delta: one valid insert, then garbage makes it raise. -/
example : ¬ WellFormedDelta 2 [1, 7, 0] ∧
    (applyDeltaData [1, 2] 2 [1, 7, 0] 3 collect []) = ([7], .error .valueError) := by
  have h : applyDeltaData [1, 2] 2 [1, 7, 0] 3 collect [] = ([7], .error .valueError) := by
    have := (applyDelta_outcome [1, 2] 2 [.insert [7]] [0] (by simp [Instr.Valid])).2.1 [] rfl
    simpa [encodeAll, Instr.encode, runAll, Instr.run] using this
  refine ⟨?_, h⟩
  rintro ⟨is, hv, e⟩
  have h1 := C06_apply_delta [1, 2] 2 is hv
  rw [← e] at h1
  simp only [List.length_cons, List.length_nil, Nat.zero_add, Nat.reduceAdd] at h1
  rw [h] at h1
  simp at h1

end GitDB.Props
