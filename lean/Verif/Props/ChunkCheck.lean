import Verif.Model.ChunkCheck
import Verif.Props.MergeDeltas
/-!
# C73: `check_integrity`
-/
set_option autoImplicit false

namespace GitDB.Props
open GitDB Spec

/-- Chunks one behind the other, without gap or overlap. -/
def Gapless (l : List DeltaChunk) : Prop :=
  ∀ i (h : i + 1 < l.length), l[i].to + l[i].ts = l[i + 1].to

/-- Each chunk describes at least one byte, and has the data for what it describes. -/
def Filled (l : List DeltaChunk) : Prop :=
  ∀ c ∈ l, 0 < c.ts ∧ ∀ d, c.data = some d → c.ts ≤ d.length

theorem checkData_iff (l : List DeltaChunk) :
    (checkData l = .ok () ↔ Filled l) ∧ (checkData l = .ok () ∨ checkData l = .error .assertionError) := by
  induction l with
  | nil => exact ⟨⟨fun _ => by intro c hc; simp at hc, fun _ => rfl⟩, .inl rfl⟩
  | cons a l ih =>
    unfold checkData
    have hcons : Filled (a :: l) ↔ (0 < a.ts ∧ ∀ d, a.data = some d → a.ts ≤ d.length) ∧ Filled l := by
      constructor
      · intro h; exact ⟨h a (by simp), fun c hc => h c (by simp [hc])⟩
      · rintro ⟨h1, h2⟩ c hc
        simp at hc
        rcases hc with rfl | hc
        · exact h1
        · exact h2 c hc
    rw [hcons]
    by_cases hp : a.ts > 0
    · rw [if_pos hp]
      cases hd : a.data with
      | none =>
        simp only
        refine ⟨⟨fun h => ⟨⟨hp, by simp⟩, ih.1.mp h⟩, fun h => ih.1.mpr h.2⟩, ih.2⟩
      | some d =>
        simp only
        by_cases hl : (d.length : Int) ≥ a.ts
        · rw [if_pos hl]
          refine ⟨⟨fun h => ⟨⟨hp, by simpa using hl⟩, ih.1.mp h⟩, fun h => ih.1.mpr h.2⟩, ih.2⟩
        · rw [if_neg hl]
          refine ⟨⟨fun h => (nomatch h), fun h => absurd (h.1.2 d rfl) hl⟩, .inr rfl⟩
    · rw [if_neg hp]
      exact ⟨⟨fun h => (nomatch h), fun h => absurd h.1.1 hp⟩, .inr rfl⟩

theorem checkPairs_iff (l : List DeltaChunk) :
    (checkPairs l = .ok () ↔ Gapless l) ∧
      (checkPairs l = .ok () ∨ checkPairs l = .error .assertionError) := by
  induction l with
  | nil => exact ⟨⟨fun _ i h => by simp at h, fun _ => rfl⟩, .inl rfl⟩
  | cons a l ih =>
    cases l with
    | nil => exact ⟨⟨fun _ i h => by simp at h, fun _ => rfl⟩, .inl rfl⟩
    | cons b l =>
      have hcons : Gapless (a :: b :: l) ↔ a.to + a.ts = b.to ∧ Gapless (b :: l) := by
        constructor
        · intro h
          refine ⟨h 0 (by simp), fun i hi => ?_⟩
          have := h (i + 1) (by simpa using hi)
          simpa using this
        · rintro ⟨h1, h2⟩ i hi
          cases i with
          | zero => exact h1
          | succ i =>
            have := h2 i (by simpa using hi)
            simpa using this
      rw [hcons]
      unfold checkPairs
      by_cases hc : a.to + a.ts = b.to
      · rw [if_pos ⟨hc, hc⟩]
        exact ⟨⟨fun h => ⟨hc, ih.1.mp h⟩, fun h => ih.1.mpr h.2⟩, ih.2⟩
      · rw [if_neg (fun h => hc h.2)]
        exact ⟨⟨fun h => (nomatch h), fun h => absurd h.1 hc⟩, .inr rfl⟩

theorem foldl_add_int (l : List Int) : ∀ a, l.foldl (fun x y => x + y) a = a + l.sum := by
  induction l with
  | nil => intro a; simp
  | cons x xs ih => intro a; simp only [List.foldl_cons, List.sum_cons]; rw [ih]; omega

/-- **C73** `size()` of a list without gaps is the number of bytes its chunks describe. -/
theorem C73_size (l : List DeltaChunk) (h : Gapless l) : listSize l = (l.map DeltaChunk.ts).sum := by
  induction l with
  | nil => rfl
  | cons a l ih =>
    cases l with
    | nil => simp [listSize, listRbound, listLbound, DeltaChunk.rbound]; omega
    | cons b l =>
      have h0 : a.to + a.ts = b.to := h 0 (by simp)
      have ih' := ih (fun i hi => by
        have := h (i + 1) (by simpa using hi)
        simpa using this)
      have hl : listRbound (a :: b :: l) = listRbound (b :: l) := by
        simp [listRbound, List.getLast?_cons_cons]
      simp only [listSize, listLbound, hl, List.map_cons, List.sum_cons] at ih' ⊢
      omega

theorem checkTotal_iff (l : List DeltaChunk) (hne : l ≠ []) (t : Int) (ht : 0 ≤ t) :
    (checkTotal l t = .ok () ↔ listRbound l = t ∧ (l.map DeltaChunk.ts).sum = t) ∧
      (checkTotal l t = .ok () ∨ checkTotal l t = .error .assertionError) := by
  unfold checkTotal
  rw [if_pos (by omega)]
  rcases hl : l.getLast? with _ | dc
  · exact absurd (List.getLast?_eq_none_iff.1 hl) hne
  · simp only [listRbound, hl, foldl_add_int, Int.zero_add]
    by_cases h1 : dc.rbound = t
    · rw [if_pos h1]
      by_cases h2 : (l.map DeltaChunk.ts).sum = t
      · simp [h1, h2, pyAssert]
      · simp [h2, pyAssert]
    · rw [if_neg h1]
      simp [h1]

/-- **C73** as the author meant it (iterators with a method `next`): of the lists with at least two chunks
exactly those are accepted whose chunks follow each other from 0 to `target_size` without gap or overlap,
none of them empty, each with enough data; all others raise `AssertionError`. -/
theorem C73_meant (l : List DeltaChunk) (h2 : 2 ≤ l.length) (t : Int) (ht : 0 ≤ t) :
    (checkIntegrity true l t = .ok () ↔
      listLbound l = 0 ∧ listRbound l = t ∧ Gapless l ∧ Filled l) ∧
    (checkIntegrity true l t = .ok () ∨ checkIntegrity true l t = .error .assertionError) := by
  have hne : l ≠ [] := by intro h; subst h; simp at h2
  obtain ⟨a1, a2⟩ := checkTotal_iff l hne t ht
  obtain ⟨b1, b2⟩ := checkData_iff l
  obtain ⟨c1, c2⟩ := checkPairs_iff l
  have hn : ¬ l.length < 2 := by omega
  have e : checkIntegrity true l t = .ok () ↔
      (listRbound l = t ∧ (l.map DeltaChunk.ts).sum = t) ∧ Filled l ∧ Gapless l := by
    rw [← a1, ← b1, ← c1]
    unfold checkIntegrity
    simp only [bind, Except.bind, pure, Except.pure]
    rcases a2 with h | h <;> rw [h] <;> simp only [if_neg hn]
    · rcases b2 with h' | h' <;> rw [h'] <;> simp
    · simp
  refine ⟨?_, ?_⟩
  · rw [e]
    constructor
    · rintro ⟨⟨h1, h3⟩, h4, h5⟩
      have := C73_size l h5
      simp only [listSize] at this
      exact ⟨by omega, h1, h5, h4⟩
    · rintro ⟨h1, h3, h4, h5⟩
      have := C73_size l h4
      simp only [listSize] at this
      exact ⟨⟨h3, by omega⟩, h5, h4⟩
  · unfold checkIntegrity
    simp only [bind, Except.bind, pure, Except.pure]
    rcases a2 with h | h <;> rw [h] <;> simp only [if_neg hn]
    · rcases b2 with h' | h' <;> rw [h'] <;> simp only
      · simpa using c2
      · exact .inr trivial
    · exact .inr trivial

/-- **C73** with the default argument the list may begin and end anywhere. -/
theorem C73_default (l : List DeltaChunk) (h2 : 2 ≤ l.length) (t : Int) (ht : t < 0) :
    checkIntegrity true l t = .ok () ↔ Gapless l ∧ Filled l := by
  obtain ⟨b1, b2⟩ := checkData_iff l
  obtain ⟨c1, c2⟩ := checkPairs_iff l
  have hn : ¬ l.length < 2 := by omega
  rw [← b1, ← c1]
  unfold checkIntegrity checkTotal
  simp only [bind, Except.bind, pure, Except.pure]
  rw [if_neg (by omega : ¬ t > -1)]
  simp only [if_neg hn]
  rcases b2 with h | h <;> rw [h] <;> simp

/-- **C73** Python 3: every list of two or more chunks is refused, in particular every correct one; where
nothing else is wrong, by `AttributeError`. -/
theorem C73_python3 (l : List DeltaChunk) (h2 : 2 ≤ l.length) (t : Int) :
    checkIntegrity false l t ≠ .ok () ∧
    (checkIntegrity true l t = .ok () → checkIntegrity false l t = .error .attributeError) := by
  have hn : ¬ l.length < 2 := by omega
  constructor
  · unfold checkIntegrity
    simp only [bind, Except.bind, pure, Except.pure]
    rcases checkTotal l t with e | ⟨⟩ <;> simp only [if_neg hn]
    · simp
    · rcases checkData l with e | ⟨⟩ <;> simp
  · unfold checkIntegrity
    simp only [bind, Except.bind, pure, Except.pure]
    rcases checkTotal l t with e | ⟨⟩ <;> simp only [if_neg hn]
    · simp
    · rcases checkData l with e | ⟨⟩ <;> simp

/-- **C73** lists with fewer than two chunks: of a single chunk only position and size are compared; its
data is not looked at, and it may be empty.  Of the empty list not even the size can be checked. -/
theorem C73_short (hasNext : Bool) (c : DeltaChunk) (t : Int) :
    (0 ≤ t → (checkIntegrity hasNext [c] t = .ok () ↔ c.to = 0 ∧ c.ts = t)) ∧
    (t < 0 → checkIntegrity hasNext [c] t = .ok ()) ∧
    (0 ≤ t → checkIntegrity hasNext [] t = .error .indexError) ∧
    (t < 0 → checkIntegrity hasNext [] t = .ok ()) := by
  refine ⟨fun ht => ?_, fun ht => ?_, fun ht => ?_, fun ht => ?_⟩
  · obtain ⟨a1, a2⟩ := checkTotal_iff [c] (by simp) t ht
    have : checkIntegrity hasNext [c] t = .ok () ↔ checkTotal [c] t = .ok () := by
      unfold checkIntegrity
      simp only [bind, Except.bind, pure, Except.pure]
      rcases a2 with h | h <;> rw [h] <;> simp
    rw [this, a1]
    simp [listRbound, DeltaChunk.rbound]
    omega
  · simp [checkIntegrity, checkTotal, bind, Except.bind, pure, Except.pure, show ¬ t > -1 by omega]
  · simp [checkIntegrity, checkTotal, bind, Except.bind, show t > -1 by omega]
  · simp [checkIntegrity, checkTotal, bind, Except.bind, pure, Except.pure, show ¬ t > -1 by omega]

/-- **C73** (as meant) what `connect_deltas` makes of a chain passes the check against the size of the
result, unless the result is empty. -/
theorem C73_merged (base : Bytes) (ds : List DeltaObj) (hne : ds ≠ []) (h : ChainFits base ds)
    (hr : resolveChain base ds ≠ []) :
    ∃ l, connectDeltas .meant (deltaStreams ds) = .ok l ∧
      checkIntegrity true l (resolveChain base ds).length = .ok () := by
  obtain ⟨l, h1, _, h3, h4⟩ := C09_merge_partial base ds hne h
  refine ⟨l, h1, ?_⟩
  have hl : l ≠ [] := by
    intro hl
    subst hl
    have := h4.size_eq
    simp at this
    exact hr (List.length_eq_zero_iff.mp (by omega))
  by_cases h2 : 2 ≤ l.length
  · rw [(C73_meant l h2 _ (by omega)).1]
    refine ⟨?_, h3, h4.contiguous, fun c hc => ⟨h4.positive c hc, h4.data c hc⟩⟩
    cases l with
    | nil => exact absurd rfl hl
    | cons c l => exact h4.start c rfl
  · obtain ⟨c, rfl⟩ : ∃ c, l = [c] := by
      cases l with
      | nil => exact absurd rfl hl
      | cons c l =>
        cases l with
        | nil => exact ⟨c, rfl⟩
        | cons b l => simp at h2
    rw [(C73_short true c _).1 (by omega)]
    have := h4.size_eq
    simp at this
    exact ⟨h4.start c rfl, this⟩

/-- A correct list of three chunks, and what the two versions of Python make of it. -/
example : checkIntegrity true sliceEx 9 = .ok () := by decide
example : checkIntegrity false sliceEx 9 = .error .attributeError := by decide
example : listLbound sliceEx = 0 ∧ listRbound sliceEx = 9 ∧ listSize sliceEx = 9 := by decide
/-- A gap; an overlap; too little data; wrong size. -/
example : checkIntegrity true [⟨0, 2, 0, none⟩, ⟨3, 2, 5, none⟩] (-1) = .error .assertionError := by decide
example : checkIntegrity true [⟨0, 2, 0, none⟩, ⟨1, 2, 5, none⟩] (-1) = .error .assertionError := by decide
example : checkIntegrity true [⟨0, 2, 0, none⟩, ⟨2, 2, 0, some [1]⟩] 4 = .error .assertionError := by decide
example : checkIntegrity true [⟨0, 2, 0, none⟩, ⟨2, 2, 5, none⟩] 5 = .error .assertionError := by decide
/-- A single chunk without the data it announces is accepted. -/
example : checkIntegrity true [⟨0, 2, 0, some []⟩] 2 = .ok () := by decide
example : resolveChain exBase [exD1, exD2] ≠ [] := by decide

end GitDB.Props
