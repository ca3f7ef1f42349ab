import Verif.Props.Index
/-!
# C53: damaged index files
-/
set_option autoImplicit false

namespace GitDB.Props
open GitDB Spec

theorem mapM_unpackL (map : Bytes) (off : Nat) : ∀ (l : List Nat),
    (∀ i ∈ l, off + i * 4 + 4 ≤ map.length) ∧
      l.mapM (fun i => unpackL map (off + i * 4)) =
        .ok (l.map fun i => beVal (pySlice map (off + i * 4) (off + i * 4 + 4))) ∨
    (∃ i ∈ l, map.length < off + i * 4 + 4) ∧
      l.mapM (fun i => unpackL map (off + i * 4)) = .error .structError := by
  intro l
  induction l with
  | nil => left; exact ⟨by simp, rfl⟩
  | cons a l ih =>
    by_cases ha : off + a * 4 + 4 ≤ map.length
    · have hu : unpackL map (off + a * 4) = .ok (beVal (pySlice map (off + a * 4) (off + a * 4 + 4))) := by
        rw [unpackL, if_pos ha]
      rcases ih with ⟨h1, h2⟩ | ⟨⟨i, h1, h1'⟩, h2⟩
      · left
        refine ⟨?_, ?_⟩
        · intro i hi
          rcases List.mem_cons.1 hi with rfl | hi
          · exact ha
          · exact h1 i hi
        · rw [List.mapM_cons, hu, h2]; rfl
      · right
        exact ⟨⟨i, by simp [h1], h1'⟩, by rw [List.mapM_cons, hu, h2]; rfl⟩
    · right
      refine ⟨⟨a, by simp, by omega⟩, ?_⟩
      rw [List.mapM_cons, unpackL, if_neg ha]
      rfl

theorem readFanout_cases (map : Bytes) (off : Nat) :
    (off + 1024 ≤ map.length ∧ ∃ f, readFanout map off = .ok f ∧ f.length = 256) ∨
    (map.length < off + 1024 ∧ readFanout map off = .error .structError) := by
  rcases mapM_unpackL map off (List.range 256) with ⟨h1, h2⟩ | ⟨⟨i, h1, h1'⟩, h2⟩
  · left
    have := h1 255 (by simp)
    exact ⟨by omega, _, h2, by simp⟩
  · right
    have := List.mem_range.1 h1
    exact ⟨by omega, h2⟩

/-- Does the file begin like an index of version 2? -/
def LooksV2 (file : Bytes) : Prop := file.take 4 = [0xff, 0x74, 0x4f, 0x63]

/-- **C53** opening any file as an index: exactly when it raises, and what.  Nothing beyond the header and
the size of the fanout table is verified. -/
theorem C53_open (file : Bytes) :
    (∃ x, IndexFile.load file = .ok x ∧ x.map = file ∧
        (LooksV2 file ∧ 1032 ≤ file.length ∧ unpackL file 4 = .ok 2 ∧ x.version = 2 ∨
          ¬ LooksV2 file ∧ 1024 ≤ file.length ∧ x.version = 1)) ∨
    (IndexFile.load file = .error .structError ∧ (LooksV2 file ∧ file.length < 1032 ∨
        ¬ LooksV2 file ∧ file.length < 1024)) ∨
    (IndexFile.load file = .error .assertionError ∧ LooksV2 file ∧ ∃ v, unpackL file 4 = .ok v ∧ v ≠ 2) := by
  by_cases hv : LooksV2 file
  · have hv' : file.take 4 = [0xff, 0x74, 0x4f, 0x63] := hv
    simp only [IndexFile.load, hv', if_true]
    by_cases h8 : 8 ≤ file.length
    · have hu : unpackL file 4 = .ok (beVal (pySlice file 4 (4 + 4))) := by rw [unpackL, if_pos (by omega)]
      rw [hu]
      by_cases h2 : beVal (pySlice file 4 (4 + 4)) = 2
      · simp only [h2, if_true]
        rcases readFanout_cases file 8 with ⟨h1, f, hf, _⟩ | ⟨h1, hf⟩
        · left
          simp only [hf]
          exact ⟨_, rfl, rfl, .inl ⟨hv, by omega, by trivial, rfl⟩⟩
        · right; left
          simp only [hf]
          exact ⟨by trivial, .inl ⟨hv, by omega⟩⟩
      · right; right
        simp only [if_neg h2]
        exact ⟨by trivial, hv, _, rfl, h2⟩
    · right; left
      have hu : unpackL file 4 = .error .structError := by rw [unpackL, if_neg (by omega)]
      rw [hu]
      exact ⟨rfl, .inl ⟨hv, by omega⟩⟩
  · have hv' : ¬ file.take 4 = [0xff, 0x74, 0x4f, 0x63] := hv
    simp only [IndexFile.load, if_neg hv', show ¬ (1 = 2) by omega, if_false]
    rcases readFanout_cases file 0 with ⟨h1, f, hf, _⟩ | ⟨h1, hf⟩
    · left
      simp only [hf]
      exact ⟨_, rfl, rfl, .inr ⟨hv, by omega, rfl⟩⟩
    · right; left
      simp only [hf]
      exact ⟨by trivial, .inr ⟨hv, by omega⟩⟩

theorem bisect_sound (sha : Bytes) (get : Nat → Bytes) : ∀ (k lo hi i : Nat),
    bisect sha get k lo hi = some i → lo ≤ i ∧ i < hi ∧ get i = sha := by
  intro k
  induction k with
  | zero => intro lo hi i h; simp [bisect] at h
  | succ k ih =>
    intro lo hi i h
    rw [bisect] at h
    by_cases hlt : lo < hi
    · rw [if_pos hlt] at h
      simp only at h
      split at h
      · obtain ⟨h1, h2, h3⟩ := ih _ _ _ h
        exact ⟨by omega, by omega, h3⟩
      · split at h
        · next he =>
          injection h with h
          subst h
          exact ⟨by omega, by omega, he.symm⟩
        · obtain ⟨h1, h2, h3⟩ := ih _ _ _ h
          exact ⟨by omega, by omega, h3⟩
    · rw [if_neg hlt] at h; cases h

/-- Where the name at position `i` is in an index file. -/
def namePos (version i : Nat) : Nat := if version = 2 then 1032 + 20 * i else 1024 + 24 * i + 4

theorem sha_eq_slice (x : IndexFile) (i : Nat) :
    x.sha i = (x.map.drop (namePos x.version i)).take 20 := by
  unfold IndexFile.sha namePos pySlice shaListOff
  split
  · rw [show 8 + 1024 + i * 20 + 20 - (8 + 1024 + i * 20) = 20 by omega,
      show 8 + 1024 + i * 20 = 1032 + 20 * i by omega]
  · rw [show 1024 + i * 24 + 4 + 20 - (1024 + i * 24 + 4) = 20 by omega,
      show 1024 + i * 24 + 4 = 1024 + 24 * i + 4 by omega]

/-- **C53** looking up a name in any file that could be opened, whatever its bytes: the search ends, does
not raise, and a position is returned only if the file holds the name there (so no object is found which
is not listed). -/
theorem C53_no_false_hit (file : Bytes) (x : IndexFile) (h : IndexFile.load file = .ok x) (name : Bytes)
    (hn : name ≠ []) :
    ∃ r, x.shaToIndex name = .ok r ∧
      ∀ i, r = some i → (file.drop (namePos x.version i)).take 20 = name := by
  have hm : x.map = file := by
    rcases C53_open file with ⟨y, h1, h2, _⟩ | ⟨h1, _⟩ | ⟨h1, _⟩
    · rw [h] at h1; injection h1 with h1; rw [h1, h2]
    · rw [h] at h1; cases h1
    · rw [h] at h1; cases h1
  cases name with
  | nil => exact absurd rfl hn
  | cons b t =>
    simp only [IndexFile.shaToIndex, List.head?_cons]
    refine ⟨_, rfl, fun i hi => ?_⟩
    obtain ⟨_, _, h3⟩ := bisect_sound _ _ _ _ _ _ hi
    rw [sha_eq_slice, hm] at h3
    exact h3

/-- **C53** the same for abbreviations: the position returned holds a name with the digits asked for
(on the first `n / 2` bytes), and the only exceptions are those for short abbreviations, ambiguity, and a
name cut off by the end of the file. -/
theorem C53_abbreviation (file : Bytes) (x : IndexFile) (h : IndexFile.load file = .ok x) (part : Bytes)
    (n : Nat) :
    (∃ r, x.partialShaToIndex part n = .ok r ∧ ∀ i, r = some i →
        ((file.drop (namePos x.version i)).take 20).take (n / 2) = part.take (n / 2)) ∨
    x.partialShaToIndex part n = .error .ambiguousObjectName ∨
    (x.partialShaToIndex part n = .error .valueError ∧ part.length < 2) ∨
    (x.partialShaToIndex part n = .error .indexError ∧
      ∃ i, ((file.drop (namePos x.version i)).take 20).length < part.length) := by
  have hm : x.map = file := by
    rcases C53_open file with ⟨y, h1, h2, _⟩ | ⟨h1, _⟩ | ⟨h1, _⟩
    · rw [h] at h1; injection h1 with h1; rw [h1, h2]
    · rw [h] at h1; cases h1
    · rw [h] at h1; cases h1
  unfold IndexFile.partialShaToIndex
  by_cases hs : part.length < 2
  · rw [if_pos hs]; exact .inr (.inr (.inl ⟨rfl, hs⟩))
  rw [if_neg hs]
  cases part with
  | nil => simp at hs
  | cons b t =>
    simp only [List.head?_cons]
    generalize bisectLow _ _ _ _ _ = lo
    by_cases hlo : lo < x.size
    · rw [if_pos hlo]
      rcases hq : isEqualCanonicalSha n (b :: t) (x.sha lo) with e | v
      · simp only
        right; right; right
        unfold isEqualCanonicalSha at hq
        simp only [bind, Except.bind, pure, Except.pure] at hq
        split at hq
        · cases hq
        · split at hq
          · have hl : (b :: t).getLast? = some ((b :: t).getLast (by simp)) := List.getLast?_eq_some_getLast _
            rw [hl] at hq
            simp only at hq
            unfold pyIndex at hq
            split at hq
            · next e' he =>
              split at he
              · cases he
              · next hnone =>
                injection he with he
                subst he
                injection hq with hq
                refine ⟨by rw [hq], lo, ?_⟩
                have := List.getElem?_eq_none_iff.1 hnone
                rw [sha_eq_slice, hm] at this
                simp only [List.length_cons] at this ⊢
                omega
            · split at hq <;> cases hq
          · cases hq
      · cases v with
        | false => simp only; exact .inl ⟨none, rfl, by simp⟩
        | true =>
          simp only
          have hpre : ((file.drop (namePos x.version lo)).take 20).take (n / 2) = (b :: t).take (n / 2) := by
            unfold isEqualCanonicalSha at hq
            simp only [bind, Except.bind, pure, Except.pure] at hq
            split at hq
            · cases hq
            · next hne =>
              rw [sha_eq_slice, hm] at hne
              exact (Decidable.not_not.1 hne).symm
          generalize (if lo + 1 < x.size then x.sha (lo + 1) else []) = next
          by_cases hnx : next ≠ [] ∧ next = x.sha lo
          · rw [if_pos hnx]; exact .inr (.inl rfl)
          · rw [if_neg hnx]
            refine .inl ⟨some lo, rfl, ?_⟩
            intro i hi
            injection hi with hi
            subst hi
            exact hpre
    · rw [if_neg hlo]
      exact .inl ⟨none, rfl, by simp⟩

theorem unpackL_cases (b : Bytes) (off : Nat) : (∃ v, unpackL b off = .ok v) ∨ unpackL b off = .error .structError := by
  unfold unpackL; split
  · exact .inl ⟨_, rfl⟩
  · exact .inr rfl

theorem unpackQ_cases (b : Bytes) (off : Nat) : (∃ v, unpackQ b off = .ok v) ∨ unpackQ b off = .error .structError := by
  unfold unpackQ; split
  · exact .inl ⟨_, rfl⟩
  · exact .inr rfl

/-- **C53** reading an entry (any position, any file): a value or `struct.error`. -/
theorem C53_entries (x : IndexFile) (i : Nat) :
    ((∃ v, x.offset i = .ok v) ∨ x.offset i = .error .structError) ∧
    ((∃ v, x.crc i = .ok v) ∨ x.crc i = .error .structError) ∧
    ((∃ v, x.entry i = .ok v) ∨ x.entry i = .error .structError) := by
  have ho : (∃ v, x.offset i = .ok v) ∨ x.offset i = .error .structError := by
    unfold IndexFile.offset
    split
    · rcases unpackL_cases x.map (x.packOff + i * 4) with ⟨v, hv⟩ | hv
      · rw [hv]
        simp only
        split
        · exact unpackQ_cases _ _
        · exact .inl ⟨_, rfl⟩
      · rw [hv]; exact .inr rfl
    · exact unpackL_cases _ _
  have hc : (∃ v, x.crc i = .ok v) ∨ x.crc i = .error .structError := by
    unfold IndexFile.crc
    split
    · exact unpackL_cases _ _
    · exact .inl ⟨_, rfl⟩
  refine ⟨ho, hc, ?_⟩
  unfold IndexFile.entry
  split
  · rcases ho with ⟨o, ho⟩ | ho
    · rcases hc with ⟨c, hc⟩ | hc
      · rw [ho, hc]; exact .inl ⟨_, rfl⟩
      · rw [ho, hc]; exact .inr rfl
    · rw [ho]; exact .inr rfl
  · split
    · exact .inl ⟨_, rfl⟩
    · exact .inr rfl

theorem words32_spec (l : Bytes) : (l.length % 4 = 0 → ∃ ws, words32 l = .ok ws ∧ 4 * ws.length = l.length ∧
      ∀ (i : Nat) (h : i < ws.length), ws[i] = beVal ((l.drop (4 * i)).take 4)) ∧
    (l.length % 4 ≠ 0 → words32 l = .error .valueError) := by
  match l with
  | [] => exact ⟨fun _ => ⟨[], rfl, rfl, fun i h => by simp at h⟩, fun h => absurd rfl h⟩
  | [a] => exact ⟨fun h => by simp at h, fun _ => rfl⟩
  | [a, b] => exact ⟨fun h => by simp at h, fun _ => rfl⟩
  | [a, b, c] => exact ⟨fun h => by simp at h, fun _ => rfl⟩
  | a :: b :: c :: d :: t =>
    obtain ⟨h1, h2⟩ := words32_spec t
    constructor
    · intro h
      obtain ⟨ws, e1, e2, e3⟩ := h1 (by simp only [List.length_cons] at h; omega)
      refine ⟨beVal [a, b, c, d] :: ws, by rw [words32, e1], by simp only [List.length_cons]; omega, ?_⟩
      intro i hi
      cases i with
      | zero => simp
      | succ i =>
        rw [List.getElem_cons_succ, e3 i (by simpa using hi), show 4 * (i + 1) = 4 * i + 4 by omega]
        simp
    · intro h
      have := h2 (by simp only [List.length_cons] at h; omega)
      rw [words32, this]

/-- **C53** `offsets()` of a version 2 index, whatever its bytes: the table of offsets is taken as far as the file goes.  If it
ends between two entries the rest is missing without notice; if it ends within an entry, `ValueError`. -/
theorem C53_offsets (file : Bytes) (x : IndexFile) (h : IndexFile.load file = .ok x) (hv : LooksV2 file) :
    let avail := min (4 * x.size) (file.length - (1032 + 24 * x.size))
    (avail % 4 = 0 → ∃ os, x.offsets = .ok os ∧ 4 * os.length = avail ∧
      ∀ (i : Nat) (h : i < os.length), os[i] = beVal ((file.drop (1032 + 24 * x.size + 4 * i)).take 4)) ∧
    (avail % 4 ≠ 0 → x.offsets = .error .valueError) := by
  intro avail
  have hx : x.map = file ∧ x.version = 2 ∧ x.packOff = 1032 + 24 * x.size ∧ x.pack64Off = 1032 + 28 * x.size := by
    have hv' : file.take 4 = [0xff, 0x74, 0x4f, 0x63] := hv
    unfold IndexFile.load at h
    simp only [hv', if_true] at h
    rcases hu : unpackL file 4 with e | v
    · rw [hu] at h; cases h
    · rw [hu] at h
      simp only at h
      by_cases h2 : v = 2
      · simp only [if_pos h2] at h
        rcases hf : readFanout file 8 with e | f
        · rw [hf] at h; cases h
        · rw [hf] at h
          cases h
          refine ⟨rfl, rfl, ?_, ?_⟩
          · simp only [IndexFile.size, shaListOff]; omega
          · simp only [IndexFile.size, shaListOff]; omega
      · simp [if_neg h2] at h
  obtain ⟨hm, hver, hp, h64⟩ := hx
  have hoff : x.offsets = words32 ((file.drop (1032 + 24 * x.size)).take (4 * x.size)) := by
    unfold IndexFile.offsets pySlice
    rw [if_pos hver, hm, hp, h64]
    congr 2
    omega
  have hlen : ((file.drop (1032 + 24 * x.size)).take (4 * x.size)).length = avail := by
    rw [List.length_take, List.length_drop]
  obtain ⟨h1, h2⟩ := words32_spec ((file.drop (1032 + 24 * x.size)).take (4 * x.size))
  rw [hlen, ← hoff] at h1 h2
  refine ⟨fun ha => ?_, h2⟩
  obtain ⟨ws, e1, e2, e3⟩ := h1 ha
  refine ⟨ws, e1, e2, fun i hi => ?_⟩
  have h4 : min 4 (4 * x.size - 4 * i) = 4 := by
    have : avail ≤ 4 * x.size := Nat.min_le_left _ _
    clear_value avail
    omega
  rw [e3 i hi, List.drop_take, List.drop_drop, List.take_take, h4]

/-- The example index, cut off in the middle of the second name. -/
def cutIndex : Bytes := (indexV2 exEntries [] []).take (1032 + 20 + 7)

/-- **C53** what is not noticed: the file is opened without complaint, and the object whose name is
completely there is found, but the lookup of one of the others says "not there". -/
theorem C53_truncation_unnoticed :
    ∃ x, IndexFile.load cutIndex = .ok x ∧ x.size = 3 ∧
      x.shaToIndex (0x00 :: List.replicate 19 2) = .ok (some 0) ∧
      x.shaToIndex (0xc0 :: List.replicate 19 0) = .ok none ∧
      x.offset 0 = .error .structError := by
  have h : (IndexFile.load cutIndex).map (fun x => (x.size, x.shaToIndex (0x00 :: List.replicate 19 2),
      x.shaToIndex (0xc0 :: List.replicate 19 0), x.offset 0)) =
      .ok (3, .ok (some 0), .ok none, .error .structError) := by decide +kernel
  rcases hx : IndexFile.load cutIndex with e | x
  · rw [hx] at h; cases h
  · rw [hx] at h
    simp only [Except.map] at h
    injection h with h
    simp only [Prod.mk.injEq] at h
    exact ⟨x, rfl, h⟩

/-- The example index with one and a half offsets: `ValueError`; with one: a table with one entry. -/
example : (IndexFile.load ((indexV2 exEntries [] []).take (1032 + 24 * 3 + 6))).bind IndexFile.offsets = .error .valueError := by
  decide +kernel
example : ((IndexFile.load ((indexV2 exEntries [] []).take (1032 + 24 * 3 + 4))).bind IndexFile.offsets).map List.length = .ok 1 := by
  decide +kernel

example : ¬ LooksV2 (List.replicate 1024 0) ∧ (List.replicate 1024 (0 : UInt8)).length = 1024 := by
  unfold LooksV2; decide +kernel
example : IndexFile.load [0xff, 0x74, 0x4f, 0x63, 0, 0, 0, 3] = .error .assertionError := by decide
example : IndexFile.load [0xff, 0x74, 0x4f, 0x63, 0, 0, 0, 2] = .error .structError := by decide +kernel

end GitDB.Props
