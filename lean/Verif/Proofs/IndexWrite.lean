import Verif.Proofs.IndexRead
import Verif.Proofs.Bits
import Verif.Proofs.Copy
/-!
# What the index writer writes
-/
set_option autoImplicit false

namespace GitDB
open Spec

/-- The entry recorded for an appended object. -/
def IdxObj.toEntry (o : IdxObj) : Entry := { name := o.sha, crc := o.crc % 2 ^ 32, ofs := o.ofs }

theorem sortObjs_perm (objs : List IdxObj) : (sortObjs objs).Perm objs := List.mergeSort_perm _ _

theorem sortObjs_sorted (objs : List IdxObj) : Ascending ((sortObjs objs).map IdxObj.sha) := by
  unfold Ascending
  rw [List.pairwise_map]
  have := List.pairwise_mergeSort (le := fun a b : IdxObj => decide (¬ b.sha < a.sha))
    (by
      intro a b c h1 h2
      simp only [decide_eq_true_eq] at h1 h2 ⊢
      exact bytes_le_trans h1 h2)
    (by
      intro a b
      simp only [Bool.or_eq_true, decide_eq_true_eq]
      by_cases h : b.sha < a.sha
      · exact Or.inr (bytes_lt_asymm h)
      · exact Or.inl h) objs
  exact this.imp (by intro a b h; simpa using h)

theorem countP_or {α : Type} (p q r : α → Bool) (h : ∀ a, r a = (p a || q a))
    (hd : ∀ a, ¬ (p a = true ∧ q a = true)) (l : List α) :
    l.countP r = l.countP p + l.countP q := by
  induction l with
  | nil => rfl
  | cons a l ih =>
    simp only [List.countP_cons, ih, h a]
    have := hd a
    cases hp : p a <;> cases hq : q a <;> simp_all <;> omega

/-- Number of objects whose name begins with a byte below `k`. -/
def cntLt (objs : List IdxObj) (k : Nat) : Nat :=
  objs.countP fun o => decide (∃ b, o.sha.head? = some b ∧ b.toNat < k)

theorem cntLt_succ (objs : List IdxObj) (k : Nat) :
    cntLt objs (k + 1) = cntLt objs k + slotCount objs k := by
  unfold cntLt slotCount
  rw [← List.countP_eq_length_filter]
  apply countP_or
  · intro o
    rcases o.sha.head? with _ | b
    · simp
    · have h1 : (b.toNat < k + 1) = (b.toNat < k ∨ b.toNat = k) := by apply propext; omega
      simp [h1]
      rw [Bool.eq_iff_iff]; simp
  · intro o
    rcases o.sha.head? with _ | b
    · simp
    · simp; omega

theorem cntLt_firstLe (objs : List IdxObj) (h : ∀ o ∈ objs, o.sha ≠ []) (k : Nat) :
    cntLt objs (k + 1) = (objs.map IdxObj.sha).countP (firstLe k) := by
  unfold cntLt
  rw [List.countP_map]
  apply List.countP_congr
  intro o ho
  obtain ⟨b, t, hb⟩ := List.exists_cons_of_ne_nil (h o ho)
  simp only [hb, List.head?_cons, Option.some.injEq, decide_eq_true_eq, Function.comp_apply, firstLe]
  constructor
  · rintro ⟨c, rfl, hc⟩; omega
  · intro hc; exact ⟨b, rfl, by omega⟩

theorem fanoutSteps_spec (objs : List IdxObj) (n : Nat) : ∀ s,
    fanoutSteps (cntLt objs s) ((List.range' s n).map (slotCount objs)) =
      (List.range' s n).map fun k => packL (cntLt objs (k + 1)) := by
  induction n with
  | zero => intro s; rfl
  | succ n ih =>
    intro s
    rw [List.range'_succ, List.map_cons, List.map_cons, fanoutSteps, ← cntLt_succ, ih]

theorem fanout_spec (objs : List IdxObj) (h : ∀ o ∈ objs, o.sha ≠ []) (hc : objs.length < 2 ^ 32) :
    fanoutSteps 0 ((List.range 256).map (slotCount objs)) =
      ((fanoutTable (objs.map IdxObj.sha)).map u32).map .ok := by
  have h0 : cntLt objs 0 = 0 := by
    unfold cntLt
    rw [List.countP_eq_zero]
    intro o _
    simp
  have hs := fanoutSteps_spec objs 256 0
  rw [h0] at hs
  rw [List.range_eq_range', hs, fanoutTable, List.map_map, List.map_map, List.range_eq_range']
  apply List.map_congr_left
  intro k _
  simp only [Function.comp_apply]
  rw [cntLt_firstLe objs h, packL, if_pos, beBytes4_eq]
  exact Nat.lt_of_le_of_lt List.countP_le_length (by simpa using hc)

theorem ofs32Steps_spec (rest : List IdxObj) : ∀ (pre : List IdxObj),
    (pre.map IdxObj.toEntry).countP isLarge + (rest.map IdxObj.toEntry).countP isLarge ≤ 2 ^ 31 →
    ofs32Steps ((pre.map IdxObj.toEntry).countP isLarge) rest =
      (((rest.map IdxObj.toEntry).zipIdx pre.length).map fun p =>
        u32 (ofsField ((pre ++ rest).map IdxObj.toEntry) p.1 p.2)).map .ok := by
  induction rest with
  | nil => intro pre _; rfl
  | cons o rest ih =>
    intro pre hl
    have ih' := ih (pre ++ [o])
    simp only [List.append_assoc, List.cons_append, List.nil_append, List.length_append,
      List.length_singleton, List.map_append, List.map_cons, List.map_nil, List.countP_append,
      List.countP_cons, List.countP_nil, Nat.zero_add] at ih' hl ⊢
    simp only [List.zipIdx_cons, List.map_cons]
    have htake : ((pre.map IdxObj.toEntry) ++ o.toEntry :: rest.map IdxObj.toEntry).take pre.length =
        pre.map IdxObj.toEntry := by
      have : pre.length = (pre.map IdxObj.toEntry).length := by simp
      rw [this, List.take_left]
    rw [ofs32Steps]
    by_cases ho : o.ofs > 0x7fffffff
    · have hlarge : isLarge o.toEntry = true := by
        have : 2 ^ 31 ≤ o.ofs := by omega
        unfold isLarge IdxObj.toEntry
        exact decide_eq_true this
      rw [if_pos ho]
      simp only [hlarge, if_true] at ih' hl ⊢
      have hf : ofsField (pre.map IdxObj.toEntry ++ o.toEntry :: rest.map IdxObj.toEntry) o.toEntry pre.length =
          2 ^ 31 + (pre.map IdxObj.toEntry).countP isLarge := by
        unfold ofsField
        rw [if_pos hlarge, htake]
      rw [ih' (by omega), hf, and_ff32]
      generalize (pre.map IdxObj.toEntry).countP isLarge = k at hl
      rw [packL, if_pos (by omega), beBytes4_eq]
      congr 3
      omega
    · have hlarge : isLarge o.toEntry = false := by
        have : ¬ 2 ^ 31 ≤ o.ofs := by omega
        unfold isLarge IdxObj.toEntry
        exact decide_eq_false this
      rw [if_neg ho]
      simp only [hlarge, Bool.false_eq_true, if_false, Nat.add_zero] at ih' hl ⊢
      have hf : ofsField (pre.map IdxObj.toEntry ++ o.toEntry :: rest.map IdxObj.toEntry) o.toEntry pre.length =
          o.ofs := by
        unfold ofsField
        rw [if_neg (by simp [hlarge])]; rfl
      rw [ih' (by omega), hf, and_ff32, packL, if_pos (by omega), beBytes4_eq]
      congr 3
      omega

/-- Objects that can be indexed. -/
structure Indexable (objs : List IdxObj) : Prop where
  sha_len : ∀ o ∈ objs, o.sha.length = 20
  ofs_lt : ∀ o ∈ objs, o.ofs < 2 ^ 64
  count : objs.length < 2 ^ 32
  large : objs.countP (fun o => decide (2 ^ 31 ≤ o.ofs)) ≤ 2 ^ 31

theorem Indexable.perm {a b : List IdxObj} (h : a.Perm b) (hb : Indexable b) : Indexable a where
  sha_len := fun o ho => hb.sha_len o (h.mem_iff.1 ho)
  ofs_lt := fun o ho => hb.ofs_lt o (h.mem_iff.1 ho)
  count := by rw [h.length_eq]; exact hb.count
  large := by rw [h.countP_eq]; exact hb.large

theorem Indexable.valid {objs : List IdxObj} (h : Indexable objs) : ValidV2 (objs.map IdxObj.toEntry) where
  name_len := by
    intro e he
    obtain ⟨o, ho, rfl⟩ := List.mem_map.1 he
    exact h.sha_len o ho
  crc_lt := by
    intro e he
    obtain ⟨o, ho, rfl⟩ := List.mem_map.1 he
    exact Nat.mod_lt _ (by omega)
  ofs_lt := by
    intro e he
    obtain ⟨o, ho, rfl⟩ := List.mem_map.1 he
    exact h.ofs_lt o ho
  count := by simpa using h.count
  large := by
    rw [List.countP_map]
    exact h.large

theorem indexSteps_spec (objs : List IdxObj) (packSha : Bytes) (h : Indexable objs)
    (hp : packSha.length = 20) :
    ∃ ds : List Bytes, indexSteps objs packSha = ds.map .ok ∧
      ds.flatten = indexV2 (objs.map IdxObj.toEntry) packSha [] := by
  have hne : ∀ o ∈ objs, o.sha ≠ [] := by
    intro o ho h0
    have := h.sha_len o ho
    rw [h0] at this; simp at this
  have hnames : (objs.map IdxObj.toEntry).map Entry.name = objs.map IdxObj.sha := by
    rw [List.map_map]; rfl
  refine ⟨[[0xff, 0x74, 0x4f, 0x63], u32 2] ++ (fanoutTable (objs.map IdxObj.sha)).map u32 ++
    [(objs.map IdxObj.sha).flatten] ++ objs.map (fun o => u32 (o.crc % 2 ^ 32)) ++
    ((objs.map IdxObj.toEntry).zipIdx.map fun p => u32 (ofsField (objs.map IdxObj.toEntry) p.1 p.2)) ++
    ((objs.map IdxObj.toEntry).filter isLarge).map (fun e => u64 e.ofs) ++ [packSha], ?_, ?_⟩
  · unfold indexSteps
    have hany : (objs.any fun o => o.sha.isEmpty) = false := by
      rw [List.any_eq_false]
      intro o ho
      simpa using hne o ho
    have hofs := ofs32Steps_spec objs [] (by
      have := h.large
      simp only [List.map_nil, List.countP_nil, Nat.zero_add]
      rw [List.countP_map]; exact this)
    simp only [List.map_nil, List.countP_nil, List.length_nil, List.nil_append] at hofs
    rw [hany, fanout_spec objs hne h.count, hofs, if_pos hp]
    have hcrc : objs.map (fun o => packL (o.crc &&& 0xffffffff)) =
        (objs.map (fun o => u32 (o.crc % 2 ^ 32))).map .ok := by
      rw [List.map_map]
      apply List.map_congr_left
      intro o _
      have : o.crc % 4294967296 < 2 ^ 32 := Nat.mod_lt _ (by omega)
      simp only [Function.comp_apply]
      rw [and_ff32, packL, if_pos this, beBytes4_eq]
    have hlarge : ((objs.map IdxObj.ofs).filter (· > 0x7fffffff)).map packQ =
        (((objs.map IdxObj.toEntry).filter isLarge).map (fun e => u64 e.ofs)).map .ok := by
      rw [List.filter_map, List.filter_map, List.map_map, List.map_map, List.map_map]
      have : objs.filter ((fun x => decide (x > 0x7fffffff)) ∘ IdxObj.ofs) =
          objs.filter (isLarge ∘ IdxObj.toEntry) := by
        apply List.filter_congr
        intro o _
        simp only [Function.comp_apply, isLarge, IdxObj.toEntry]
        rfl
      rw [this]
      apply List.map_congr_left
      intro o ho
      have := h.ofs_lt o (List.mem_filter.1 ho).1
      simp only [Function.comp_apply]
      rw [packQ, if_pos this, beBytes8_eq]; rfl
    rw [hcrc, hlarge]
    simp only [List.map_append, List.map_cons, List.map_nil]
    rfl
  · unfold indexV2
    rw [hnames]
    simp only [List.flatten_append, List.flatten_cons, List.flatten_nil, List.append_nil,
      ← List.flatMap_def, List.flatMap_map, IdxObj.toEntry, List.append_assoc]

theorem writeSteps_ok {ω ρ : Type} {write : ω → Bytes → ω × Res ρ} {WRep : ω → Bytes → Prop}
    (hw : ∀ cap, Stores write WRep cap) (ds : List Bytes) : ∀ (f : FlexibleSha1Writer ω) (out : Bytes),
    WRep f.inner out →
    ∃ f', writeSteps (FlexibleSha1Writer.write write) f (ds.map .ok) = (f', .ok ()) ∧
      WRep f'.inner (out ++ ds.flatten) ∧ f'.sha1.hashed = f.sha1.hashed ++ ds.flatten := by
  induction ds with
  | nil => intro f out h; exact ⟨f, rfl, by simpa using h, by simp⟩
  | cons d ds ih =>
    intro f out h
    obtain ⟨i', r, e, h'⟩ := hw _ f.inner out d h (Nat.le_refl _)
    have hwr : FlexibleSha1Writer.write write f d =
        ({ sha1 := (f.sha1.write d).1, inner := i' }, .ok none) := by
      simp [FlexibleSha1Writer.write, e]
    obtain ⟨f', e', h1, h2⟩ := ih { sha1 := (f.sha1.write d).1, inner := i' } (out ++ d) h'
    refine ⟨f', ?_, ?_, ?_⟩
    · rw [List.map_cons, writeSteps, hwr]; exact e'
    · simpa using h1
    · rw [h2]; simp [Sha1Writer.write]

theorem indexWrite_spec {ω ρ : Type} {write : ω → Bytes → ω × Res ρ} {WRep : ω → Bytes → Prop}
    (hw : ∀ cap, Stores write WRep cap) (H : Hash) (objs : List IdxObj) (packSha : Bytes)
    (h : Indexable objs) (hp : packSha.length = 20) (w : ω) (out : Bytes) (ho : WRep w out) :
    ∃ w', indexWrite H objs packSha write w =
        (w', .ok (H.digest (indexV2 ((sortObjs objs).map IdxObj.toEntry) packSha []))) ∧
      WRep w' (out ++ indexV2 ((sortObjs objs).map IdxObj.toEntry) packSha
        (H.digest (indexV2 ((sortObjs objs).map IdxObj.toEntry) packSha []))) := by
  obtain ⟨ds, e1, e2⟩ := indexSteps_spec (sortObjs objs) packSha (h.perm (sortObjs_perm objs)) hp
  obtain ⟨f', e3, h3, h4⟩ := writeSteps_ok hw ds { inner := w } out ho
  have hh : f'.sha1.hashed = indexV2 ((sortObjs objs).map IdxObj.toEntry) packSha [] := by
    rw [h4, ← e2]; rfl
  obtain ⟨w', r, e5, h5⟩ := hw _ f'.inner _ (H.digest f'.sha1.hashed) h3 (Nat.le_refl _)
  refine ⟨w', ?_, ?_⟩
  · unfold indexWrite
    rw [e1, e3]
    have : f'.sha1.sha H false = H.digest f'.sha1.hashed := by simp [Sha1Writer.sha]
    simp only [this, e5]
    rw [hh]
  · rw [e2, hh] at h5
    have : indexV2 ((sortObjs objs).map IdxObj.toEntry) packSha
        (H.digest (indexV2 ((sortObjs objs).map IdxObj.toEntry) packSha [])) =
        indexV2 ((sortObjs objs).map IdxObj.toEntry) packSha [] ++
        H.digest (indexV2 ((sortObjs objs).map IdxObj.toEntry) packSha []) := by
      generalize H.digest (indexV2 ((sortObjs objs).map IdxObj.toEntry) packSha []) = s
      simp only [indexV2, List.append_assoc, List.nil_append]
    rw [this, ← List.append_assoc]
    exact h5

end GitDB
