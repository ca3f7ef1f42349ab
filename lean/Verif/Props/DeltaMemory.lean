import Verif.Model.DeltaMemory
import Verif.Proofs.RawDelta
import Verif.Props.DeltaReader
import Verif.Props.MergeDeltas
/-!
# C100: how much memory applying deltas takes
-/
set_option autoImplicit false

namespace GitDB.Props
open GitDB Spec

variable {σ : Type}

theorem targets_le (l : List (DeltaInfo σ)) (k : Nat) : ∀ m, m ≤ k → (∀ d ∈ l, d.targetSize ≤ k) →
    l.foldl (fun m d => max m d.targetSize) m ≤ k := by
  induction l with
  | nil => intro m hm _; exact hm
  | cons d l ih =>
    intro m hm h
    have hd := h d (by simp)
    exact ih (max m d.targetSize) (by omega) fun x hx => h x (by simp [hx])

theorem targets_ge (l : List (DeltaInfo σ)) : ∀ m, m ≤ l.foldl (fun m d => max m d.targetSize) m ∧
    ∀ d ∈ l, d.targetSize ≤ l.foldl (fun m d => max m d.targetSize) m := by
  induction l with
  | nil => intro m; exact ⟨Nat.le_refl _, fun d h => nomatch h⟩
  | cons d l ih =>
    intro m
    obtain ⟨h1, h2⟩ := ih (max m d.targetSize)
    refine ⟨?_, fun x hx => ?_⟩
    · rw [List.foldl_cons]; omega
    · rw [List.foldl_cons]
      rcases List.mem_cons.mp hx with rfl | hx
      · omega
      · exact h2 x hx

theorem applyAll_enough (limit : Nat) (e : Err) (fuel : Nat) (read : σ → Int → σ × Res Bytes) : ∀ (l : List (DeltaInfo σ)) (b t : Buf),
    (∀ d ∈ l, d.size ≤ limit) → applyAllUpTo limit e fuel read l b t = applyAll fuel read l b t := by
  intro l
  induction l with
  | nil => intro b t _; rfl
  | cons d l ih =>
    intro b t h
    have h1 : ¬ ((d.size : Int) - d.offset > limit) := by have := h d (by simp); omega
    unfold applyAllUpTo applyAll applyOneUpTo
    rw [if_neg h1]
    rcases applyOne fuel read b t d with x | ⟨b', t'⟩
    · rfl
    · exact ih b' t' fun x hx => h x (by simp [hx])

theorem heads_sizes (read : σ → Int → σ × Res Bytes) : ∀ (ss : List (σ × Nat)) (infos : List (DeltaInfo σ)),
    readDeltaHeads read ss = .ok infos → ∀ i ∈ infos, ∃ s ∈ ss, i.size = s.2 := by
  intro ss
  induction ss with
  | nil => intro infos h i hi; cases h; cases hi
  | cons x ss ih =>
    obtain ⟨s, n⟩ := x
    intro infos h i hi
    simp only [readDeltaHeads, bind, Except.bind] at h
    rcases h1 : readDeltaHead read s n with e | d
    · rw [h1] at h; cases h
    · rw [h1] at h
      rcases h2 : readDeltaHeads read ss with e | ds
      · rw [h2] at h; cases h
      · rw [h2] at h
        cases h
        rcases List.mem_cons.mp hi with rfl | hi
        · refine ⟨(s, n), by simp, ?_⟩
          unfold readDeltaHead at h1
          rcases hr : read s 512 with ⟨s', e | buf⟩
          · rw [hr] at h1; cases h1
          · rw [hr] at h1
            simp only [bind, Except.bind] at h1
            rcases m1 : msbSize buf 0 with e | ⟨o1, v1⟩
            · rw [m1] at h1; cases h1
            · rw [m1] at h1
              simp only at h1
              rcases m2 : msbSize buf o1 with e | ⟨o2, v2⟩
              · rw [m2] at h1; cases h1
              · rw [m2] at h1; cases h1; rfl
        · obtain ⟨y, hy, e⟩ := ih ds h2 i hi
          exact ⟨y, by simp [hy], e⟩

theorem newUpTo_eq (limit : Nat) (e : Err) (fuel : Nat) (read : σ → Int → σ × Res Bytes) (ss : List (σ × Nat)) (hne : ss ≠ [])
    (b : σ × Nat) : newDeltaReaderUpTo limit e fuel read (ss ++ [b]) =
      (setCacheBruteUpTo limit e fuel read ss b).map (fun x => ⟨x.1, x.2, 0⟩) ∧
    newDeltaReader fuel read (ss ++ [b]) = (setCacheBrute fuel read ss b).map (fun x => ⟨x.1, x.2, 0⟩) := by
  unfold newDeltaReaderUpTo newDeltaReader
  rw [List.reverse_append, List.reverse_singleton, List.singleton_append]
  rcases hrev : ss.reverse with _ | ⟨x, xs⟩
  · exact absurd (List.reverse_eq_nil_iff.mp hrev) hne
  · simp only [← hrev, List.reverse_reverse]
    constructor
    · rcases setCacheBruteUpTo limit e fuel read ss b with x | ⟨t, n⟩ <;> rfl
    · rcases setCacheBrute fuel read ss b with x | ⟨t, n⟩ <;> rfl

/-- **C100** no allocation is larger than the largest of: the size of the base, the sizes of the delta streams, the sizes of results
as announced by the deltas.  If memory of that size can be had, nothing else is needed, for any streams. -/
theorem C100_enough (limit : Nat) (e : Err) (fuel : Nat) (read : σ → Int → σ × Res Bytes) (ss : List (σ × Nat)) (hne : ss ≠ [])
    (bs : σ) (n : Nat) (hn : n ≤ limit) (hs : ∀ s ∈ ss, s.2 ≤ limit)
    (ht : ∀ infos, readDeltaHeads read ss = .ok infos → ∀ i ∈ infos, i.targetSize ≤ limit) :
    newDeltaReaderUpTo limit e fuel read (ss ++ [(bs, n)]) = newDeltaReader fuel read (ss ++ [(bs, n)]) := by
  rw [(newUpTo_eq limit e fuel read ss hne (bs, n)).1, (newUpTo_eq limit e fuel read ss hne (bs, n)).2]
  congr 1
  unfold setCacheBruteUpTo setCacheBrute
  rcases hh : readDeltaHeads read ss with x | infos
  · rfl
  · have h1 := targets_le infos limit 0 (Nat.zero_le _) (ht infos hh)
    have h2 : ∀ i ∈ infos.reverse, i.size ≤ limit := fun i hi => by
      obtain ⟨s, hm, hsz⟩ := heads_sizes read ss infos hh i (by simpa using hi)
      rw [hsz]; exact hs s hm
    have h3 : ∀ k : Nat, k ≤ limit → allocateUpTo limit e (k : Int) = allocateMemory k := fun k hk => by
      unfold allocateUpTo; exact if_neg (by omega)
    simp only [bind, Except.bind]
    generalize infos.foldl (fun m d => max m d.targetSize) 0 = mx at h1
    have h4 : max n mx ≤ limit := by omega
    by_cases hl : ss.length > 1
    · simp only [hl, if_true, h3 _ h4, applyAll_enough limit e fuel read _ _ _ h2]
      rfl
    · simp only [hl, if_false, h3 _ h1, h3 _ hn, applyAll_enough limit e fuel read _ _ _ h2]
      rfl

/-- **C100, finding.**  Announced sizes are allocated before anything is checked: one delta announcing more than can be had and the
object cannot be read, whatever the rest of the deltas is and however small they and the object are. -/
theorem C100_announced (limit : Nat) (e : Err) (fuel : Nat) {read : σ → Int → σ × Res Bytes} {Rep : σ → Bytes → Prop}
    (hr : ObjectReads read Rep) (ds : List RawDelta) (hd : ∀ d ∈ ds, d.Headed) (ss : List (σ × Nat))
    (hss : All2 (fun d (s : σ × Nat) => Rep s.1 d.bytes ∧ s.2 = d.bytes.length) ds ss) (bs : σ) (n : Nat)
    (d : RawDelta) (hm : d ∈ ds) (hbig : limit < leValue d.tgt) :
    (∃ e', newDeltaReaderUpTo limit e fuel read (ss ++ [(bs, n)]) = .error e') ∧
    (1 < ds.length → newDeltaReaderUpTo limit e fuel read (ss ++ [(bs, n)]) = .error e) := by
  have hlen := all2_length hss
  have hne : ss ≠ [] := by
    rintro rfl
    rw [List.length_nil, List.length_eq_zero_iff] at hlen
    rw [hlen] at hm
    cases hm
  obtain ⟨infos, hh, hi⟩ := readDeltaHeads_raw hr ds ss hd hss
  obtain ⟨i, him, hii⟩ := all2_mem_left hi d hm
  have hge := (targets_ge infos 0).2 i him
  rw [hii.targetSize] at hge
  have hbad : ∀ k : Nat, limit < k → allocateUpTo limit e (k : Int) = .error e := fun k hk => by
    unfold allocateUpTo; exact if_pos (by omega)
  rw [(newUpTo_eq limit e fuel read ss hne (bs, n)).1]
  unfold setCacheBruteUpTo
  rw [hh]
  simp only [bind, Except.bind]
  generalize infos.foldl (fun m d => max m d.targetSize) 0 = mx at hge
  by_cases hl : ss.length > 1
  · have h4 : limit < max n mx := by omega
    simp only [hl, if_true, hbad _ h4]
    exact ⟨⟨e, rfl⟩, fun _ => rfl⟩
  · refine ⟨?_, fun h => absurd (hlen ▸ h) hl⟩
    simp only [hl, if_false]
    rcases allocateUpTo limit e (n : Int) with x | b
    · exact ⟨x, rfl⟩
    · simp only
      rcases streamCopy fuel read Buf.write n (256 * PAGESIZE : Nat) bs b with ⟨s', b', x | k⟩
      · exact ⟨x, rfl⟩
      · simp only [hbad mx (by omega)]
        exact ⟨e, rfl⟩

theorem leValue_high (k : Nat) : leValue (List.replicate k 0x80 ++ [1]) = 2 ^ (7 * k) := by
  induction k with
  | zero => rfl
  | succ k ih =>
    rw [List.replicate_succ, List.cons_append, leValue, ih, Nat.mul_succ, Nat.pow_add]
    have : (0x80 : UInt8).toNat % 128 = 0 := by decide
    rw [this]
    omega

/-- **C100, finding.**  Every further byte of a delta multiplies what it can announce by 128: a delta of `k + 2` bytes announces
`2 ^ (7 k)` bytes. -/
theorem C100_few_bytes (k : Nat) (hk : k ≤ 500) :
    ∃ d : RawDelta, d.Headed ∧ d.bytes.length = k + 2 ∧ leValue d.tgt = 2 ^ (7 * k) := by
  refine ⟨⟨[0], List.replicate k 0x80 ++ [1], []⟩, ⟨⟨[], 0, rfl, by simp, by decide⟩, ⟨_, 1, rfl, ?_, by decide⟩, ?_⟩, ?_, leValue_high k⟩
  · intro b hb
    rw [List.eq_of_mem_replicate hb]
    decide
  · simp; omega
  · simp [RawDelta.bytes]

/-- Sizes of the objects on the way, the first one being the base. -/
def stages (base : Bytes) : List DeltaObj → List Nat
  | [] => [base.length]
  | d :: ds => base.length :: stages (d.run base) ds

theorem stages_tgt : ∀ (base : Bytes) (ds : List DeltaObj), ChainFits base ds → ∀ d ∈ ds, leValue d.tgt ∈ stages base ds
  | _, [], _ => fun d h => nomatch h
  | base, d :: ds, h => fun x hx => by
    rcases List.mem_cons.mp hx with rfl | hx
    · rw [h.1.tgt_size]
      cases ds <;> simp [stages]
    · exact List.mem_cons_of_mem _ (stages_tgt _ ds h.2 x hx)

theorem chain_heads : ∀ (base : Bytes) (ds : List DeltaObj), ChainFits base ds →
    ∀ d ∈ ds, Terminated d.src ∧ Terminated d.tgt ∧ d.src.length + d.tgt.length ≤ 512
  | _, [], _ => fun d h => nomatch h
  | base, d :: ds, h => fun x hx => by
    rcases List.mem_cons.mp hx with rfl | hx
    · exact ⟨h.1.src_term, h.1.tgt_term, h.1.short⟩
    · exact chain_heads _ ds h.2 x hx

/-- **C100** for a correct chain of deltas it is enough if every object on the way and every delta could be had by itself: the object is
read as with unlimited memory. -/
theorem C100_chain (limit : Nat) (e : Err) {read : σ → Int → σ × Res Bytes} {Rep : σ → Bytes → Prop}
    (hr : ObjectReadsFrom 512 read Rep) (base : Bytes) (ds : List DeltaObj) (hne : ds ≠ []) (hc : ChainFits base ds) (bs : σ)
    (hbs : Rep bs base) (ss : List (σ × Nat))
    (hss : All2 (fun d (s : σ × Nat) => Rep s.1 d.bytes ∧ s.2 = d.bytes.length) ds.reverse ss)
    (h1 : ∀ k ∈ stages base ds, k ≤ limit) (h2 : ∀ d ∈ ds, d.bytes.length ≤ limit) :
    ∃ F, ∀ fuel, F ≤ fuel → ∃ r, newDeltaReaderUpTo limit e fuel read (ss ++ [(bs, base.length)]) = .ok r ∧
      r.size = (resolveChain base ds).length ∧ (r.read 0).2 = resolveChain base ds := by
  obtain ⟨F, hF⟩ := C08_resolve read Rep hr base ds hne hc bs hbs ss hss
  refine ⟨F, fun fuel hf => ?_⟩
  obtain ⟨r, e1, e2, e3⟩ := hF fuel hf
  have hsn : ss ≠ [] := by
    rintro rfl
    have := all2_length hss
    simp at this
    exact hne this
  have hb : base.length ≤ limit := h1 _ (by cases ds <;> simp [stages])
  refine ⟨r, ?_, e2, ?_⟩
  · rw [C100_enough limit e fuel read ss hsn bs base.length hb, e1]
    · intro s hs
      obtain ⟨d, hd, -, h⟩ := all2_mem_right hss s hs
      rw [h]
      exact h2 d (by simpa using hd)
    · intro infos hi i him
      obtain ⟨is, k1, k2⟩ := readDeltaHeads_spec hr ds.reverse ss (fun d hd => chain_heads base ds hc d (by simpa using hd)) hss
      rw [k1] at hi
      cases hi
      obtain ⟨d, hd, hio⟩ := all2_mem_right k2 i him
      rw [hio.targetSize]
      exact h1 _ (stages_tgt base ds hc d (by simpa using hd))
  · obtain ⟨r', ps, k1, k2⟩ := e3 [0]
    simp only [readMany] at k1
    cases k1
    simpa [readLen] using k2

/-- A delta of 11 bytes announcing 2 ^ 63 bytes: `mmap` refuses with `OverflowError`; with little memory also the correct chain. -/
example : newDeltaReaderUpTo (2 ^ 63 - 1) .overflowError 9 objRead
    [([2, 0x80, 0x80, 0x80, 0x80, 0x80, 0x80, 0x80, 0x80, 0x80, 1], 11), ([2, 2, 1, 7], 4), ([65, 66], 2)] |>.map (·.size) |> (· = .error .overflowError) := by
  decide +kernel
example : (newDeltaReaderUpTo 12 .osError 9 objRead [(exD2.bytes, exD2.bytes.length), (exD1.bytes, exD1.bytes.length),
    (exBase, 3)]).map (fun r => (r.read 0).2) = .ok [88, 66, 67, 89] := by decide +kernel
example : (newDeltaReaderUpTo 3 .osError 9 objRead [(exD2.bytes, exD2.bytes.length), (exD1.bytes, exD1.bytes.length),
    (exBase, 3)]).map (fun r => (r.read 0).2) = .error .osError := by decide +kernel
example := C100_few_bytes 9 (by decide)
/-- The hypotheses of `C100_chain`, with 12 bytes of memory. -/
example := C100_chain 12 .osError (objRead_reads.above 512) exBase [exD1, exD2] (by simp) exChain exBase rfl
  [(exD2.bytes, exD2.bytes.length), (exD1.bytes, exD1.bytes.length)] (.cons ⟨rfl, rfl⟩ (.cons ⟨rfl, rfl⟩ .nil)) (by decide) (by decide)
/-- The hypotheses of `C100_announced`: the delta below the topmost one announces 100 bytes. -/
example := (C100_announced 64 .osError 9 objRead_reads [⟨[2], [3], [1, 7]⟩, ⟨[2], [100], []⟩]
  (by
    intro d hd
    rcases List.mem_cons.mp hd with rfl | hd
    · exact ⟨⟨[], 2, rfl, by simp, by decide⟩, ⟨[], 3, rfl, by simp, by decide⟩, by decide⟩
    · cases List.mem_singleton.mp hd
      exact ⟨⟨[], 2, rfl, by simp, by decide⟩, ⟨[], 100, rfl, by simp, by decide⟩, by decide⟩)
  [([2, 3, 1, 7], 4), ([2, 100], 2)] (.cons ⟨rfl, rfl⟩ (.cons ⟨rfl, rfl⟩ .nil)) [65, 66] 2 ⟨[2], [100], []⟩ (by simp) (by decide)).2 (by decide)

end GitDB.Props
