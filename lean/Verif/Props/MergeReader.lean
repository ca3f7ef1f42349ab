import Verif.Model.MergeReader
import Verif.Props.MergeDeltas
import Verif.Props.DeltaReader
/-!
# C59: resolving a chain of deltas by merging them first
-/
set_option autoImplicit false

namespace GitDB.Props
open GitDB Spec

variable {σ : Type}

theorem readContents_spec {read : σ → Int → σ × Res Bytes} {Rep : σ → Bytes → Prop}
    (hr : ObjectReads read Rep) (ds : List DeltaObj) (ss : List (σ × Nat))
    (hss : All2 (fun d (s : σ × Nat) => Rep s.1 d.bytes ∧ s.2 = d.bytes.length) ds ss) :
    readContents read ss = .ok (ds.map fun d => (d.bytes, d.bytes.length)) := by
  induction hss with
  | nil => rfl
  | @cons d s ds ss h _ ih =>
    obtain ⟨s0, n⟩ := s
    obtain ⟨h1, h2⟩ := h
    simp only at h1 h2
    obtain ⟨s', e, _⟩ := hr.read_all s0 _ (-1) h1 (by omega)
    subst h2
    simp only [readContents, e, ih, bind, Except.bind, pure, Except.pure, List.map_cons]

theorem listApply_stores {ω : Type} {write : ω → Bytes → ω × Res Unit} {WRep : ω → Bytes → Prop} {cap : Nat}
    (hw : Stores write WRep cap) (base : Bytes) (l : List DeltaChunk) : ∀ (w : ω) (out : Bytes), WRep w out →
    (out ++ chunkOut base l).length ≤ cap →
    ∃ w', listApply base write w l = (w', .ok ()) ∧ WRep w' (out ++ chunkOut base l) := by
  induction l with
  | nil => intro w out h _; exact ⟨w, rfl, by simpa using h⟩
  | cons c l ih =>
    intro w out h hcap
    simp only [chunkOut_cons, List.length_append] at hcap
    obtain ⟨w1, r, e1, h1⟩ := hw w out (chunkApply c base) h (by simp only [List.length_append]; omega)
    obtain ⟨w2, e2, h2⟩ := ih w1 _ h1 (by simp only [List.length_append]; omega)
    refine ⟨w2, ?_, by simpa [chunkOut_cons] using h2⟩
    simp only [listApply, e1]
    exact e2

theorem setCacheMerged_spec {read : σ → Int → σ × Res Bytes} {Rep : σ → Bytes → Prop}
    (hr : ObjectReads read Rep) (base : Bytes) (ds : List DeltaObj) (hne : ds ≠ [])
    (hc : ChainFits base ds) (bs : σ) (hbs : Rep bs base) (ss : List (σ × Nat))
    (hss : All2 (fun d (s : σ × Nat) => Rep s.1 d.bytes ∧ s.2 = d.bytes.length) ds.reverse ss) :
    ∃ F, ∀ fuel, F ≤ fuel → ∃ b,
      setCacheMerged .meant fuel read ss (bs, base.length) = .ok (b, (resolveChain base ds).length) ∧
      b.data.take (resolveChain base ds).length = resolveChain base ds ∧ b.pos = 0 := by
  by_cases h1 : ss.length = 1
  · obtain ⟨F, hF⟩ := setCacheBrute_spec (hr.above 512) base ds hne hc bs hbs ss hss
    refine ⟨F, fun fuel hf => ?_⟩
    obtain ⟨b, e, h⟩ := hF fuel hf
    exact ⟨b, by rw [setCacheMerged, if_pos h1, e], h⟩
  · obtain ⟨l, m1, m2, m3, _⟩ := C09_merge_partial base ds hne hc
    have hout : chunkOut base l = resolveChain base ds := by
      have := m2
      rw [listApply_collect] at this
      simpa using congrArg Prod.fst this
    have hrc := readContents_spec hr _ _ hss
    rw [← deltaStreams.eq_1] at hrc
    refine ⟨base.length + 1, fun fuel hfuel => ?_⟩
    generalize hR : (resolveChain base ds).length = R at *
    by_cases h0 : R = 0
    · refine ⟨⟨[], 0, false⟩, ?_, ?_, rfl⟩
      · subst h0
        simp [setCacheMerged, h1, hrc, m1, m3, bind, Except.bind, allocateMemory, pure, Except.pure]
      · have : resolveChain base ds = [] := List.length_eq_zero_iff.mp (by omega)
        simp [this]
    · obtain ⟨t0, ht0⟩ := allocateMemory_ok R
      have rt := bufRep_fresh _ t0 ht0
      obtain ⟨b0, hb0⟩ := allocateMemory_ok base.length
      have rb := bufRep_fresh _ b0 hb0
      have hst := buf_stores (decide (base.length ≠ 0)) base.length base.length (fun _ => Nat.le_refl _)
      have copy : ∃ s' b1 n, streamCopy fuel read Buf.write (base.length : Int) (256 * PAGESIZE : Nat) bs b0 =
          (s', b1, .ok n) ∧ BufRep (decide (base.length ≠ 0)) base.length b1 base := by
        by_cases hb : base.length = 0
        · have hbase : base = [] := List.length_eq_zero_iff.mp hb
          subst hbase
          obtain ⟨s', b1, w, _, q⟩ := streamCopy_zero_object hr hst (256 * PAGESIZE : Nat)
            (by simp [PAGESIZE]) fuel bs b0 [] hbs rb (by omega) (by simp)
          exact ⟨s', b1, _, by simpa using w, q⟩
        · obtain ⟨s', b1, w, _, q⟩ := streamCopy_spec hr.toBoundedReads hst base.length (256 * PAGESIZE : Nat)
            (by simp [PAGESIZE]) fuel bs b0 base [] hbs rb (by omega) (by omega) (by simp)
          rw [List.take_length, List.nil_append] at q
          exact ⟨s', b1, _, w, q⟩
      obtain ⟨s1, b1, n1, hcopy, f1, f2, f3, f4⟩ := copy
      have hdata : b1.data = base := by
        rw [← f3, List.take_of_length_le (by omega)]
      obtain ⟨t1, e2, g1, g2, g3, g4⟩ := listApply_stores
        (buf_stores (decide (R ≠ 0)) R R (fun _ => Nat.le_refl _)) base l t0 [] rt (by simp [hout, hR])
      rw [List.nil_append, hout, hR] at g3
      refine ⟨t1.seek0, ?_, g3, rfl⟩
      have hz : ¬ ((R : Int) = 0) := by omega
      simp only [setCacheMerged, if_neg h1, hrc, m1, m3, if_neg hz, ht0, hb0, hcopy, hdata, e2, bind, Except.bind,
        pure, Except.pure, Int.toNat_natCast]

/-- Two well behaved streams with the same bytes left answer every sequence of reads alike. -/
theorem readMany_same {σ τ : Type} {read : σ → Int → σ × Res Bytes} {Rep : σ → Bytes → Prop}
    {read' : τ → Int → τ × Res Bytes} {Rep' : τ → Bytes → Prop} (hr : ObjectReads read Rep)
    (hr' : ObjectReads read' Rep') : ∀ (ns : List Int) (s : σ) (t : τ) (rem : Bytes), Rep s rem → Rep' t rem →
    ∃ s' t' ps, readMany read s ns = (s', .ok ps) ∧ readMany read' t ns = (t', .ok ps) := by
  intro ns
  induction ns with
  | nil => intro s t rem _ _; exact ⟨s, t, [], rfl, rfl⟩
  | cons n ns ih =>
    intro s t rem h h'
    have step : ∃ s1 t1 d rest, read s n = (s1, .ok d) ∧ read' t n = (t1, .ok d) ∧ Rep s1 rest ∧ Rep' t1 rest := by
      by_cases hn : n < 1
      · obtain ⟨s1, e, r⟩ := hr.read_all s rem n h (by omega)
        obtain ⟨t1, e', r'⟩ := hr'.read_all t rem n h' (by omega)
        exact ⟨s1, t1, _, _, e, e', r, r'⟩
      · obtain ⟨s1, e, r⟩ := hr.read_pos s rem n h (by omega)
        obtain ⟨t1, e', r'⟩ := hr'.read_pos t rem n h' (by omega)
        exact ⟨s1, t1, _, _, e, e', r, r'⟩
    obtain ⟨s1, t1, d, rest, e, e', r, r'⟩ := step
    obtain ⟨s2, t2, ps, f, f'⟩ := ih s1 t1 rest r r'
    exact ⟨s2, t2, d :: ps, by simp only [readMany, e, f], by simp only [readMany, e', f']⟩

/-- **C59** resolving a chain by merging its deltas first gives a reader of the same object as applying the
deltas one by one: for every chain of deltas which fit, both ways announce the same size, and any sequence
of reads returns the same pieces, which are those of the resolved object.  (Python 2 reading; missing for
`C59_full`: in Python 3 merging raises, `C59_python3`.) -/
theorem C59_same_partial (read : σ → Int → σ × Res Bytes) (Rep : σ → Bytes → Prop)
    (hr : ObjectReads read Rep) (base : Bytes) (ds : List DeltaObj) (hne : ds ≠ [])
    (hc : ChainFits base ds) (bs : σ) (hbs : Rep bs base) (ss : List (σ × Nat))
    (hss : All2 (fun d (s : σ × Nat) => Rep s.1 d.bytes ∧ s.2 = d.bytes.length) ds.reverse ss) :
    ∃ F, ∀ fuel, F ≤ fuel → ∃ r rb,
      newMergedReader .meant fuel read (ss ++ [(bs, base.length)]) = .ok r ∧
      newDeltaReader fuel read (ss ++ [(bs, base.length)]) = .ok rb ∧
      r.size = (resolveChain base ds).length ∧ rb.size = r.size ∧
      ∀ ns : List Int, ∃ r' rb' ps,
        readMany (fun (r : DeltaReader) n => ((r.read n).1, .ok (r.read n).2)) r ns = (r', .ok ps) ∧
        readMany (fun (r : DeltaReader) n => ((r.read n).1, .ok (r.read n).2)) rb ns = (rb', .ok ps) ∧
        ps.flatten = (resolveChain base ds).take (readLen (resolveChain base ds).length ns) := by
  obtain ⟨F1, hF1⟩ := setCacheBrute_spec (hr.above 512) base ds hne hc bs hbs ss hss
  obtain ⟨F2, hF2⟩ := setCacheMerged_spec hr base ds hne hc bs hbs ss hss
  refine ⟨F1 + F2, fun fuel hf => ?_⟩
  obtain ⟨b1, e1, h1, h2⟩ := hF1 fuel (by omega)
  obtain ⟨b2, e2, h3, h4⟩ := hF2 fuel (by omega)
  have hlen : ss.length = ds.length := by rw [← all2_length hss, List.length_reverse]
  have hnew : newDeltaReader fuel read (ss ++ [(bs, base.length)]) =
        .ok ⟨b1, (resolveChain base ds).length, 0⟩ ∧
      newMergedReader .meant fuel read (ss ++ [(bs, base.length)]) =
        .ok ⟨b2, (resolveChain base ds).length, 0⟩ := by
    unfold newDeltaReader newMergedReader
    rw [List.reverse_append, List.reverse_singleton, List.singleton_append]
    rcases hrev : ss.reverse with _ | ⟨x, xs⟩
    · have : ds.length = 0 := by rw [← hlen, ← List.length_reverse, hrev]; rfl
      exact absurd (List.length_eq_zero_iff.mp this) hne
    · simp only [← hrev, List.reverse_reverse, e1, e2]; exact ⟨rfl, rfl⟩
  refine ⟨_, _, hnew.2, hnew.1, rfl, rfl, fun ns => ?_⟩
  obtain ⟨r', ps, h5, h6, _⟩ := readMany_spec (deltaReader_objectReads (resolveChain base ds)) ns
    ⟨b2, (resolveChain base ds).length, 0⟩ (resolveChain base ds) ⟨rfl, h3, h4, Nat.zero_le _, by simp⟩
  obtain ⟨s', rb', ps', h7, h8⟩ := readMany_same (deltaReader_objectReads (resolveChain base ds))
    (deltaReader_objectReads (resolveChain base ds)) ns
    ⟨b2, (resolveChain base ds).length, 0⟩ ⟨b1, (resolveChain base ds).length, 0⟩ (resolveChain base ds)
    ⟨rfl, h3, h4, Nat.zero_le _, by simp⟩ ⟨rfl, h1, h2, Nat.zero_le _, by simp⟩
  rw [h5] at h7
  cases h7
  exact ⟨r', rb', ps, h5, h8, h6⟩

/-- **C59** a single delta is not merged: there the two ways are the same code, also in Python 3 and also for
streams which do not fit or fail. -/
theorem C59_single (o : PyOps) (fuel : Nat) (read : σ → Int → σ × Res Bytes) (d base : σ × Nat) :
    newMergedReader o fuel read [d, base] = newDeltaReader fuel read [d, base] := by
  simp [newMergedReader, newDeltaReader, setCacheMerged]

/-- **C59** as for `C08`, a list with fewer than two streams is refused. -/
theorem C59_needs_delta (o : PyOps) (fuel : Nat) (read : σ → Int → σ × Res Bytes) (streams : List (σ × Nat))
    (h : streams.length < 2) : newMergedReader o fuel read streams = .error .assertionError := by
  unfold newMergedReader
  match streams, h with
  | [], _ => rfl
  | [_], _ => rfl

/-- **C59** in Python 3 every chain of at least two deltas whose topmost delta has an instruction is refused with
`TypeError`, while `_set_cache_brute_` resolves it. -/
theorem C59_python3 (read : σ → Int → σ × Res Bytes) (Rep : σ → Bytes → Prop) (hr : ObjectReads read Rep)
    (fuel : Nat) (d : DeltaObj) (ds : List DeltaObj) (h2 : ds ≠ []) (hs : Terminated d.src)
    (ht : Terminated d.tgt) (hi : d.instrs ≠ []) (bs : σ × Nat) (ss : List (σ × Nat))
    (hss : All2 (fun d (s : σ × Nat) => Rep s.1 d.bytes ∧ s.2 = d.bytes.length) (d :: ds) ss) :
    newMergedReader .python3 fuel read (ss ++ [bs]) = .error .typeError := by
  have hlen : ss.length = ds.length + 1 := by rw [← all2_length hss]; rfl
  have hd : 0 < ds.length := List.length_pos_iff.mpr h2
  have hrc := readContents_spec hr _ _ hss
  rw [List.map_cons] at hrc
  have hcd := C09_python3 d (ds.map fun d => (d.bytes, d.bytes.length)) hs ht hi
  have hm : setCacheMerged .python3 fuel read ss bs = .error .typeError := by
    simp only [setCacheMerged, if_neg (show ¬ ss.length = 1 by omega), hrc, hcd, bind, Except.bind]
  unfold newMergedReader
  rw [List.reverse_append, List.reverse_singleton, List.singleton_append]
  rcases hrev : ss.reverse with _ | ⟨x, xs⟩
  · have : ss.length = 0 := by rw [← List.length_reverse, hrev]; rfl
    omega
  · simp only [← hrev, List.reverse_reverse, hm]; rfl

/-- Full statement: in Python 3 the two ways to resolve a chain give readers which return the same. -/
def C59_full : Prop :=
  ∀ (base : Bytes) (ds : List DeltaObj), ds ≠ [] → ChainFits base ds → ∃ fuel r rb,
    newMergedReader .python3 fuel objRead (deltaStreams ds ++ [(base, base.length)]) = .ok r ∧
    newDeltaReader fuel objRead (deltaStreams ds ++ [(base, base.length)]) = .ok rb ∧
    r.size = rb.size ∧ (r.read (-1)).2 = (rb.read (-1)).2

/-- **C59** is false as stated for Python 3. -/
theorem C59_not_full : ¬ C59_full := by
  intro h
  obtain ⟨fuel, r, _, h1, _⟩ := h exBase [exD1, exD2] (by simp) exChain
  have := C59_python3 objRead _ objRead_reads fuel exD2 [exD1] (by simp) exChain.2.1.src_term
    exChain.2.1.tgt_term (by simp [exD2]) (exBase, exBase.length) (deltaStreams [exD1, exD2])
    (.cons ⟨rfl, rfl⟩ (.cons ⟨rfl, rfl⟩ .nil))
  rw [h1] at this
  cases this

-- the chain `ABC` → `XBC` → `XBCY`, merged and then read in pieces
example : (newMergedReader .meant 9 objRead [(exD2.bytes, exD2.bytes.length), (exD1.bytes, exD1.bytes.length),
    (exBase, 3)]).map (fun r => ((r.read 3).2, ((r.read 3).1.read (-1)).2)) = .ok ([88, 66, 67], [89]) := by
  decide +kernel
example : (newMergedReader .python3 9 objRead [(exD2.bytes, exD2.bytes.length), (exD1.bytes, exD1.bytes.length),
    (exBase, 3)]).map (fun r => (r.read 3).2) = .error .typeError := by decide +kernel
-- a chain resolving to nothing
example : (newMergedReader .meant 9 objRead [([3, 0], 2), (exD1.bytes, exD1.bytes.length),
    (exBase, 3)]).map (fun r => (r.size, (r.read 3).2)) = .ok (0, []) := by decide +kernel

end GitDB.Props
