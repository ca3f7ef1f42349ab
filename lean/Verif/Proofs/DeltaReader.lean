import Verif.Model.DeltaReader
import Verif.Spec.DeltaChain
import Verif.Spec.Stream
import Verif.Proofs.DeltaReject
import Verif.Proofs.Copy
import Verif.Proofs.Stream
import Verif.Proofs.Varint
import Verif.Proofs.Lists
/-!
# Lemmas about `DeltaApplyReader`
-/
set_option autoImplicit false

namespace GitDB
open Spec

variable {σ ω : Type}

/-! ### buffers as writers -/

/-- A buffer, allocated with `n` bytes, to which `out` has been written from position 0. -/
def BufRep (fx : Bool) (n : Nat) (b : Buf) (out : Bytes) : Prop :=
  b.fixed = fx ∧ b.pos = out.length ∧ b.data.take out.length = out ∧
    b.data.length = max n out.length

theorem buf_stores (fx : Bool) (n cap : Nat) (h : fx = true → cap ≤ n) :
    Stores Buf.write (BufRep fx n) cap := by
  rintro b out d ⟨h1, h2, h3, h4⟩ hcap
  rw [List.length_append] at hcap
  have hcond : ¬ (b.fixed = true ∧ b.data.length < b.pos + d.length) := by
    rintro ⟨hf, hl⟩
    rw [h1] at hf
    have := h hf
    omega
  refine ⟨_, (), by rw [Buf.write, if_neg hcond], ?_⟩
  have hpos : b.pos ≤ b.data.length := by omega
  have ht : (b.data.take b.pos).length = out.length := by rw [List.length_take]; omega
  refine ⟨h1, by simp [h2], ?_, ?_⟩
  · rw [h2]
    simp only [h3]
    rw [List.take_left]
  · simp only [List.length_append, List.length_take, List.length_drop, h2]
    omega

theorem bufRep_fresh (m : Nat) (b : Buf) (h : allocateMemory (m : Int) = .ok b) :
    BufRep (decide (m ≠ 0)) m b [] := by
  unfold allocateMemory at h
  by_cases h0 : m = 0
  · subst h0
    simp only [Int.cast_ofNat_Int, if_true] at h
    cases h
    exact ⟨rfl, rfl, rfl, rfl⟩
  · rw [if_neg (by omega), if_neg (by omega)] at h
    cases h
    refine ⟨by simp [h0], rfl, rfl, by simp⟩

theorem allocateMemory_ok (m : Nat) : ∃ b, allocateMemory (m : Int) = .ok b := by
  unfold allocateMemory
  by_cases h0 : m = 0
  · subst h0; exact ⟨_, rfl⟩
  · rw [if_neg (by omega), if_neg (by omega)]; exact ⟨_, rfl⟩

/-! ### applying instructions to a storing writer -/

theorem applyLoop_instrs_stores (src : Bytes) (srcSize : Nat) {write : ω → Bytes → ω × Res Unit}
    {WRep : ω → Bytes → Prop} {cap : Nat} (hw : Stores write WRep cap) (is : List Instr) :
    ∀ (pre rest : Bytes) (w : ω) (out : Bytes),
    (∀ x ∈ is, x.Valid srcSize) → WRep w out → (out ++ runAll src is).length ≤ cap →
    let db := pre ++ (encodeAll is ++ rest)
    ∃ w', applyLoop src srcSize db db.length write pre.length w =
      applyLoop src srcSize db db.length write (pre ++ encodeAll is).length w' ∧
      WRep w' (out ++ runAll src is) := by
  induction is with
  | nil => intro pre rest w out _ h _; exact ⟨w, by simp [encodeAll], by simpa [runAll] using h⟩
  | cons x xs ih =>
    intro pre rest w out hv ho hcap
    have hx := hv x (by simp)
    have e : pre ++ (encodeAll (x :: xs) ++ rest) = pre ++ (x.encode ++ (encodeAll xs ++ rest)) := by
      simp [encodeAll]
    have e4 : out ++ x.run src ++ runAll src xs = out ++ runAll src (x :: xs) := by simp [runAll]
    obtain ⟨w1, r, hw1, ho1⟩ := hw w out (x.run src) ho (by
      rw [← e4] at hcap
      rw [List.length_append (as := out ++ x.run src)] at hcap
      omega)
    have ih' := ih (pre ++ x.encode) rest w1 (out ++ x.run src) (fun y hy => hv y (by simp [hy])) ho1
      (by rw [e4]; exact hcap)
    have e2 : pre ++ x.encode ++ (encodeAll xs ++ rest) =
        pre ++ (x.encode ++ (encodeAll xs ++ rest)) := by simp
    have e3 : (pre ++ x.encode ++ encodeAll xs) = pre ++ encodeAll (x :: xs) := by simp [encodeAll]
    simp only [e2, e3, e4] at ih'
    obtain ⟨w', h1, h2⟩ := ih'
    refine ⟨w', ?_, h2⟩
    rw [e, ← h1]
    cases x with
    | copy o0 o1 o2 o3 s0 s1 s2 =>
      rw [applyLoop_copy]
      simp only [Instr.Valid] at hx
      rw [if_neg (by omega)]
      simp only [hw1]
    | insert d =>
      simp only [Instr.Valid] at hx
      have hd : (UInt8.ofNat d.length).toNat = d.length := toNat_ofNat (by omega)
      have := applyLoop_insert src srcSize write (UInt8.ofNat d.length) pre
        (d ++ (encodeAll xs ++ rest)) w (by omega) (by omega)
      simp only [Instr.encode, List.cons_append]
      rw [this]
      have hw1' : write w d = (w1, .ok ()) := hw1
      simp only [hd, List.take_left, hw1']
      congr 1
      simp; omega

theorem applyDeltaData_stores (src : Bytes) (srcSize : Nat) {write : ω → Bytes → ω × Res Unit}
    {WRep : ω → Bytes → Prop} {cap : Nat} (hw : Stores write WRep cap) (is : List Instr)
    (w : ω) (out : Bytes) (hv : ∀ x ∈ is, x.Valid srcSize) (ho : WRep w out)
    (hcap : (out ++ runAll src is).length ≤ cap) :
    ∃ w', applyDeltaData src srcSize (encodeAll is) (encodeAll is).length write w = (w', .ok ()) ∧
      WRep w' (out ++ runAll src is) := by
  obtain ⟨w', h1, h2⟩ := applyLoop_instrs_stores src srcSize hw is [] [] w out hv ho hcap
  refine ⟨w', ?_, h2⟩
  simp only [List.nil_append, List.append_nil, List.length_nil] at h1
  rw [applyDeltaData, h1, applyLoop_end]

/-! ### the heads of the delta streams -/

/-- What `readDeltaHead` has to find out about a delta object. -/
structure InfoOf (Rep : σ → Bytes → Prop) (d : DeltaObj) (i : DeltaInfo σ) : Prop where
  offset : i.offset = d.src.length + d.tgt.length
  srcSize : i.srcSize = leValue d.src
  targetSize : i.targetSize = leValue d.tgt
  size : i.size = d.bytes.length
  rest : ∃ rem, Rep i.strm rem ∧ i.dbuf ++ rem = encodeAll d.instrs

theorem readDeltaHead_spec {read : σ → Int → σ × Res Bytes} {Rep : σ → Bytes → Prop}
    (hr : ObjectReadsFrom 512 read Rep) (d : DeltaObj) (hs : Terminated d.src) (ht : Terminated d.tgt)
    (hl : d.src.length + d.tgt.length ≤ 512) (s : σ) (h : Rep s d.bytes) :
    ∃ i, readDeltaHead read s d.bytes.length = .ok i ∧ InfoOf Rep d i := by
  obtain ⟨s', e, r⟩ := hr.read_pos s d.bytes 512 h (by omega) (.inl (by omega))
  have e512 : (512 : Int).toNat = 512 := rfl
  rw [e512] at e r
  have hbuf : d.bytes.take 512 =
      d.src ++ (d.tgt ++ (encodeAll d.instrs).take (512 - d.src.length - d.tgt.length)) := by
    rw [DeltaObj.bytes, List.take_append, List.take_of_length_le (by omega), List.take_append,
      List.take_of_length_le (by omega)]
  have hdrop : d.bytes.drop 512 = (encodeAll d.instrs).drop (512 - d.src.length - d.tgt.length) := by
    rw [DeltaObj.bytes, List.drop_append, List.drop_eq_nil_of_le (by omega), List.drop_append,
      List.drop_eq_nil_of_le (by omega)]
    simp
  have m1 := msbSize_at [] d.src (d.tgt ++
    (encodeAll d.instrs).take (512 - d.src.length - d.tgt.length)) hs
  have m2 := msbSize_at d.src d.tgt
    ((encodeAll d.instrs).take (512 - d.src.length - d.tgt.length)) ht
  simp only [List.nil_append, List.length_nil, Nat.zero_add] at m1
  refine ⟨⟨_, _, _, _, _, s'⟩, by
    simp only [readDeltaHead, e, hbuf, m1, m2, bind, Except.bind, pure, Except.pure]; rfl, ?_⟩
  refine ⟨rfl, rfl, rfl, rfl, _, r, ?_⟩
  simp only
  rw [hdrop, ← List.append_assoc, List.drop_left' (by simp), List.take_append_drop]

theorem readDeltaHeads_spec {read : σ → Int → σ × Res Bytes} {Rep : σ → Bytes → Prop}
    (hr : ObjectReadsFrom 512 read Rep) : ∀ (ds : List DeltaObj) (ss : List (σ × Nat)),
    (∀ d ∈ ds, Terminated d.src ∧ Terminated d.tgt ∧ d.src.length + d.tgt.length ≤ 512) →
    All2 (fun d (s : σ × Nat) => Rep s.1 d.bytes ∧ s.2 = d.bytes.length) ds ss →
    ∃ is, readDeltaHeads read ss = .ok is ∧ All2 (InfoOf Rep) ds is := by
  intro ds
  induction ds with
  | nil => intro ss _ h; cases h; exact ⟨[], rfl, .nil⟩
  | cons d ds ih =>
    intro ss hd h
    cases h with
    | cons h1 h2 =>
      rename_i s ss
      obtain ⟨sst, sn⟩ := s
      obtain ⟨hrep, rfl⟩ := h1
      obtain ⟨t1, t2, t3⟩ := hd d (by simp)
      obtain ⟨i, e1, p1⟩ := readDeltaHead_spec hr d t1 t2 t3 sst hrep
      obtain ⟨is, e2, p2⟩ := ih ss (fun x hx => hd x (by simp [hx])) h2
      exact ⟨i :: is, by simp only [readDeltaHeads, e1, e2, bind, Except.bind, pure, Except.pure],
        .cons p1 p2⟩

/-! ### one delta -/

/-- `n` bytes fit into the buffer. -/
def Room (b : Buf) (n : Nat) : Prop := b.fixed = true → n ≤ b.data.length

theorem applyOne_spec {read : σ → Int → σ × Res Bytes} {Rep : σ → Bytes → Prop}
    (hr : ObjectReadsFrom 512 read Rep) (fuel : Nat) (d : DeltaObj) (i : DeltaInfo σ) (hi : InfoOf Rep d i)
    (base : Bytes) (hd : d.Fits base) (bbuf tbuf : Buf) (hb : bbuf.data.take base.length = base)
    (ht : tbuf.pos = 0) (hroom : Room tbuf (leValue d.tgt)) (hf : d.bytes.length ≤ fuel) :
    ∃ tbuf', applyOne fuel read bbuf tbuf i = .ok (tbuf', bbuf.seek0) ∧
      tbuf'.data.take (d.run base).length = d.run base ∧ tbuf'.pos = 0 ∧ tbuf'.fixed = tbuf.fixed ∧
      (tbuf.fixed = true → tbuf'.data.length = tbuf.data.length) := by
  obtain ⟨rem, hrem, hsplit⟩ := hi.rest
  have hn : (i.size : Int) - i.offset = ((encodeAll d.instrs).length : Int) := by
    rw [hi.size, hi.offset, DeltaObj.bytes]
    simp only [List.length_append]; omega
  obtain ⟨b0, hb0⟩ := allocateMemory_ok (encodeAll d.instrs).length
  have r0 := bufRep_fresh _ b0 hb0
  have hlen : i.dbuf.length + rem.length = (encodeAll d.instrs).length := by
    rw [← hsplit, List.length_append]
  have hst := buf_stores (decide ((encodeAll d.instrs).length ≠ 0)) (encodeAll d.instrs).length
    (encodeAll d.instrs).length (fun _ => Nat.le_refl _)
  obtain ⟨b1, u1, w1, r1⟩ := hst b0 [] i.dbuf r0 (by simp; omega)
  have hsrc : 1 ≤ d.src.length := by
    obtain ⟨pre, last, e, _⟩ := hd.src_term
    rw [e]; simp
  have hsz : d.src.length + (d.tgt.length + (encodeAll d.instrs).length) = d.bytes.length := by
    simp [DeltaObj.bytes]
  obtain ⟨s2, b2, w2, r2, q2⟩ := streamCopy_from hr.toBoundedReadsFrom hst d.bytes.length
    (256 * PAGESIZE : Nat) (by simp [PAGESIZE]) (by simp [PAGESIZE]) fuel i.strm b1 rem ([] ++ i.dbuf) (by omega) hrem r1 (by omega)
    (by omega) (by simp; omega)
  have hrem' : rem.take d.bytes.length = rem := List.take_of_length_le (by omega)
  rw [hrem', List.nil_append, hsplit] at q2
  obtain ⟨_, _, q3, q4⟩ := q2
  have hdata : b2.data = encodeAll d.instrs := by
    rw [Nat.max_self] at q4
    rw [List.take_of_length_le (by omega)] at q3
    exact q3
  -- apply the instructions
  have hbl : base.length ≤ bbuf.data.length := by
    have := congrArg List.length hb
    rw [List.length_take] at this; omega
  have hcap : tbuf.fixed = true → (d.run base).length ≤ tbuf.data.length := by
    intro h; have := hroom h; rw [hd.tgt_size] at this; exact this
  have hst2 := buf_stores tbuf.fixed tbuf.data.length (d.run base).length hcap
  obtain ⟨b3, w3, r3⟩ := applyDeltaData_stores base base.length hst2 d.instrs tbuf [] hd.valid
    ⟨rfl, ht, rfl, by simp⟩ (by simp [DeltaObj.run])
  obtain ⟨f1, f2, f3, f4⟩ := r3
  refine ⟨b3.seek0, ?_, ?_, rfl, f1, ?_⟩
  · have w2' : streamCopy fuel read Buf.write (i.size : Int) (256 * PAGESIZE : Nat) i.strm b1 =
        (s2, b2, .ok ((min d.bytes.length rem.length : Nat) : Int)) := by
      rw [hi.size]; exact w2
    have w3' : applyDeltaData bbuf.data i.srcSize b2.data b2.data.length Buf.write tbuf =
        (b3, .ok ()) := by
      rw [hdata, hi.srcSize, hd.src_size, applyDeltaData, applyLoop_src _ _ _ _ _ _ 0 tbuf rfl, hb]
      exact w3
    simp only [applyOne, hn, hb0, w1, w2', w3', bind, Except.bind, pure, Except.pure]
  · simpa [DeltaObj.run, Buf.seek0] using f3
  · intro h
    have := hcap h
    simp only [List.nil_append] at f4
    simp only [DeltaObj.run] at this
    simp only [Buf.seek0]
    omega

theorem applyAll_spec {read : σ → Int → σ × Res Bytes} {Rep : σ → Bytes → Prop}
    (hr : ObjectReadsFrom 512 read Rep) (fuel : Nat) : ∀ (ds : List DeltaObj) (is : List (DeltaInfo σ)),
    All2 (InfoOf Rep) ds is → ∀ (base : Bytes), ChainFits base ds → ∀ (bbuf tbuf : Buf),
    bbuf.data.take base.length = base → bbuf.pos = 0 → tbuf.pos = 0 →
    (∀ d ∈ ds, Room tbuf (leValue d.tgt)) → (∀ d ∈ ds.tail, Room bbuf (leValue d.tgt)) →
    (∀ d ∈ ds, d.bytes.length ≤ fuel) →
    ∃ b t, applyAll fuel read is bbuf tbuf = .ok (b, t) ∧
      b.data.take (resolveChain base ds).length = resolveChain base ds ∧ b.pos = 0 := by
  intro ds
  induction ds with
  | nil => intro is h base _ bbuf tbuf hb hb0 _ _ _ _; cases h; exact ⟨bbuf, tbuf, rfl, hb, hb0⟩
  | cons d ds ih =>
    intro is h base hc bbuf tbuf hb hb0 ht hroom1 hroom2 hf
    cases h with
    | cons h1 h2 =>
      rename_i i is
      obtain ⟨hfit, hrest⟩ := hc
      obtain ⟨t', e1, p1, p2, p3, p4⟩ := applyOne_spec hr fuel d i h1 base hfit bbuf tbuf hb ht
        (hroom1 d (by simp)) (hf d (by simp))
      obtain ⟨b, t, e2, q1, q2⟩ := ih is h2 (d.run base) hrest t' bbuf.seek0 p1 p2 rfl
        (fun x hx => hroom2 x hx)
        (fun x hx hfx => by
          rw [p3] at hfx
          rw [p4 hfx]
          exact hroom1 x (List.mem_cons_of_mem _ (List.mem_of_mem_tail hx)) hfx)
        (fun x hx => hf x (by simp [hx]))
      exact ⟨b, t, by simp only [applyAll, e1, e2, bind, Except.bind], q1, q2⟩

/-! ### the whole chain -/

theorem foldl_max_ge (l : List (DeltaInfo σ)) : ∀ (m : Nat),
    m ≤ l.foldl (fun m d => max m d.targetSize) m ∧
    ∀ x ∈ l, x.targetSize ≤ l.foldl (fun m d => max m d.targetSize) m := by
  induction l with
  | nil => intro m; simp
  | cons a as ih =>
    intro m
    have := ih (max m a.targetSize)
    simp only [List.foldl_cons]
    refine ⟨by omega, ?_⟩
    intro x hx
    simp at hx
    rcases hx with rfl | hx
    · omega
    · exact this.2 x hx

theorem chainFits_mem : ∀ (ds : List DeltaObj) (base : Bytes), ChainFits base ds → ∀ d ∈ ds,
    ∃ b, d.Fits b := by
  intro ds
  induction ds with
  | nil => intro _ _ d hd; simp at hd
  | cons x xs ih =>
    intro base h d hd
    simp at hd
    rcases hd with rfl | hd
    · exact ⟨base, h.1⟩
    · exact ih _ h.2 d hd

theorem chainFits_last (ds : List DeltaObj) (d : DeltaObj) : ∀ (base : Bytes),
    ChainFits base (ds ++ [d]) → leValue d.tgt = (resolveChain base (ds ++ [d])).length := by
  induction ds with
  | nil => intro base h; exact h.1.tgt_size
  | cons x xs ih => intro base h; exact ih (x.run base) h.2

/-- `ds` in order of application; the streams are given topmost first. -/
theorem setCacheBrute_spec {read : σ → Int → σ × Res Bytes} {Rep : σ → Bytes → Prop}
    (hr : ObjectReadsFrom 512 read Rep) (base : Bytes) (ds : List DeltaObj) (hne : ds ≠ [])
    (hc : ChainFits base ds) (bs : σ) (hbs : Rep bs base) (ss : List (σ × Nat))
    (hss : All2 (fun d (s : σ × Nat) => Rep s.1 d.bytes ∧ s.2 = d.bytes.length) ds.reverse ss) :
    ∃ F, ∀ fuel, F ≤ fuel → ∃ b,
      setCacheBrute fuel read ss (bs, base.length) = .ok (b, (resolveChain base ds).length) ∧
      b.data.take (resolveChain base ds).length = resolveChain base ds ∧ b.pos = 0 := by
  obtain ⟨infos, e1, hinf⟩ := readDeltaHeads_spec hr ds.reverse ss
    (fun d hd => by
      obtain ⟨b, hb⟩ := chainFits_mem ds base hc d (by simpa using hd)
      exact ⟨hb.src_term, hb.tgt_term, hb.short⟩) hss
  have hinf' : All2 (InfoOf Rep) ds infos.reverse := by
    have := all2_reverse hinf; rwa [List.reverse_reverse] at this
  -- sizes
  generalize hM : infos.foldl (fun m d => max m d.targetSize) 0 = M
  have hMge : ∀ d ∈ ds, leValue d.tgt ≤ M := by
    intro d hd
    obtain ⟨i, hi, hdi⟩ := all2_mem_left hinf' d hd
    have := (foldl_max_ge infos 0).2 i (by simpa using hi)
    rw [hdi.targetSize, hM] at this
    exact this
  have hsl : ss.length = ds.length := by
    have := all2_length hss; simpa using this.symm
  -- buffer sizes
  let BS := if ss.length > 1 then max base.length M else base.length
  let TS := if ss.length > 1 then max base.length M else M
  have hBS : base.length ≤ BS := by simp only [BS]; split <;> omega
  have hTS : M ≤ TS := by simp only [TS]; split <;> omega
  have hBSM : ss.length > 1 → M ≤ BS := by intro h; simp only [BS]; rw [if_pos h]; omega
  refine ⟨BS + 1 + (ds.map fun d => d.bytes.length).sum, fun fuel hfuel => ?_⟩
  have hdf : ∀ d ∈ ds, d.bytes.length ≤ fuel := by
    intro d hd
    have : d.bytes.length ≤ (ds.map fun d => d.bytes.length).sum :=
      le_sum_of_mem (List.mem_map.mpr ⟨d, hd, rfl⟩)
    omega
  obtain ⟨b0, hb0⟩ := allocateMemory_ok BS
  have r0 := bufRep_fresh _ b0 hb0
  have hst := buf_stores (decide (BS ≠ 0)) BS BS (fun _ => Nat.le_refl _)
  have copy : ∃ s' b1, streamCopy fuel read Buf.write (BS : Int) (256 * PAGESIZE : Nat) bs b0 =
      (s', b1, .ok ((min BS base.length : Nat) : Int)) ∧ BufRep (decide (BS ≠ 0)) BS b1 base := by
    by_cases h0 : BS = 0
    · have hbase : base = [] := List.length_eq_zero_iff.mp (by omega)
      subst hbase
      obtain ⟨s', b1, w, _, q⟩ := streamCopy_zero_from hr hst (256 * PAGESIZE : Nat)
        (by simp [PAGESIZE]) fuel bs b0 [] hbs r0 (by omega) (by simp)
      exact ⟨s', b1, by simpa [h0] using w, q⟩
    · obtain ⟨s', b1, w, _, q⟩ := streamCopy_from hr.toBoundedReadsFrom hst BS (256 * PAGESIZE : Nat)
        (by simp [PAGESIZE]) (by simp [PAGESIZE]) fuel bs b0 base [] hBS hbs r0 (by omega) (by omega) (by simp; omega)
      rw [List.take_of_length_le hBS, List.nil_append] at q
      exact ⟨s', b1, w, q⟩
  obtain ⟨s1, b1, hcopy, f1, f2, f3, f4⟩ := copy
  obtain ⟨t0, ht0⟩ := allocateMemory_ok TS
  obtain ⟨g1, g2, g3, g4⟩ := bufRep_fresh _ t0 ht0
  -- positions: bbuf is at its end after the copy; the model of `applyAll` needs only its contents
  have key := applyAll_spec hr fuel ds infos.reverse hinf' base hc
  cases hds : ds with
  | nil => exact absurd hds hne
  | cons d0 dtl =>
    rw [hds] at hinf' hc
    cases hrev : infos.reverse with
    | nil => rw [hrev] at hinf'; cases hinf'
    | cons i0 itl =>
      rw [hrev] at hinf'
      cases hinf' with
      | cons hi0 hitl =>
        obtain ⟨hfit, hrest⟩ := hc
        obtain ⟨t', e3, p1, p2, p3, p4⟩ := applyOne_spec hr fuel d0 i0 hi0 base hfit b1 t0 f3 g2
          (fun _ => by
            have := hMge d0 (by simp [hds])
            rw [g4]; simp; omega) (hdf d0 (by simp [hds]))
        obtain ⟨b, t, e4, q1, q2⟩ := applyAll_spec hr fuel dtl itl hitl (d0.run base) hrest t' b1.seek0
          p1 p2 rfl
          (fun x hx _ => by
            have := hMge x (by simp [hds, hx])
            have hgt : ss.length > 1 := by
              rw [hsl, hds]
              have := List.length_pos_of_mem hx
              simp; omega
            have := hBSM hgt
            simp only [Buf.seek0]; omega)
          (fun x hx hfx => by
            have := hMge x (by simp [hds, List.mem_of_mem_tail hx])
            rw [p3] at hfx
            rw [p4 hfx, g4]; simp; omega)
          (fun x hx => hdf x (by simp [hds, hx]))
        have eall : applyAll fuel read infos.reverse b1 t0 = .ok (b, t) := by
          rw [hrev]
          simp only [applyAll, e3, e4, bind, Except.bind]
        refine ⟨b, ?_, q1, q2⟩
        have hlast : ∃ top rest, infos = top :: rest ∧
            top.targetSize = (resolveChain base (d0 :: dtl)).length := by
          cases hinfos : infos with
          | nil => rw [hinfos] at hrev; simp at hrev
          | cons top rest =>
            refine ⟨top, rest, rfl, ?_⟩
            rw [hinfos] at hinf
            cases hdr : ds.reverse with
            | nil => rw [hdr] at hinf; cases hinf
            | cons dtop dr =>
              rw [hdr] at hinf
              cases hinf with
              | cons hx _ =>
                rw [hx.targetSize]
                have : ds = dr.reverse ++ [dtop] := by
                  rw [← List.reverse_reverse ds, hdr, List.reverse_cons]
                have hl := chainFits_last dr.reverse dtop base (by
                  rw [← this, hds]; exact ⟨hfit, hrest⟩)
                rw [hl, ← this, hds]
        obtain ⟨top, rest, hinfos, htop⟩ := hlast
        have hB : (if ss.length > 1 then
            (max base.length M, max base.length M) else (base.length, M)) = (BS, TS) := by
          simp only [BS, TS]; split <;> rfl
        unfold setCacheBrute
        simp only [e1, hM, hB, hb0, hcopy, ht0, eall, bind, Except.bind, pure, Except.pure]
        rw [hinfos]
        simp only [htop]

/-! ### reading the result -/

/-- The reader delivers `content` and has delivered `k` bytes of it. -/
def DeltaReader.Delivers (content : Bytes) (r : DeltaReader) (rem : Bytes) : Prop :=
  r.size = content.length ∧ r.target.data.take content.length = content ∧ r.target.pos = r.br ∧
    r.br ≤ content.length ∧ rem = content.drop r.br

theorem deltaReader_objectReads (content : Bytes) :
    ObjectReads (fun (r : DeltaReader) n => ((r.read n).1, .ok (r.read n).2))
      (DeltaReader.Delivers content) := by
  have step : ∀ (r : DeltaReader) (rem : Bytes) (n : Int), DeltaReader.Delivers content r rem →
      (r.read n).2 = rem.take (if n < 1 then rem.length else n.toNat) ∧
      DeltaReader.Delivers content (r.read n).1 (rem.drop (if n < 1 then rem.length else n.toNat)) := by
    rintro r rem n ⟨h1, h2, h3, h4, h5⟩
    have hrl : rem.length = content.length - r.br := by rw [h5, List.length_drop]
    have hcl : content.length ≤ r.target.data.length := by
      have := congrArg List.length h2; rw [List.length_take] at this; omega
    have hread : ∀ m, m ≤ rem.length → (r.target.data.drop r.target.pos).take m = rem.take m := by
      intro m hm
      rw [h3, h5]
      conv => rhs; rw [← h2]
      rw [List.drop_take, List.take_take, Nat.min_eq_left (by omega)]
    have hcount : ∃ m : Nat, (if n < 1 ∨ n > (r.size : Int) - r.br then (r.size : Int) - r.br else n).toNat = m
        ∧ m ≤ rem.length ∧ m = min rem.length (if n < 1 then rem.length else n.toNat) := by
      refine ⟨_, rfl, ?_, ?_⟩
      · split <;> omega
      · split <;> split <;> omega
    obtain ⟨m, e1, e2, e3⟩ := hcount
    have hl : (rem.take m).length = m := by rw [List.length_take]; omega
    have ht : rem.take m = rem.take (if n < 1 then rem.length else n.toNat) := by
      generalize (if n < 1 then rem.length else n.toNat) = q at *
      by_cases hh : rem.length ≤ q
      · rw [List.take_of_length_le hh, List.take_of_length_le (by omega)]
      · have : m = q := by omega
        rw [this]
    have hd : rem.drop m = rem.drop (if n < 1 then rem.length else n.toNat) := by
      generalize (if n < 1 then rem.length else n.toNat) = q at *
      by_cases hh : rem.length ≤ q
      · rw [List.drop_eq_nil_of_le hh, List.drop_eq_nil_of_le (by omega)]
      · have : m = q := by omega
        rw [this]
    constructor
    · rw [← ht, ← hread m e2]
      simp only [DeltaReader.read, Buf.read, e1]
    · rw [← hd]
      refine ⟨?_, ?_, ?_, ?_, ?_⟩
      all_goals simp only [DeltaReader.read, Buf.read, e1, hread m e2, hl]
      · exact h1
      · exact h2
      · rw [h3]
      · omega
      · rw [h5, List.drop_drop]
  constructor
  · constructor
    intro r rem n h hn
    have := step r rem n h
    rw [if_neg (by omega)] at this
    exact ⟨_, by rw [this.1], this.2⟩
  · intro r rem n h hn
    have := step r rem n h
    rw [if_pos (by omega)] at this
    exact ⟨(r.read n).1, by rw [this.1]; simp, by simpa using this.2⟩

end GitDB
