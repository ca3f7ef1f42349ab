import Verif.Spec.RawDelta
import Verif.Proofs.DeltaReader
/-!
# Lemmas about resolving arbitrary deltas
-/
set_option autoImplicit false

namespace GitDB
open Spec

variable {σ : Type}

/-! ### memory -/

/-- Memory that held `orig` and over whose beginning `out` has been written. -/
def OverRep (fx : Bool) (orig : Bytes) (b : Buf) (out : Bytes) : Prop :=
  b = ⟨writtenOver out orig, out.length, fx⟩

theorem over_write (fx : Bool) (orig out d : Bytes) (h : fx = true → out.length ≤ orig.length) :
    Buf.write ⟨writtenOver out orig, out.length, fx⟩ d =
      if fx = true ∧ orig.length < out.length + d.length then
        (⟨writtenOver out orig, out.length, fx⟩, .error .valueError)
      else (⟨writtenOver (out ++ d) orig, (out ++ d).length, fx⟩, .ok ()) := by
  have hl : (writtenOver out orig).length = out.length + (orig.length - out.length) := by
    simp [writtenOver]
  unfold Buf.write
  by_cases hc : fx = true ∧ orig.length < out.length + d.length
  · have := h hc.1
    rw [if_pos hc, if_pos ⟨hc.1, by simp only; omega⟩]
  · rw [if_neg hc, if_neg]
    · have h1 : (writtenOver out orig).take out.length = out := by
        unfold writtenOver; exact List.take_left
      have h2 : (writtenOver out orig).drop (out.length + d.length) =
          orig.drop (out.length + d.length) := by
        unfold writtenOver
        rw [List.drop_append, List.drop_eq_nil_of_le (by omega), List.drop_drop, List.nil_append]
        congr 1; omega
      simp only [h1, h2]
      simp only [writtenOver, List.length_append]
    · rintro ⟨h1, h2⟩
      have := h h1
      exact hc ⟨h1, by simp only at h2; omega⟩

theorem over_stores (fx : Bool) (orig : Bytes) (cap : Nat) (h : fx = true → cap ≤ orig.length) :
    Stores Buf.write (OverRep fx orig) cap := by
  rintro b out d rfl hcap
  rw [List.length_append] at hcap
  refine ⟨_, (), ?_, rfl⟩
  rw [over_write fx orig out d (fun hf => by have := h hf; omega), if_neg]
  rintro ⟨h1, h2⟩
  have := h h1
  omega

theorem over_fresh (m : Nat) : ∃ b, allocateMemory (m : Int) = .ok b ∧
    OverRep (decide (m ≠ 0)) (blank m) b [] := by
  unfold allocateMemory
  by_cases h0 : m = 0
  · subst h0
    exact ⟨_, rfl, rfl⟩
  · rw [if_neg (by omega), if_neg (by omega)]
    refine ⟨_, rfl, ?_⟩
    simp [OverRep, writtenOver, blank, h0]

/-! ### instructions on such memory -/

theorem applyLoop_instrs_over (src : Bytes) (srcSize : Nat) (fx : Bool) (orig : Bytes)
    (is : List Instr) : ∀ (pre rest out : Bytes), (∀ x ∈ is, x.Valid srcSize) →
    (fx = true → out.length ≤ orig.length) →
    let db := pre ++ (encodeAll is ++ rest)
    if fx = true ∧ orig.length < (out ++ runAll src is).length then
      ∃ w, applyLoop src srcSize db db.length Buf.write pre.length
        ⟨writtenOver out orig, out.length, fx⟩ = (w, .error .valueError)
    else applyLoop src srcSize db db.length Buf.write pre.length
        ⟨writtenOver out orig, out.length, fx⟩ =
      applyLoop src srcSize db db.length Buf.write (pre ++ encodeAll is).length
        ⟨writtenOver (out ++ runAll src is) orig, (out ++ runAll src is).length, fx⟩ := by
  induction is with
  | nil =>
    intro pre rest out _ h db
    rw [if_neg]
    · simp [encodeAll, runAll]
    · rintro ⟨h1, h2⟩
      have := h h1
      simp [runAll] at h2
      omega
  | cons x xs ih =>
    intro pre rest out hv hfit db
    have hx := hv x (by simp)
    have e : db = pre ++ (x.encode ++ (encodeAll xs ++ rest)) := by
      simp [db, encodeAll]
    have e4 : out ++ runAll src (x :: xs) = out ++ x.run src ++ runAll src xs := by simp [runAll]
    have e2 : pre ++ x.encode ++ (encodeAll xs ++ rest) = db := by simp [e]
    have e3 : (pre ++ x.encode ++ encodeAll xs) = pre ++ encodeAll (x :: xs) := by simp [encodeAll]
    have hstep : applyLoop src srcSize db db.length Buf.write pre.length
          ⟨writtenOver out orig, out.length, fx⟩ =
        match Buf.write ⟨writtenOver out orig, out.length, fx⟩ (x.run src) with
        | (w, .error e) => (w, .error e)
        | (w, .ok ()) => applyLoop src srcSize db db.length Buf.write (pre ++ x.encode).length w := by
      rw [e]
      cases x with
      | copy o0 o1 o2 o3 s0 s1 s2 =>
        rw [applyLoop_copy]
        simp only [Instr.Valid] at hx
        rw [if_neg (by omega)]
        rcases Buf.write _ _ with ⟨w, _ | ⟨⟩⟩ <;> rfl
      | insert d =>
        simp only [Instr.Valid] at hx
        have hd : (UInt8.ofNat d.length).toNat = d.length := toNat_ofNat (by omega)
        have := applyLoop_insert src srcSize Buf.write (UInt8.ofNat d.length) pre
          (d ++ (encodeAll xs ++ rest)) ⟨writtenOver out orig, out.length, fx⟩ (by omega) (by omega)
        simp only [Instr.encode, List.cons_append]
        rw [this]
        simp only [hd, List.take_left, Instr.run, List.length_append, List.length_cons]
        rw [show pre.length + 1 + d.length = pre.length + (d.length + 1) by omega]
        rcases Buf.write _ _ with ⟨w, _ | ⟨⟩⟩ <;> rfl
    rw [hstep, over_write fx orig out _ hfit, e4]
    by_cases hc : fx = true ∧ orig.length < out.length + (x.run src).length
    · rw [if_pos hc, if_pos ⟨hc.1, by rw [List.length_append, List.length_append]; omega⟩]
      exact ⟨_, rfl⟩
    · rw [if_neg hc]
      have ih' := ih (pre ++ x.encode) rest (out ++ x.run src) (fun y hy => hv y (by simp [hy]))
        (fun hf => by
          rw [List.length_append]
          exact Nat.le_of_not_lt fun hh => hc ⟨hf, hh⟩)
      simp only [e2, e3] at ih'
      exact ih'

/-- The exceptions resolving a delta can end with. -/
def DeltaExc (e : Err) : Prop := e = .valueError ∨ e = .indexError ∨ e = .assertionError

/-- Applying any delta to memory: success exactly if it `Applies` and fits. -/
theorem applyDeltaData_over (src : Bytes) (n : Nat) (body : Bytes) (fx : Bool) (orig : Bytes) :
    (∃ out, Applies n src body out ∧ (fx = false ∨ out.length ≤ orig.length) ∧
      applyDeltaData src n body body.length Buf.write ⟨orig, 0, fx⟩ =
        (⟨writtenOver out orig, out.length, fx⟩, .ok ())) ∨
    (∃ w e, DeltaExc e ∧
      applyDeltaData src n body body.length Buf.write ⟨orig, 0, fx⟩ = (w, .error e)) := by
  obtain ⟨is, rest, hv, rfl, hs⟩ := parse_delta n body
  have key := applyLoop_instrs_over src n fx orig is [] rest [] hv (by simp)
  have e0 : writtenOver [] orig = orig := by simp [writtenOver]
  simp only [e0, List.nil_append, List.length_nil] at key
  unfold applyDeltaData
  by_cases hc : fx = true ∧ orig.length < (runAll src is).length
  · rw [if_pos hc] at key
    obtain ⟨w, hw⟩ := key
    exact .inr ⟨w, _, .inl rfl, hw⟩
  · rw [if_neg hc] at key
    have hfit : fx = false ∨ (runAll src is).length ≤ orig.length := by
      cases fx with
      | false => exact .inl rfl
      | true => exact .inr (Nat.le_of_not_lt fun h => hc ⟨rfl, h⟩)
    cases hs with
    | nil =>
      refine .inl ⟨runAll src is, ⟨is, [], hv, by simp, rfl, .inl rfl⟩, hfit, ?_⟩
      rw [key]
      simp only [List.append_nil]
      exact applyLoop_end _ _ _ _ _
    | zero t =>
      exact .inr ⟨_, _, .inl rfl, key.trans (applyLoop_zero _ _ _ _ _ _)⟩
    | copyTruncated c t h ht =>
      exact .inr ⟨_, _, .inr (.inl rfl), key.trans (applyLoop_copyTruncated _ _ _ _ _ _ _ h ht)⟩
    | insertTruncated c t h ht =>
      rw [key, applyLoop_insert src n Buf.write c (encodeAll is) t _ (by omega) (by omega)]
      rw [List.take_of_length_le (by omega), over_write fx orig _ _ (fun hf => by
        rcases hfit with h | h
        · rw [h] at hf; cases hf
        · exact h)]
      by_cases hc2 : fx = true ∧ orig.length < (runAll src is).length + t.length
      · rw [if_pos hc2]
        exact .inr ⟨_, _, .inl rfl, rfl⟩
      · rw [if_neg hc2]
        simp only
        rw [applyLoop_beyond _ _ _ _ _ (by simp; omega)]
        exact .inr ⟨_, _, .inr (.inr rfl), rfl⟩
    | copyOutside o0 o1 o2 o3 s0 s1 s2 t h =>
      rw [key, applyLoop_copy, if_pos h]
      by_cases ht : t = []
      · subst ht
        refine .inl ⟨runAll src is, ⟨is, _, hv, rfl, rfl, .inr ⟨o0, o1, o2, o3, s0, s1, s2, by simp, h⟩⟩,
          hfit, ?_⟩
        rw [if_pos rfl]
      · rw [if_neg ht]
        exact .inr ⟨_, _, .inr (.inr rfl), rfl⟩

/-- What a delta produces is determined. -/
theorem applies_collect {n : Nat} {cur body out : Bytes} (h : Applies n cur body out) :
    applyDeltaData cur n body body.length collect [] = (out, .ok ()) := by
  obtain ⟨is, tail, hv, rfl, rfl, ht⟩ := h
  have := applyDelta_outcome cur n is tail hv
  rcases ht with rfl | ⟨o0, o1, o2, o3, s0, s1, s2, rfl, h⟩
  · exact this.1 rfl
  · have := this.2.2.2.2 o0 o1 o2 o3 s0 s1 s2 [] (by simp) h
    simpa using this

theorem applies_unique {n : Nat} {cur body out out' : Bytes} (h : Applies n cur body out)
    (h' : Applies n cur body out') : out = out' := by
  have := (applies_collect h).symm.trans (applies_collect h')
  injection this

/-- Success of a delta that applies and fits. -/
theorem applyDeltaData_applies (src : Bytes) (n : Nat) (body : Bytes) (fx : Bool) (orig out : Bytes)
    (ha : Applies n src body out) (hf : fx = false ∨ out.length ≤ orig.length) :
    applyDeltaData src n body body.length Buf.write ⟨orig, 0, fx⟩ =
      (⟨writtenOver out orig, out.length, fx⟩, .ok ()) := by
  obtain ⟨is, rest, hv, rfl, rfl, ht⟩ := ha
  have key := applyLoop_instrs_over src n fx orig is [] rest [] hv (by simp)
  have e0 : writtenOver [] orig = orig := by simp [writtenOver]
  simp only [e0, List.nil_append, List.length_nil] at key
  rw [if_neg (by
    rintro ⟨h1, h2⟩
    rcases hf with h | h
    · rw [h] at h1; cases h1
    · omega)] at key
  unfold applyDeltaData
  rw [key]
  rcases ht with rfl | ⟨o0, o1, o2, o3, s0, s1, s2, rfl, h⟩
  · simp only [List.append_nil]
    exact applyLoop_end _ _ _ _ _
  · have := applyLoop_copy src n Buf.write o0 o1 o2 o3 s0 s1 s2 (encodeAll is) []
      ⟨writtenOver (runAll src is) orig, (runAll src is).length, fx⟩
    simp only [List.append_nil] at this
    rw [this, if_pos h, if_pos trivial]

/-- Failure of a delta that applies and does not fit. -/
theorem applyDeltaData_overrun (src : Bytes) (n : Nat) (body : Bytes) (orig out : Bytes)
    (ha : Applies n src body out) (hl : orig.length < out.length) :
    ∃ w, applyDeltaData src n body body.length Buf.write ⟨orig, 0, true⟩ = (w, .error .valueError) := by
  obtain ⟨is, rest, hv, rfl, rfl, ht⟩ := ha
  have key := applyLoop_instrs_over src n true orig is [] rest [] hv (by simp)
  have e0 : writtenOver [] orig = orig := by simp [writtenOver]
  simp only [e0, List.nil_append, List.length_nil] at key
  rw [if_pos ⟨trivial, hl⟩] at key
  exact key

/-! ### heads -/

/-- What `readDeltaHead` has to find out about a delta object. -/
structure RawInfo (Rep : σ → Bytes → Prop) (d : RawDelta) (i : DeltaInfo σ) : Prop where
  offset : i.offset = d.src.length + d.tgt.length
  srcSize : i.srcSize = leValue d.src
  targetSize : i.targetSize = leValue d.tgt
  size : i.size = d.bytes.length
  rest : ∃ rem, Rep i.strm rem ∧ i.dbuf ++ rem = d.body

theorem readDeltaHead_raw {read : σ → Int → σ × Res Bytes} {Rep : σ → Bytes → Prop}
    (hr : ObjectReads read Rep) (d : RawDelta) (hd : d.Headed) (s : σ) (h : Rep s d.bytes) :
    ∃ i, readDeltaHead read s d.bytes.length = .ok i ∧ RawInfo Rep d i := by
  obtain ⟨hs, ht, hl⟩ := hd
  obtain ⟨s', e, r⟩ := hr.read_pos s d.bytes 512 h (by omega)
  have e512 : (512 : Int).toNat = 512 := rfl
  rw [e512] at e r
  have hbuf : d.bytes.take 512 =
      d.src ++ (d.tgt ++ d.body.take (512 - d.src.length - d.tgt.length)) := by
    rw [RawDelta.bytes, List.take_append, List.take_of_length_le (by omega), List.take_append,
      List.take_of_length_le (by omega)]
  have hdrop : d.bytes.drop 512 = d.body.drop (512 - d.src.length - d.tgt.length) := by
    rw [RawDelta.bytes, List.drop_append, List.drop_eq_nil_of_le (by omega), List.drop_append,
      List.drop_eq_nil_of_le (by omega)]
    simp
  have m1 := msbSize_at [] d.src (d.tgt ++ d.body.take (512 - d.src.length - d.tgt.length)) hs
  have m2 := msbSize_at d.src d.tgt (d.body.take (512 - d.src.length - d.tgt.length)) ht
  simp only [List.nil_append, List.length_nil, Nat.zero_add] at m1
  refine ⟨⟨_, _, _, _, _, s'⟩, by
    simp only [readDeltaHead, e, hbuf, m1, m2, bind, Except.bind, pure, Except.pure]; rfl, ?_⟩
  refine ⟨rfl, rfl, rfl, rfl, _, r, ?_⟩
  simp only
  rw [hdrop, ← List.append_assoc, List.drop_left' (by simp), List.take_append_drop]

theorem readDeltaHeads_raw {read : σ → Int → σ × Res Bytes} {Rep : σ → Bytes → Prop}
    (hr : ObjectReads read Rep) : ∀ (ds : List RawDelta) (ss : List (σ × Nat)),
    (∀ d ∈ ds, d.Headed) →
    All2 (fun d (s : σ × Nat) => Rep s.1 d.bytes ∧ s.2 = d.bytes.length) ds ss →
    ∃ is, readDeltaHeads read ss = .ok is ∧ All2 (RawInfo Rep) ds is := by
  intro ds
  induction ds with
  | nil => intro ss _ h; cases h; exact ⟨[], rfl, .nil⟩
  | cons d ds ih =>
    intro ss hd h
    cases h with
    | cons h1 h2 =>
      rename_i s ss
      obtain ⟨sst, sn⟩ := s
      obtain ⟨hrep, rfl⟩ := h1
      obtain ⟨i, e1, p1⟩ := readDeltaHead_raw hr d (hd d (by simp)) sst hrep
      obtain ⟨is, e2, p2⟩ := ih ss (fun x hx => hd x (by simp [hx])) h2
      exact ⟨i :: is, by simp only [readDeltaHeads, e1, e2, bind, Except.bind, pure, Except.pure],
        .cons p1 p2⟩

/-! ### one delta -/

theorem applyOne_raw {read : σ → Int → σ × Res Bytes} {Rep : σ → Bytes → Prop}
    (hr : ObjectReads read Rep) (fuel : Nat) (d : RawDelta) (hd : d.Headed) (i : DeltaInfo σ)
    (hi : RawInfo Rep d i) (bbuf tbuf : Buf) (hf : d.bytes.length ≤ fuel) :
    applyOne fuel read bbuf tbuf i =
      match applyDeltaData bbuf.data (leValue d.src) d.body d.body.length Buf.write tbuf with
      | (b, .ok ()) => .ok (b.seek0, bbuf.seek0)
      | (_, .error e) => .error e := by
  obtain ⟨rem, hrem, hsplit⟩ := hi.rest
  have hn : (i.size : Int) - i.offset = (d.body.length : Int) := by
    rw [hi.size, hi.offset, RawDelta.bytes]
    simp only [List.length_append]; omega
  obtain ⟨b0, hb0⟩ := allocateMemory_ok d.body.length
  have r0 := bufRep_fresh _ b0 hb0
  have hlen : i.dbuf.length + rem.length = d.body.length := by
    rw [← hsplit, List.length_append]
  have hst := buf_stores (decide (d.body.length ≠ 0)) d.body.length
    d.body.length (fun _ => Nat.le_refl _)
  obtain ⟨b1, u1, w1, r1⟩ := hst b0 [] i.dbuf r0 (by simp; omega)
  have hsrc : 1 ≤ d.src.length := by
    obtain ⟨pre, last, e, _⟩ := hd.src_term
    rw [e]; simp
  have hsz : d.src.length + (d.tgt.length + d.body.length) = d.bytes.length := by
    simp [RawDelta.bytes]
  obtain ⟨s2, b2, w2, r2, q2⟩ := streamCopy_spec hr.toBoundedReads hst d.bytes.length
    (256 * PAGESIZE : Nat) (by simp [PAGESIZE]) fuel i.strm b1 rem ([] ++ i.dbuf) hrem r1 (by omega)
    (by omega) (by simp; omega)
  have hrem' : rem.take d.bytes.length = rem := List.take_of_length_le (by omega)
  rw [hrem', List.nil_append, hsplit] at q2
  obtain ⟨_, _, q3, q4⟩ := q2
  have hdata : b2.data = d.body := by
    rw [Nat.max_self] at q4
    rw [List.take_of_length_le (by omega)] at q3
    exact q3
  have w2' : streamCopy fuel read Buf.write (i.size : Int) (256 * PAGESIZE : Nat) i.strm b1 =
      (s2, b2, .ok ((min d.bytes.length rem.length : Nat) : Int)) := by
    rw [hi.size]; exact w2
  simp only [applyOne, hn, hb0, w1, w2', hdata, hi.srcSize, bind, Except.bind, pure, Except.pure]
  rcases applyDeltaData bbuf.data (leValue d.src) d.body d.body.length Buf.write tbuf with ⟨b, _ | ⟨⟩⟩ <;> rfl

/-! ### the chain -/

theorem applyAll_replay {read : σ → Int → σ × Res Bytes} {Rep : σ → Bytes → Prop}
    (hr : ObjectReads read Rep) (fuel : Nat) (grow : Bool) :
    ∀ (ds : List RawDelta) (is : List (DeltaInfo σ)),
    All2 (RawInfo Rep) ds is → (∀ d ∈ ds, d.Headed) → (∀ d ∈ ds, d.bytes.length ≤ fuel) →
    ∀ (bbuf : Buf) (other : Bytes), (ds.length ≤ 1 ∨ bbuf.fixed = !grow) →
    (∃ t res, applyAll fuel read is bbuf ⟨other, 0, !grow⟩ = .ok (t, res) ∧
      Replay grow bbuf.data other ds t.data ∧ (ds ≠ [] → t.pos = 0)) ∨
    (∃ e, DeltaExc e ∧ applyAll fuel read is bbuf ⟨other, 0, !grow⟩ = .error e ∧
      (∀ res, ¬ Replay grow bbuf.data other ds res) ∧ Refused grow bbuf.data other ds e) := by
  intro ds
  induction ds with
  | nil =>
    intro is h _ _ bbuf other _
    cases h
    exact .inl ⟨bbuf, _, rfl, .nil _ _, fun h => absurd rfl h⟩
  | cons d ds ih =>
    intro is h hh hf bbuf other hfx
    cases h with
    | cons h1 h2 =>
      rename_i i is
      have hone := applyOne_raw hr fuel d (hh d (by simp)) i h1 bbuf ⟨other, 0, !grow⟩ (hf d (by simp))
      have hgrow : ∀ {n : Nat}, ((!grow) = false ∨ n ≤ other.length) ↔ (grow = true ∨ n ≤ other.length) := by
        intro n; cases grow <;> simp
      rcases applyDeltaData_over bbuf.data (leValue d.src) d.body (!grow) other with
        ⟨out, ha, hfit, e⟩ | ⟨w, e, he, hw⟩
      · rw [e] at hone
        simp only [Buf.seek0] at hone
        have hfit' := hgrow.mp hfit
        by_cases hds : ds = []
        · subst hds
          cases h2
          refine .inl ⟨_, _, by simp only [applyAll, hone, bind, Except.bind]; rfl, ?_, fun _ => rfl⟩
          exact .cons _ _ _ _ _ _ ha hfit' (.nil _ _)
        · have hbf : bbuf.fixed = !grow := by
            rcases hfx with h | h
            · have := List.length_pos_iff.2 hds
              simp only [List.length_cons] at h; omega
            · exact h
          have ih' := ih is h2 (fun x hx => hh x (by simp [hx])) (fun x hx => hf x (by simp [hx]))
            ⟨writtenOver out other, 0, !grow⟩ bbuf.data (.inr rfl)
          have hb : ({ bbuf with pos := 0 } : Buf) = ⟨bbuf.data, 0, !grow⟩ := by
            rw [← hbf]
          rw [hb] at hone
          rcases ih' with ⟨t, res, e1, e2, e3⟩ | ⟨x, hx, e1, e2, e3⟩
          · refine .inl ⟨t, res, by simp only [applyAll, hone, bind, Except.bind]; exact e1,
              .cons _ _ _ _ _ _ ha hfit' e2, fun _ => e3 hds⟩
          · refine .inr ⟨x, hx, by simp only [applyAll, hone, bind, Except.bind]; exact e1, ?_,
              .later _ _ _ _ _ _ ha hfit' e3⟩
            intro res hres
            cases hres with
            | cons _ _ out' _ _ _ ha' _ hrest =>
              rw [← applies_unique ha ha'] at hrest
              exact e2 res hrest
      · rw [hw] at hone
        have hno : ∀ out, Applies (leValue d.src) bbuf.data d.body out →
            ¬ (grow = true ∨ out.length ≤ other.length) := by
          intro out' ha' hfit'
          have := applyDeltaData_applies bbuf.data (leValue d.src) d.body (!grow) other out' ha'
            (hgrow.mpr hfit')
          rw [hw] at this
          injection this with _ h
          cases h
        refine .inr ⟨e, he, by simp only [applyAll, hone, bind, Except.bind], ?_, ?_⟩
        · intro res hres
          cases hres with
          | cons _ _ out' _ _ _ ha' hfit' _ => exact hno out' ha' hfit'
        · by_cases hex : ∃ out, Applies (leValue d.src) bbuf.data d.body out
          · obtain ⟨out, ha⟩ := hex
            have hn := hno out ha
            have hg : grow = false := by
              cases grow with
              | false => rfl
              | true => exact absurd (.inl rfl) hn
            have hl : other.length < out.length := Nat.lt_of_not_le fun h => hn (.inr h)
            subst hg
            obtain ⟨w', hw'⟩ := applyDeltaData_overrun bbuf.data (leValue d.src) d.body other out ha hl
            simp only [Bool.not_false] at hw
            rw [hw'] at hw
            injection hw with _ h
            injection h with h
            subst h
            exact .overrun _ _ _ _ _ ha rfl hl
          · exact .malformed _ _ _ _ _ (fun out ha => hex ⟨out, ha⟩) he

theorem foldl_targets {Rep : σ → Bytes → Prop} : ∀ (ds : List RawDelta) (is : List (DeltaInfo σ)) (m : Nat),
    All2 (RawInfo Rep) ds is →
    is.foldl (fun m d => max m d.targetSize) m = largest m (ds.map fun d => leValue d.tgt) := by
  intro ds
  induction ds with
  | nil => intro is m h; cases h; rfl
  | cons d ds ih =>
    intro is m h
    cases h with
    | cons h1 h2 =>
      simp only [List.foldl_cons, List.map_cons, largest, h1.targetSize]
      exact ih _ _ h2

theorem largest_spec (l : List Nat) : ∀ m, m ≤ largest m l ∧ (∀ x ∈ l, x ≤ largest m l) ∧
    (largest m l = m ∨ largest m l ∈ l) := by
  induction l with
  | nil => intro m; simp [largest]
  | cons a as ih =>
    intro m
    obtain ⟨h1, h2, h3⟩ := ih (max m a)
    have e : largest m (a :: as) = largest (max m a) as := rfl
    rw [e]
    refine ⟨by omega, ?_, ?_⟩
    · intro x hx
      simp at hx
      rcases hx with rfl | hx
      · omega
      · exact h2 x hx
    · rcases h3 with h | h
      · rw [h]
        by_cases hh : a ≤ m
        · left; omega
        · right; rw [show max m a = a by omega]; simp
      · right; simp [h]

theorem largest_reverse (l : List Nat) : largest 0 l.reverse = largest 0 l := by
  have a := largest_spec l 0
  have b := largest_spec l.reverse 0
  have h1 : largest 0 l.reverse ≤ largest 0 l := by
    rcases b.2.2 with h | h
    · omega
    · exact a.2.1 _ (by simpa using h)
  have h2 : largest 0 l ≤ largest 0 l.reverse := by
    rcases a.2.2 with h | h
    · omega
    · exact b.2.1 _ (by simpa using h)
  omega

/-- `ds` in order of application; the streams are given topmost first. -/
theorem setCacheBrute_raw {read : σ → Int → σ × Res Bytes} {Rep : σ → Bytes → Prop}
    (hr : ObjectReads read Rep) (base : Bytes) (ds : List RawDelta) (top : RawDelta)
    (hh : ∀ d ∈ ds ++ [top], d.Headed) (bs : σ) (hbs : Rep bs base) (ss : List (σ × Nat))
    (hss : All2 (fun d (s : σ × Nat) => Rep s.1 d.bytes ∧ s.2 = d.bytes.length)
      (ds ++ [top]).reverse ss) :
    let mem := memorySizes base.length (ds ++ [top])
    let start := base ++ blank (mem.1 - base.length)
    let grow := decide (mem.2 = 0)
    ∃ F, ∀ fuel, F ≤ fuel →
      (∃ t, setCacheBrute fuel read ss (bs, base.length) = .ok (t, leValue top.tgt) ∧
        Replay grow start (blank mem.2) (ds ++ [top]) t.data ∧ t.pos = 0) ∨
      (∃ e, DeltaExc e ∧ setCacheBrute fuel read ss (bs, base.length) = .error e ∧
        (∀ res, ¬ Replay grow start (blank mem.2) (ds ++ [top]) res) ∧
        Refused grow start (blank mem.2) (ds ++ [top]) e) := by
  intro mem start grow
  obtain ⟨infos, e1, hinf⟩ := readDeltaHeads_raw hr (ds ++ [top]).reverse ss
    (fun d hd => hh d (List.mem_reverse.mp hd)) hss
  have hinf' : All2 (RawInfo Rep) (ds ++ [top]) infos.reverse := by
    have := all2_reverse hinf; rwa [List.reverse_reverse] at this
  have hM : infos.foldl (fun m d => max m d.targetSize) 0 =
      largest 0 ((ds ++ [top]).map fun d => leValue d.tgt) := by
    rw [foldl_targets _ _ 0 hinf, List.map_reverse, largest_reverse]
  have hsl : ss.length = (ds ++ [top]).length := by
    have := all2_length hss; simpa using this.symm
  have hB : (if ss.length > 1 then
      (max base.length (infos.foldl (fun m d => max m d.targetSize) 0),
        max base.length (infos.foldl (fun m d => max m d.targetSize) 0))
      else (base.length, infos.foldl (fun m d => max m d.targetSize) 0)) = mem := by
    rw [hM, hsl]; rfl
  have hmem1 : base.length ≤ mem.1 := by
    simp only [mem, memorySizes]; split <;> simp <;> omega
  refine ⟨mem.1 + 1 + ((ds ++ [top]).map fun d => d.bytes.length).sum, fun fuel hfuel => ?_⟩
  have hdf : ∀ d ∈ ds ++ [top], d.bytes.length ≤ fuel := by
    intro d hd
    have : d.bytes.length ≤ ((ds ++ [top]).map fun d => d.bytes.length).sum :=
      le_sum_of_mem (List.mem_map.mpr ⟨d, hd, rfl⟩)
    omega
  obtain ⟨b0, hb0, r0⟩ := over_fresh mem.1
  have hst := over_stores (decide (mem.1 ≠ 0)) (blank mem.1) mem.1 (fun _ => by simp [blank])
  have copy : ∃ s' b1, streamCopy fuel read Buf.write (mem.1 : Int) (256 * PAGESIZE : Nat) bs b0 =
      (s', b1, .ok ((min mem.1 base.length : Nat) : Int)) ∧
      OverRep (decide (mem.1 ≠ 0)) (blank mem.1) b1 base := by
    by_cases h0 : mem.1 = 0
    · have hbase : base = [] := List.length_eq_zero_iff.mp (by omega)
      subst hbase
      obtain ⟨s', b1, w, _, q⟩ := streamCopy_zero_object hr hst (256 * PAGESIZE : Nat)
        (by simp [PAGESIZE]) fuel bs b0 [] hbs r0 (by omega) (by simp)
      exact ⟨s', b1, by simpa [h0] using w, q⟩
    · obtain ⟨s', b1, w, _, q⟩ := streamCopy_spec hr.toBoundedReads hst mem.1 (256 * PAGESIZE : Nat)
        (by simp [PAGESIZE]) fuel bs b0 base [] hbs r0 (by omega) (by omega) (by simp; omega)
      rw [List.take_of_length_le hmem1, List.nil_append] at q
      exact ⟨s', b1, w, q⟩
  obtain ⟨s1, b1, hcopy, hb1⟩ := copy
  have hb1d : b1.data = start := by
    rw [hb1]
    simp [writtenOver, start, blank]
  obtain ⟨t0, ht0, hr0⟩ := over_fresh mem.2
  have ht0' : t0 = ⟨blank mem.2, 0, !grow⟩ := by
    rw [hr0]
    simp [writtenOver, grow]
  have hfx : (ds ++ [top]).length ≤ 1 ∨ b1.fixed = !grow := by
    by_cases hl : (ds ++ [top]).length ≤ 1
    · exact .inl hl
    · right
      have hmm : mem.1 = mem.2 := by
        simp only [mem, memorySizes]; rw [if_pos (by omega)]
      rw [hb1]
      simp [grow, hmm]
  have key := applyAll_replay hr fuel grow (ds ++ [top]) infos.reverse hinf' hh hdf b1 (blank mem.2) hfx
  have htop : ∃ i rest, infos = i :: rest ∧ i.targetSize = leValue top.tgt := by
    rw [List.reverse_append, List.reverse_singleton, List.singleton_append] at hinf
    cases hinf with
    | cons h1 _ => exact ⟨_, _, rfl, h1.targetSize⟩
  obtain ⟨i, rest, hi, hti⟩ := htop
  rw [hb1d] at key
  rcases key with ⟨t, res, e2, e3, e4⟩ | ⟨e, he, e2, e3⟩
  · refine .inl ⟨t, ?_, e3, e4 (by simp)⟩
    unfold setCacheBrute
    simp only [e1, hB, hb0, hcopy, ht0, ht0', e2, bind, Except.bind, pure, Except.pure]
    rw [hi]
    simp only [hti]
  · refine .inr ⟨e, he, ?_, e3⟩
    unfold setCacheBrute
    simp only [e1, hB, hb0, hcopy, ht0, ht0', e2, bind, Except.bind]

/-! ### contents that do not begin with two numbers -/

theorem terminated_or_more (bs : Bytes) :
    (∃ t rest, bs = t ++ rest ∧ Terminated t) ∨ (∀ b ∈ bs, more b = true) := by
  induction bs with
  | nil => right; simp
  | cons b bs ih =>
    by_cases hb : more b = true
    · rcases ih with ⟨t, rest, rfl, ht⟩ | h
      · exact .inl ⟨b :: t, rest, rfl, terminated_cons.mpr (.inr ⟨hb, ht⟩)⟩
      · right; intro x hx; simp at hx; rcases hx with rfl | hx
        · exact hb
        · exact h x hx
    · exact .inl ⟨[b], bs, rfl, terminated_cons.mpr (.inl ⟨rfl, by simpa using hb⟩)⟩

/-- Either two numbers stand at the beginning, or they cannot be read. -/
theorem two_numbers (buf : Bytes) :
    (∃ src tgt tail, buf = src ++ (tgt ++ tail) ∧ Terminated src ∧ Terminated tgt ∧
      msbSize buf 0 = .ok (src.length, leValue src) ∧
      msbSize buf src.length = .ok (src.length + tgt.length, leValue tgt)) ∨
    (msbSize buf 0 = .error .assertionError) ∨
    (∃ n v, msbSize buf 0 = .ok (n, v) ∧ msbSize buf n = .error .indexError) := by
  rcases terminated_or_more buf with ⟨t, rest, rfl, ht⟩ | h
  · have m1 := msbSize_at [] t rest ht
    simp only [List.nil_append, List.length_nil, Nat.zero_add] at m1
    rcases terminated_or_more rest with ⟨t', rest', rfl, ht'⟩ | h
    · exact .inl ⟨t, t', rest', rfl, ht, ht', m1, msbSize_at t t' rest' ht'⟩
    · right; right
      refine ⟨_, _, m1, ?_⟩
      unfold msbSize
      rw [List.drop_left, msbLoop_trunc _ _ _ _ h, if_neg]
      have : t ≠ [] := fun hn => not_terminated_nil (hn ▸ ht)
      have := List.length_pos_iff.2 this
      rw [List.length_append]; omega
  · right; left
    unfold msbSize
    rw [List.drop_zero, msbLoop_trunc _ _ _ _ h, if_pos (Nat.le_refl _)]

theorem readDeltaHead_any {read : σ → Int → σ × Res Bytes} {Rep : σ → Bytes → Prop}
    (hr : ObjectReads read Rep) (c : Bytes) (s : σ) (h : Rep s c) (n : Nat) :
    (∃ d : RawDelta, d.Headed ∧ d.bytes = c) ∨
    (∃ e, DeltaExc e ∧ readDeltaHead read s n = .error e) := by
  obtain ⟨s', e, _⟩ := hr.read_pos s c 512 h (by omega)
  have e512 : (512 : Int).toNat = 512 := rfl
  rw [e512] at e
  rcases two_numbers (c.take 512) with ⟨src, tgt, tail, hb, hs, ht, _, _⟩ | h | ⟨k, v, h1, h2⟩
  · refine .inl ⟨⟨src, tgt, tail ++ c.drop 512⟩, ⟨hs, ht, ?_⟩, ?_⟩
    · have := congrArg List.length hb
      simp only [List.length_append, List.length_take] at this
      simp only; omega
    · simp only [RawDelta.bytes]
      rw [← List.append_assoc tgt, ← List.append_assoc src, ← hb, List.take_append_drop]
  · refine .inr ⟨_, .inr (.inr rfl), ?_⟩
    simp only [readDeltaHead, e, h, bind, Except.bind]
  · refine .inr ⟨_, .inr (.inl rfl), ?_⟩
    simp only [readDeltaHead, e, h1, h2, bind, Except.bind]

theorem readDeltaHeads_any {read : σ → Int → σ × Res Bytes} {Rep : σ → Bytes → Prop}
    (hr : ObjectReads read Rep) : ∀ (cs : List Bytes) (ss : List (σ × Nat)),
    All2 (fun (c : Bytes) (s : σ × Nat) => Rep s.1 c ∧ s.2 = c.length) cs ss →
    (∃ ds : List RawDelta, (∀ d ∈ ds, d.Headed) ∧ ds.map RawDelta.bytes = cs) ∨
    (∃ e, DeltaExc e ∧ readDeltaHeads read ss = .error e) := by
  intro cs
  induction cs with
  | nil => intro ss h; exact .inl ⟨[], by simp, rfl⟩
  | cons c cs ih =>
    intro ss h
    cases h with
    | cons h1 h2 =>
      rename_i s ss
      obtain ⟨sst, sn⟩ := s
      obtain ⟨hrep, rfl⟩ := h1
      rcases readDeltaHead_any hr c sst hrep c.length with ⟨d, hd, rfl⟩ | ⟨e, he, hx⟩
      · obtain ⟨i, e1, _⟩ := readDeltaHead_raw hr d hd sst hrep
        rcases ih ss h2 with ⟨ds, hds, rfl⟩ | ⟨e, he, hx⟩
        · refine .inl ⟨d :: ds, ?_, rfl⟩
          intro x hx
          simp at hx
          rcases hx with rfl | hx
          · exact hd
          · exact hds x hx
        · exact .inr ⟨e, he, by simp only [readDeltaHeads, e1, hx, bind, Except.bind]⟩
      · exact .inr ⟨e, he, by simp only [readDeltaHeads, hx, bind, Except.bind]⟩

/-! ### whatever the streams do: the memory keeps its size -/

section
variable {ω ρ : Type}

theorem applyLoop_inv {P : ω → Prop} {write : ω → Bytes → ω × Res Unit}
    (hw : ∀ w d, P w → P (write w d).1) (src : Bytes) (srcSize : Nat) (db : Bytes) (n : Nat) :
    ∀ (k i : Nat) (w : ω), n - i = k → P w → P (applyLoop src srcSize db n write i w).1 := by
  intro k
  induction k using Nat.strongRecOn with
  | ind k ih =>
    intro i w hk hp
    rw [applyLoop]
    by_cases hi : i < n
    · rw [dif_pos hi]
      cases hx : pyIndex db i with
      | error e => exact hp
      | ok c =>
        simp only
        by_cases h80 : c &&& 0x80 ≠ 0
        · rw [if_pos h80]
          split
          · exact hp
          · rename_i off sz j h
            by_cases hr : off + sz < sz ∨ off + sz > srcSize
            · rw [if_pos hr]; exact hp
            · rw [if_neg hr]
              have hm := decodeCopy_mono h
              have := hw w (pySlice src off (off + sz)) hp
              revert this
              rcases write w (pySlice src off (off + sz)) with ⟨w', _ | ⟨⟩⟩
              · exact id
              · exact fun hp' => ih (n - j) (by omega) j w' rfl hp'
        · rw [if_neg h80]
          by_cases h0 : c ≠ 0
          · rw [if_pos h0]
            have := hw w (pySlice db (i + 1) (i + 1 + c)) hp
            revert this
            rcases write w (pySlice db (i + 1) (i + 1 + c)) with ⟨w', _ | ⟨⟩⟩
            · exact id
            · exact fun hp' => ih (n - (i + 1 + c)) (by omega) (i + 1 + c) w' rfl hp'
          · rw [if_neg h0]; exact hp
    · rw [dif_neg hi]; exact hp

end

/-- A memory of fixed size `n`. -/
def Keeps (n : Nat) (b : Buf) : Prop := b.fixed = true → b.data.length = n

theorem write_keeps (n : Nat) (b : Buf) (d : Bytes) (h : Keeps n b) : Keeps n (b.write d).1 := by
  unfold Buf.write
  by_cases hc : b.fixed = true ∧ b.data.length < b.pos + d.length
  · rw [if_pos hc]; exact h
  · rw [if_neg hc]
    intro hf
    have h1 := h hf
    have h2 : b.pos + d.length ≤ b.data.length := Nat.le_of_not_lt fun hh => hc ⟨hf, hh⟩
    simp only [List.length_append, List.length_take, List.length_drop]
    omega

theorem write_fixed (b : Buf) (d : Bytes) : (b.write d).1.fixed = b.fixed := by
  unfold Buf.write
  split <;> rfl

theorem streamCopyLoop_inv {P : Buf → Prop} (hw : ∀ w d, P w → P (Buf.write w d).1)
    (read : σ → Int → σ × Res Bytes) (size chunk : Int) : ∀ (fuel : Nat) (dbw : Int) (s : σ) (w : Buf),
    P w → P (streamCopyLoop read Buf.write size chunk fuel dbw s w).2.1 := by
  intro fuel
  induction fuel with
  | zero => intro dbw s w h; exact h
  | succ fuel ih =>
    intro dbw s w h
    rw [streamCopyLoop]
    rcases read s (min chunk (size - dbw)) with ⟨s1, e | data⟩
    · exact h
    · have := hw w data h
      revert this
      simp only
      rcases Buf.write w data with ⟨w1, _ | ⟨⟩⟩
      · exact id
      · intro hp
        simp only
        split
        · exact hp
        · exact ih _ _ _ hp

theorem applyOne_keeps (n : Nat) (fuel : Nat) (read : σ → Int → σ × Res Bytes) (bbuf tbuf : Buf)
    (d : DeltaInfo σ) (b t : Buf) (h : applyOne fuel read bbuf tbuf d = .ok (b, t)) :
    (Keeps n tbuf → Keeps n b) ∧ b.fixed = tbuf.fixed ∧ b.pos = 0 ∧ t = bbuf.seek0 := by
  simp only [applyOne, bind, Except.bind, pure, Except.pure] at h
  split at h
  · cases h
  · split at h
    · split at h
      · rename_i dd _ _
        have h1 := applyLoop_inv (P := fun w => Keeps n w) (fun w d hw => write_keeps n w d hw)
          bbuf.data d.srcSize dd.data dd.data.length _ 0 tbuf rfl
        have h2 := applyLoop_inv (P := fun w => w.fixed = tbuf.fixed)
          (fun w d hw => (write_fixed w d).trans hw)
          bbuf.data d.srcSize dd.data dd.data.length _ 0 tbuf rfl rfl
        revert h1 h2 h
        rw [applyDeltaData]
        rcases applyLoop bbuf.data d.srcSize dd.data dd.data.length Buf.write 0 tbuf with ⟨w, _ | ⟨⟩⟩
        · intro h; cases h
        · intro h h1 h2
          cases h
          exact ⟨h1, h2, rfl, rfl⟩
      · cases h
    · cases h

theorem applyAll_keeps (fuel : Nat) (read : σ → Int → σ × Res Bytes) (n : Nat) :
    ∀ (is : List (DeltaInfo σ)) (bbuf tbuf b t : Buf), is ≠ [] →
    applyAll fuel read is bbuf tbuf = .ok (b, t) → Keeps n tbuf → tbuf.fixed = true →
    (1 < is.length → Keeps n bbuf ∧ bbuf.fixed = true) → b.data.length = n ∧ b.pos = 0 := by
  intro is
  induction is with
  | nil => intro _ _ _ _ h; exact absurd rfl h
  | cons i is ih =>
    intro bbuf tbuf b t _ h hk hf hb
    simp only [applyAll, bind, Except.bind] at h
    split at h
    · cases h
    · rename_i v hv
      obtain ⟨b1, t1⟩ := v
      obtain ⟨k1, k2, k3, k4⟩ := applyOne_keeps n fuel read bbuf tbuf i b1 t1 hv
      simp only at h
      have hb1 := k1 hk
      rw [hf] at k2
      cases is with
      | nil =>
        simp only [applyAll] at h
        cases h
        exact ⟨hb1 k2, k3⟩
      | cons j js =>
        obtain ⟨g1, g2⟩ := hb (by simp)
        refine ih b1 t1 b t (by simp) h ?_ ?_ (fun _ => ⟨hb1, k2⟩)
        · rw [k4]; exact g1
        · rw [k4]; exact g2

theorem applyAll_pos (fuel : Nat) (read : σ → Int → σ × Res Bytes) :
    ∀ (is : List (DeltaInfo σ)) (bbuf tbuf b t : Buf), is ≠ [] →
    applyAll fuel read is bbuf tbuf = .ok (b, t) → b.pos = 0 := by
  intro is
  induction is with
  | nil => intro _ _ _ _ h; exact absurd rfl h
  | cons i is ih =>
    intro bbuf tbuf b t _ h
    simp only [applyAll, bind, Except.bind] at h
    split at h
    · cases h
    · rename_i v hv
      obtain ⟨b1, t1⟩ := v
      obtain ⟨_, _, k3, _⟩ := applyOne_keeps 0 fuel read bbuf tbuf i b1 t1 hv
      simp only at h
      cases is with
      | nil => simp only [applyAll] at h; cases h; exact k3
      | cons j js => exact ih b1 t1 b t (by simp) h

/-- The topmost delta decides about the size, and the memory handed out is that long. -/
theorem setCacheBrute_keeps (fuel : Nat) (read : σ → Int → σ × Res Bytes) (top : σ × Nat)
    (rest : List (σ × Nat)) (bstream : σ × Nat) (t : Buf) (n : Nat)
    (h : setCacheBrute fuel read (top :: rest) bstream = .ok (t, n)) :
    (∃ i, readDeltaHead read top.1 top.2 = .ok i ∧ i.targetSize = n) ∧ n ≤ t.data.length ∧ t.pos = 0 := by
  unfold setCacheBrute at h
  simp only [bind, Except.bind, pure, Except.pure] at h
  split at h
  · cases h
  · rename_i infos hinfos
    obtain ⟨st, sn⟩ := top
    simp only [readDeltaHeads, bind, Except.bind, pure, Except.pure] at hinfos
    split at hinfos
    · cases hinfos
    · rename_i i hi
      split at hinfos
      · cases hinfos
      · rename_i is his
        cases hinfos
        have hlen : is.length = rest.length := by
          have : ∀ (l : List (σ × Nat)) (m : List (DeltaInfo σ)), readDeltaHeads read l = .ok m →
              m.length = l.length := by
            intro l
            induction l with
            | nil => intro m hm; cases hm; rfl
            | cons x xs ih =>
              intro m hm
              obtain ⟨x1, x2⟩ := x
              simp only [readDeltaHeads, bind, Except.bind, pure, Except.pure] at hm
              split at hm
              · cases hm
              · split at hm
                · cases hm
                · rename_i v hv
                  cases hm
                  simp [ih v hv]
          exact this _ _ his
        generalize hM : (i :: is).foldl (fun m d => max m d.targetSize) 0 = M at h
        have hi' : i.targetSize ≤ M := by
          rw [← hM]; exact (foldl_max_ge (i :: is) 0).2 i (by simp)
        generalize hsz : (if (((st, sn) :: rest).length > 1) then
          (max bstream.2 M, max bstream.2 M) else (bstream.2, M)) = szs at h
        obtain ⟨bs, ts⟩ := szs
        have hts : M ≤ ts ∧ (1 < (i :: is).length → bs = ts) := by
          simp only [List.length_cons, hlen]
          simp only [List.length_cons] at hsz
          split at hsz
          · cases hsz; exact ⟨by omega, fun _ => rfl⟩
          · rename_i hh
            cases hsz; exact ⟨by omega, fun hx => absurd hx hh⟩
        simp only at h
        split at h
        · cases h
        · rename_i bb hbb
          split at h
          · rename_i b1 _ hcopy
            split at h
            · cases h
            · rename_i tb htb
              split at h
              · cases h
              · rename_i v hv
                cases h
                obtain ⟨v1, v2⟩ := v
                refine ⟨⟨i, hi, rfl⟩, ?_, ?_⟩
                · by_cases h0 : ts = 0
                  · simp only; omega
                  · have fresh : ∀ (m : Nat) (b : Buf), m ≠ 0 → allocateMemory (m : Int) = .ok b →
                        Keeps m b ∧ b.fixed = true := by
                      intro m b hm hb
                      obtain ⟨g1, _, _, g4⟩ := bufRep_fresh m b hb
                      refine ⟨fun _ => by rw [g4]; simp, by rw [g1]; simp [hm]⟩
                    obtain ⟨g1, g2⟩ := fresh ts tb h0 htb
                    have := applyAll_keeps fuel read ts (i :: is).reverse b1 tb v1 v2 (by simp) hv g1 g2
                      (fun hx => by
                        have hbt := hts.2 (by simpa using hx)
                        subst hbt
                        obtain ⟨k1, k2⟩ := fresh bs bb h0 hbb
                        have i1 := streamCopyLoop_inv (P := fun w => Keeps bs w)
                          (fun w d hw => write_keeps bs w d hw) read bs (256 * PAGESIZE : Nat) fuel 0
                          bstream.1 bb k1
                        have i2 := streamCopyLoop_inv (P := fun w => w.fixed = true)
                          (fun w d hw => (write_fixed w d).trans hw) read bs (256 * PAGESIZE : Nat) fuel 0
                          bstream.1 bb k2
                        rw [streamCopy] at hcopy
                        rw [hcopy] at i1 i2
                        exact ⟨i1, i2⟩)
                    simp only
                    omega
                · exact applyAll_pos fuel read (i :: is).reverse b1 tb v1 v2 (by simp) hv
          · cases h

end GitDB
