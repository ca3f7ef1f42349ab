import Verif.Model.AfterClose
import Verif.Props.Writers
/-!
# C17: compressing writers after `close`
-/
set_option autoImplicit false

namespace GitDB.Props
open GitDB Spec

/-- The data that the caller wanted to write. -/
def wanted : List WriterOp → Bytes
  | [] => []
  | .write d :: ops => d ++ wanted ops
  | .close :: ops => wanted ops

theorem zippedLife_ended (zl : Zlib) : ∀ (ops : List WriterOp) (s : ZippedLife zl), s.ended = true →
    (runWriter ZippedLife.step s ops).2 = List.replicate ops.length (.error .zlibError) ∧
    (runWriter ZippedLife.step s ops).1.ended = true ∧
    (runWriter ZippedLife.step s ops).1.w.buf = s.w.buf ∧
    (runWriter ZippedLife.step s ops).1.w.sha1.hashed = s.w.sha1.hashed ++ wanted ops
  | [], s, h => ⟨rfl, h, rfl, by simp [runWriter, wanted]⟩
  | .write d :: ops, s, h => by
    have h1 : s.step (.write d) = ({ s with w := { s.w with sha1 := (s.w.sha1.write d).1 } }, .error .zlibError) := by
      unfold ZippedLife.step; simp only [if_pos h]
    obtain ⟨a, b, c, e⟩ := zippedLife_ended zl ops { s with w := { s.w with sha1 := (s.w.sha1.write d).1 } } h
    unfold runWriter
    simp only [h1]
    refine ⟨by rw [a]; rfl, b, c, ?_⟩
    rw [e]
    simp [wanted, Sha1Writer.write]
  | .close :: ops, s, h => by
    have h1 : s.step .close = (s, .error .zlibError) := by unfold ZippedLife.step; simp only [if_pos h]
    obtain ⟨a, b, c, e⟩ := zippedLife_ended zl ops s h
    unfold runWriter
    simp only [h1]
    exact ⟨by rw [a]; rfl, b, c, e⟩

theorem fdLife_ended (zl : Zlib) : ∀ (ops : List WriterOp) (s : FdLife zl), s.ended = true →
    (runWriter FdLife.step s ops).2 = List.replicate ops.length (.error .zlibError) ∧
    (runWriter FdLife.step s ops).1.ended = true ∧
    (runWriter FdLife.step s ops).1.w.fd = s.w.fd ∧
    (runWriter FdLife.step s ops).1.w.sha1.hashed = s.w.sha1.hashed ++ wanted ops
  | [], s, h => ⟨rfl, h, rfl, by simp [runWriter, wanted]⟩
  | .write d :: ops, s, h => by
    have h1 : s.step (.write d) = ({ s with w := { s.w with sha1 := (s.w.sha1.write d).1 } }, .error .zlibError) := by
      unfold FdLife.step; simp only [if_pos h]
    obtain ⟨a, b, c, e⟩ := fdLife_ended zl ops { s with w := { s.w with sha1 := (s.w.sha1.write d).1 } } h
    unfold runWriter
    simp only [h1]
    refine ⟨by rw [a]; rfl, b, c, ?_⟩
    rw [e]
    simp [wanted, Sha1Writer.write]
  | .close :: ops, s, h => by
    have h1 : s.step .close = (s, .error .zlibError) := by unfold FdLife.step; simp only [if_pos h]
    obtain ⟨a, b, c, e⟩ := fdLife_ended zl ops s h
    unfold runWriter
    simp only [h1]
    exact ⟨by rw [a]; rfl, b, c, e⟩

theorem zippedLife_writes (zl : Zlib) : ∀ (ds : List Bytes) (w w' : ZippedStoreShaWriter zl) (rs : List Nat),
    writeMany ZippedStoreShaWriter.write w ds = (w', .ok rs) →
    (runWriter ZippedLife.step { w := w } (ds.map .write)).1 = { w := w' } ∧
      (runWriter ZippedLife.step { w := w } (ds.map .write)).2 = rs.map fun n => .ok (some n)
  | [], w, w', rs, h => by
    simp only [writeMany, Prod.mk.injEq, Except.ok.injEq] at h
    obtain ⟨rfl, rfl⟩ := h
    exact ⟨rfl, rfl⟩
  | d :: ds, w, w', rs, h => by
    rw [writeMany] at h
    rcases hw : w.write d with ⟨w1, e | n⟩
    · rw [hw] at h; simp at h
    · rw [hw] at h
      simp only at h
      rcases hm : writeMany ZippedStoreShaWriter.write w1 ds with ⟨w2, e | rs'⟩
      · rw [hm] at h; simp at h
      · rw [hm] at h
        simp only [Prod.mk.injEq, Except.ok.injEq] at h
        obtain ⟨rfl, rfl⟩ := h
        obtain ⟨a, b⟩ := zippedLife_writes zl ds w1 w2 rs' hm
        have h1 : ZippedLife.step { w := w } (.write d) = ({ w := w1 }, .ok (some n)) := by
          unfold ZippedLife.step
          simp only [Bool.false_eq_true, if_false, hw]
        rw [List.map_cons, runWriter]
        simp only [h1]
        exact ⟨a, by rw [b]; rfl⟩

/-- **C17** `ZippedStoreShaWriter` after `close()`: every further `write` and `close` raises `zlib.error`, and `getvalue()` stays the
complete compressed stream of what was written before.  The digest however goes on: it is that of all data, the refused ones
included. -/
theorem C17_zipped_closed (zl : Zlib) (L : ZlibLaws zl) (H : Hash) (ds : List Bytes) (ops : List WriterOp) :
    ∃ s, runWriter ZippedLife.step { w := ZippedStoreShaWriter.new zl } (ds.map .write ++ .close :: ops) =
        (s, (ds.map fun d => .ok (some d.length)) ++ .ok none :: List.replicate ops.length (.error .zlibError)) ∧
      IsZip zl s.w.getvalue s.w.getvalue.length ds.flatten ∧
      s.w.sha1.sha H false = H.digest (ds.flatten ++ wanted ops) := by
  obtain ⟨w, w', e, h1, h2, -, -, -⟩ := C17_zipped_store zl L H ds
  obtain ⟨w2, e2, h3, h4, h5⟩ := zipped_writeMany ds (ZippedStoreShaWriter.new zl)
  rw [e] at e2
  simp only [Prod.mk.injEq, and_true] at e2
  subst e2
  obtain ⟨a, b⟩ := zippedLife_writes zl ds _ _ _ e
  have happ : ∀ (xs ys : List WriterOp) (s : ZippedLife zl), runWriter ZippedLife.step s (xs ++ ys) =
      ((runWriter ZippedLife.step (runWriter ZippedLife.step s xs).1 ys).1,
        (runWriter ZippedLife.step s xs).2 ++ (runWriter ZippedLife.step (runWriter ZippedLife.step s xs).1 ys).2) := by
    intro xs
    induction xs with
    | nil => intro ys s; rfl
    | cons x xs ih => intro ys s; rw [List.cons_append, runWriter, ih]; rfl
  obtain ⟨c1, c2, c3, c4⟩ := zippedLife_ended zl ops { w := w.close, ended := true } rfl
  refine ⟨(runWriter ZippedLife.step { w := w.close, ended := true } ops).1, ?_, ?_, ?_⟩
  · rw [happ, a, b, runWriter]
    have hc : ZippedLife.step ({ w := w } : ZippedLife zl) .close = ({ w := w.close, ended := true }, .ok none) := rfl
    simp only [hc, c1, List.map_map]
    rfl
  · unfold ZippedStoreShaWriter.getvalue at h2 ⊢
    rw [c3]
    exact h2
  · unfold Sha1Writer.sha
    rw [c4]
    simp only [Bool.false_eq_true, if_false]
    rw [h5, h3]
    rfl

/-- **C17** `FDCompressedSha1Writer` after `close()`, whether it returned or raised: every further `write` and `close` raises
`zlib.error`, nothing more is written to the descriptor, and it stays closed or open as it was. -/
theorem C17_fd_closed (zl : Zlib) (s : FdLife zl) (ops : List WriterOp) :
    (runWriter FdLife.step (s.step .close).1 ops).2 = List.replicate ops.length (.error .zlibError) ∧
    (runWriter FdLife.step (s.step .close).1 ops).1.w.fd = (s.step .close).1.w.fd ∧
    (runWriter FdLife.step (s.step .close).1 ops).1.w.sha1.hashed = s.w.sha1.hashed ++ wanted ops := by
  have he : (s.step .close).1.ended = true := by
    unfold FdLife.step
    by_cases h : s.ended = true
    · simp only [if_pos h]; exact h
    · simp only [if_neg h]
      split <;> rfl
  have hh : (s.step .close).1.w.sha1 = s.w.sha1 := by
    unfold FdLife.step
    by_cases h : s.ended = true
    · simp only [if_pos h]
    · have hs : s.w.close.1.sha1 = s.w.sha1 := by
        unfold FDCompressedSha1Writer.close
        simp only
        split
        · rfl
        · split <;> rfl
      simp only [if_neg h]
      split
      · rename_i w e hc; rw [hc] at hs; exact hs
      · rename_i w hc; rw [hc] at hs; exact hs
  obtain ⟨a, -, c, e⟩ := fdLife_ended zl ops _ he
  exact ⟨a, c, by rw [e, hh]⟩

/-- **C17** a `close()` whose last write fails leaves the descriptor open, and calling it again does not help. -/
theorem C17_fd_close_fails (zl : Zlib) (w : FDCompressedSha1Writer zl) (hc : w.fd.closed = false) (k : Nat) (p : List WriteOutcome)
    (hp : w.fd.plan = .fail :: p ∨ (w.fd.plan = .short k :: p ∧ k < (zl.cflush w.zip).length)) (ops : List WriterOp) :
    ∃ s, FdLife.step { w := w } .close = (s, .error .osError) ∧ (runWriter FdLife.step s ops).1.w.fd.closed = false ∧
      (runWriter FdLife.step s ops).2 = List.replicate ops.length (.error .zlibError) := by
  have h1 : ∃ w', w.close = (w', .error .osError) ∧ w'.fd.closed = false := by
    unfold FDCompressedSha1Writer.close Fd.write
    rcases hp with hp | ⟨hp, hk⟩
    · simp only [hc, hp, Bool.false_eq_true, if_false]
      exact ⟨_, rfl, rfl⟩
    · simp only [hc, hp, Bool.false_eq_true, if_false]
      rw [if_pos (by omega)]
      exact ⟨_, rfl, rfl⟩
  obtain ⟨w', e1, e2⟩ := h1
  have hst : FdLife.step ({ w := w } : FdLife zl) .close = ({ w := w', ended := true }, .error .osError) := by
    unfold FdLife.step
    simp only [Bool.false_eq_true, if_false, e1]
  obtain ⟨a, -, c, -⟩ := fdLife_ended zl ops { w := w', ended := true } rfl
  exact ⟨_, hst, by rw [c]; exact e2, a⟩

/-! ## Examples -/

example : (runWriter ZippedLife.step { w := ZippedStoreShaWriter.new toyZlib } [.write [1, 2], .close, .write [3], .close]).2 =
    [.ok (some 2), .ok none, .error .zlibError, .error .zlibError] := by decide
example : (runWriter FdLife.step { w := FDCompressedSha1Writer.new toyZlib { plan := [.full, .fail] } } [.write [1, 2], .close, .close]).2 =
    [.ok (some 2), .error .osError, .error .zlibError] := by decide
example : (runWriter FdLife.step { w := FDCompressedSha1Writer.new toyZlib { plan := [.full, .fail] } } [.write [1, 2], .close, .close]).1.w.fd.closed =
    false := by decide
example : wanted [.write [1], .close, .write [2]] = [1, 2] := rfl

end GitDB.Props
