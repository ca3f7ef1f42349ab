import Verif.Proofs.Writers
import Verif.Proofs.Copy
import Verif.Proofs.ToyZlib
/-!
# C17: writers hash and store exactly what was written
-/
set_option autoImplicit false

namespace GitDB.Props
open GitDB Spec

/-- **C17** `Sha1Writer`: the digest depends only on the concatenation of the data written, and every
call returns the length of its argument. -/
theorem C17_sha1_writer (H : Hash) (ds : List Bytes) :
    ∃ w, writeMany Sha1Writer.write {} ds = (w, .ok (ds.map List.length)) ∧
      w.sha H false = H.digest ds.flatten ∧ w.sha H true = binToHex (H.digest ds.flatten) :=
  ⟨_, sha1_writeMany ds {}, by simp [Sha1Writer.sha], by simp [Sha1Writer.sha]⟩

/-- **C17** `FlexibleSha1Writer` around any write function: the function sees exactly the calls it would
have seen without the wrapper, its exceptions come through, and the digest is that of the data
of all calls made (including a failing last one). -/
theorem C17_flexible_writer {ω ρ : Type} (H : Hash) (wr : ω → Bytes → ω × Res ρ) (ds : List Bytes)
    (i : ω) :
    let r := writeMany (FlexibleSha1Writer.write wr) { inner := i } ds
    let plain := writeMany wr i ds
    r.1.inner = plain.1 ∧ (∀ e, r.2 = .error e ↔ plain.2 = .error e) ∧
      (∀ rs, r.2 = .ok rs → r.1.sha1.sha H false = H.digest ds.flatten ∧
        rs = List.replicate ds.length none) := by
  suffices h : ∀ (ds : List Bytes) (w : FlexibleSha1Writer ω),
      (writeMany (FlexibleSha1Writer.write wr) w ds).1.inner = (writeMany wr w.inner ds).1 ∧
      (∀ e, (writeMany (FlexibleSha1Writer.write wr) w ds).2 = .error e ↔
        (writeMany wr w.inner ds).2 = .error e) ∧
      (∀ rs, (writeMany (FlexibleSha1Writer.write wr) w ds).2 = .ok rs →
        (writeMany (FlexibleSha1Writer.write wr) w ds).1.sha1.hashed = w.sha1.hashed ++ ds.flatten ∧
        rs = List.replicate ds.length none) by
    obtain ⟨h1, h2, h3⟩ := h ds { inner := i }
    refine ⟨h1, h2, fun rs hrs => ?_⟩
    obtain ⟨h4, h5⟩ := h3 rs hrs
    exact ⟨by simp [Sha1Writer.sha, h4], h5⟩
  intro ds
  induction ds with
  | nil => intro w; simp [writeMany]
  | cons d ds ih =>
    intro w
    rcases hw : wr w.inner d with ⟨i', e | r⟩
    · have : FlexibleSha1Writer.write wr w d = ({ sha1 := (w.sha1.write d).1, inner := i' }, .error e) := by
        simp [FlexibleSha1Writer.write, hw]
      simp [writeMany, this, hw]
    · have : FlexibleSha1Writer.write wr w d = ({ sha1 := (w.sha1.write d).1, inner := i' }, .ok none) := by
        simp [FlexibleSha1Writer.write, hw]
      obtain ⟨h1, h2, h3⟩ := ih { sha1 := (w.sha1.write d).1, inner := i' }
      simp only [writeMany, this, hw]
      rcases hA : writeMany (FlexibleSha1Writer.write wr) { sha1 := (w.sha1.write d).1, inner := i' } ds with
        ⟨a, e | rs⟩ <;>
      rcases hB : writeMany wr i' ds with ⟨b, e' | rs'⟩ <;>
      simp only [hA, hB] at h1 h2 h3 ⊢
      · refine ⟨h1, h2, fun rs h => by simp at h⟩
      · exact absurd ((h2 e).1 rfl) (by simp)
      · exact absurd ((h2 e').2 rfl) (by simp)
      · refine ⟨h1, fun e => by simp, fun rs' h => ?_⟩
        obtain ⟨k1, k2⟩ := h3 rs rfl
        simp only [Except.ok.injEq] at h
        rw [← h, k1, k2]
        simp [Sha1Writer.write, List.replicate_succ]

/-- **C17** `ZippedStoreShaWriter`: after any writes and `close`, `getvalue()` (and `read()` after
`seek(0)`) is a complete compressed stream for the data written, and the digest is right. -/
theorem C17_zipped_store (zl : Zlib) (L : ZlibLaws zl) (H : Hash) (ds : List Bytes) :
    ∃ w w', writeMany ZippedStoreShaWriter.write (ZippedStoreShaWriter.new zl) ds =
        (w, .ok (ds.map List.length)) ∧
      w.close.sha1.sha H false = H.digest ds.flatten ∧
      IsZip zl w.close.getvalue w.close.getvalue.length ds.flatten ∧
      w.close.seek 0 0 = (w', .ok ()) ∧ (w'.read (-1)).2 = w.close.getvalue ∧
      w'.getvalue = w.close.getvalue := by
  obtain ⟨w, e, h1, h2, h3⟩ := zipped_writeMany ds (ZippedStoreShaWriter.new zl)
  have hv : w.close.getvalue = zl.emit (zl.cinit 1) ds := by
    unfold ZippedStoreShaWriter.getvalue
    rw [h2, BytesIO.write_end _ _ rfl]
    rfl
  refine ⟨w, { w.close with buf := { w.close.buf with pos := 0 } }, e, ?_, ?_, rfl, ?_, rfl⟩
  · unfold Sha1Writer.sha
    rw [h3, h1]; rfl
  · rw [hv]
    exact ⟨L.emit_stop 1 ds, L.emit_out 1 ds⟩
  · simp [ZippedStoreShaWriter.read, BytesIO.read, ZippedStoreShaWriter.getvalue]

/-- **C17** `FDCompressedSha1Writer`: whatever the operating system does with the writes, if every
`write` and the `close` return, the new file consists of a complete compressed stream for exactly the data
written, the descriptor is closed and the digest is that of the data. -/
theorem C17_fd_writer (zl : Zlib) (L : ZlibLaws zl) (H : Hash) (plan : List WriteOutcome)
    (ds : List Bytes) (w w' : FDCompressedSha1Writer zl) (rs : List Nat)
    (h1 : writeMany FDCompressedSha1Writer.write (FDCompressedSha1Writer.new zl { plan := plan }) ds =
      (w, .ok rs)) (h2 : w.close = (w', .ok ())) :
    IsZip zl w'.fd.content w'.fd.content.length ds.flatten ∧ w'.fd.closed = true ∧
      w'.sha1.sha H false = H.digest ds.flatten ∧ rs = ds.map List.length := by
  obtain ⟨k1, k2, k3, k4⟩ := fd_writeMany ds _ _ _ _ h1 h2
  have hc : w'.fd.content = zl.emit (zl.cinit 1) ds := by
    rw [k3]; simp [FDCompressedSha1Writer.new, Fd.content]
  refine ⟨?_, k4, ?_, k1⟩
  · rw [hc]; exact ⟨L.emit_stop 1 ds, L.emit_out 1 ds⟩
  · simp [Sha1Writer.sha, k2, FDCompressedSha1Writer.new]

/-- **C17** `FDCompressedSha1Writer`: when the operating system misbehaves on one of the writes (writes less than given,
or fails), one of the calls raises; so a normal return is possible only for a complete file. -/
theorem C17_fd_writer_detects (zl : Zlib) (w : FDCompressedSha1Writer zl) (d : Bytes) (k : Nat)
    (p : List WriteOutcome) (hp : w.fd.plan = .short k :: p ∨ w.fd.plan = .fail :: p)
    (hk : k < (zl.ccompress w.zip d).2.length) :
    (w.write d).2 = .error .osError := by
  unfold FDCompressedSha1Writer.write
  simp only
  by_cases hc : w.fd.closed = true
  · simp [Fd.write, hc]
  · rcases hp with hp | hp
    · have : w.fd.write (zl.ccompress w.zip d).2 = ({ w.fd with
          chunks := w.fd.chunks ++ [(zl.ccompress w.zip d).2.take k], plan := p },
          .ok (min k (zl.ccompress w.zip d).2.length)) := by
        simp [Fd.write, hc, hp]
      rw [this]
      simp only
      rw [if_pos (by omega)]
    · simp [Fd.write, hc, hp]

/-- **C17** with a cooperating operating system all calls return (so the hypotheses of `C17_fd_writer` are
always reachable). -/
theorem C17_fd_writer_succeeds (zl : Zlib) (ds : List Bytes) :
    ∃ w w', writeMany FDCompressedSha1Writer.write (FDCompressedSha1Writer.new zl {}) ds =
      (w, .ok (ds.map List.length)) ∧ w.close = (w', .ok ()) := by
  suffices h : ∀ (ds : List Bytes) (w0 : FDCompressedSha1Writer zl), w0.fd.plan = [] →
      w0.fd.closed = false → ∃ w w', writeMany FDCompressedSha1Writer.write w0 ds =
      (w, .ok (ds.map List.length)) ∧ w.close = (w', .ok ()) from h ds _ rfl rfl
  intro ds
  induction ds with
  | nil =>
    intro w0 h1 h2
    have : w0.fd.write (zl.cflush w0.zip) =
        ({ w0.fd with chunks := w0.fd.chunks ++ [zl.cflush w0.zip] }, .ok (zl.cflush w0.zip).length) := by
      simp [Fd.write, h1, h2]
    refine ⟨w0, w0.close.1, rfl, Prod.ext rfl ?_⟩
    unfold FDCompressedSha1Writer.close
    simp only [this]
    rw [if_neg (by simp)]
    simp [Fd.close, h2]
  | cons d ds ih =>
    intro w0 h1 h2
    have hw : w0.fd.write (zl.ccompress w0.zip d).2 = ({ w0.fd with
        chunks := w0.fd.chunks ++ [(zl.ccompress w0.zip d).2] }, .ok (zl.ccompress w0.zip d).2.length) := by
      simp [Fd.write, h1, h2]
    have : w0.write d = ({ sha1 := (w0.sha1.write d).1, fd := { w0.fd with
        chunks := w0.fd.chunks ++ [(zl.ccompress w0.zip d).2] }, zip := (zl.ccompress w0.zip d).1 },
        .ok d.length) := by
      unfold FDCompressedSha1Writer.write
      simp only [hw]
      rw [if_neg (by simp)]
    obtain ⟨w, w', e, hc⟩ := ih { sha1 := (w0.sha1.write d).1, fd := { w0.fd with
        chunks := w0.fd.chunks ++ [(zl.ccompress w0.zip d).2] }, zip := (zl.ccompress w0.zip d).1 } h1 h2
    exact ⟨w, w', by simp only [writeMany, this, e, List.map_cons], hc⟩

/-- **C17** `FDStream`, in contrast, does not notice: the position advances by the full length although
only `k` bytes were written. -/
theorem C17_fd_stream_unchecked (k : Nat) (d : Bytes) (hk : k < d.length) :
    ∃ s, (FDStream.write { fd := { plan := [.short k] } } d) = (s, .ok none) ∧
      s.pos = d.length ∧ s.fd.content.length < d.length := by
  refine ⟨_, rfl, by simp, ?_⟩
  simp [Fd.content]
  omega

/-- **C17** writing after a rewind overwrites the beginning (documented: "multiple writes are not
supported"); the stored stream is then not the compression of what was hashed. -/
theorem C17_write_after_seek_corrupts :
    ∃ (w : ZippedStoreShaWriter toyZlib),
      w = ((((ZippedStoreShaWriter.new toyZlib).write [1, 2]).1.seek 0 0).1.write [3]).1.close ∧
      w.sha1.hashed = [1, 2, 3] ∧ toyZlib.out w.getvalue ≠ [1, 2, 3] :=
  ⟨_, rfl, by decide, by decide⟩

/-- An example hash (20 bytes: the length and the first bytes). -/
def exHash : Hash where
  digest x := (UInt8.ofNat x.length :: x ++ List.replicate 20 0).take 20
  len x := by simp

example : (writeMany FDCompressedSha1Writer.write (FDCompressedSha1Writer.new toyZlib
    { plan := [.full, .short 100] }) [[1, 2], [3], [255]]).1.close.1.fd.content ≠ [] := by decide
example : (writeMany FDCompressedSha1Writer.write (FDCompressedSha1Writer.new toyZlib
    { plan := [.full, .short 0] }) [[1, 2], [3], [255]]).2 = .error .osError := by decide
example : (writeMany Sha1Writer.write {} [[1, 2], [], [3]]).1.sha exHash false =
    [3, 1, 2, 3] ++ List.replicate 16 0 := by decide

end GitDB.Props
