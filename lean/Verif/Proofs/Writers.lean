import Verif.Model.Writers
import Verif.Spec.Zip
/-!
# Lemmas about the writers
-/
set_option autoImplicit false

namespace GitDB
open Spec

theorem BytesIO.write_end (b : BytesIO) (d : Bytes) (h : b.pos = b.data.length) :
    b.write d = { data := b.data ++ d, pos := (b.data ++ d).length } := by
  unfold BytesIO.write
  split
  · rename_i hd; subst hd; cases b; simp_all
  · rw [h]
    simp only [Nat.sub_self, List.replicate_zero, List.append_nil, List.take_length,
      List.length_append]
    rw [List.drop_eq_nil_of_le (by omega), List.append_nil]

theorem BytesIO.write_append (b : BytesIO) (c d : Bytes) : (b.write c).write d = b.write (c ++ d) := by
  unfold BytesIO.write
  by_cases hc : c = []
  · subst hc; simp
  · by_cases hd : d = []
    · subst hd; simp [hc]
    · rw [if_neg hc, if_neg (by simpa using hd), if_neg (by simp [hc])]
      have hl : (b.data.take b.pos ++ List.replicate (b.pos - b.data.length) 0 ++ c).length =
          b.pos + c.length := by
        simp only [List.length_append, List.length_take, List.length_replicate]; omega
      have h1 : (b.data.take b.pos ++ List.replicate (b.pos - b.data.length) 0 ++ c ++
          b.data.drop (b.pos + c.length)).take (b.pos + c.length) =
          b.data.take b.pos ++ List.replicate (b.pos - b.data.length) 0 ++ c := by
        rw [← hl, List.take_left]
      have h2 : (b.data.take b.pos ++ List.replicate (b.pos - b.data.length) 0 ++ c ++
          b.data.drop (b.pos + c.length)).drop (b.pos + c.length + d.length) =
          b.data.drop (b.pos + (c ++ d).length) := by
        rw [← hl, ← List.drop_drop, List.drop_left, List.drop_drop, hl, List.length_append]
        congr 1; omega
      have h3 : b.pos + c.length - (b.data.take b.pos ++ List.replicate (b.pos - b.data.length) 0 ++ c ++
          b.data.drop (b.pos + c.length)).length = 0 := by
        rw [List.length_append, hl]; omega
      simp only [h1, h2, h3, List.replicate_zero, List.append_nil]
      simp only [List.append_assoc, List.length_append, Nat.add_assoc]

theorem sha1_writeMany (ds : List Bytes) : ∀ w : Sha1Writer,
    writeMany Sha1Writer.write w ds = ({ hashed := w.hashed ++ ds.flatten }, .ok (ds.map List.length)) := by
  induction ds with
  | nil => intro w; simp [writeMany]
  | cons d ds ih => intro w; simp [writeMany, Sha1Writer.write, ih]

theorem zipped_writeMany {zl : Zlib} (ds : List Bytes) : ∀ w : ZippedStoreShaWriter zl,
    ∃ w', writeMany ZippedStoreShaWriter.write w ds = (w', .ok (ds.map List.length)) ∧
      w'.sha1.hashed = w.sha1.hashed ++ ds.flatten ∧
      w'.close.buf = w.buf.write (zl.emit w.zip ds) ∧ w'.close.sha1 = w'.sha1 := by
  induction ds with
  | nil => intro w; exact ⟨w, rfl, by simp, rfl, rfl⟩
  | cons d ds ih =>
    intro w
    obtain ⟨w', e, h1, h2, h3⟩ := ih (w.write d).1
    refine ⟨w', ?_, ?_, ?_, h3⟩
    · simp only [writeMany]
      rw [show w.write d = ((w.write d).1, .ok d.length) from rfl]
      simp only [e, List.map_cons]
    · rw [h1]; simp [ZippedStoreShaWriter.write, Sha1Writer.write]
    · rw [h2]; simp only [ZippedStoreShaWriter.write, BytesIO.write_append, Zlib.emit]

theorem Fd.write_ok {f f' : Fd} {d : Bytes} (h : f.write d = (f', .ok d.length)) :
    f'.content = f.content ++ d ∧ f'.closed = f.closed ∧ f.closed = false := by
  unfold Fd.write at h
  split at h
  · simp at h
  · rename_i hcl
    split at h <;> simp only [Prod.mk.injEq, Except.ok.injEq, reduceCtorEq, and_false] at h
    · obtain ⟨rfl, _⟩ := h; simp_all [Fd.content]
    · obtain ⟨rfl, _⟩ := h; simp_all [Fd.content]
    · obtain ⟨rfl, hk⟩ := h
      rename_i k p hp
      rw [List.take_of_length_le (by omega)]
      simp_all [Fd.content]

theorem fd_writeMany {zl : Zlib} (ds : List Bytes) : ∀ (w w' w'' : FDCompressedSha1Writer zl)
    (rs : List Nat), writeMany FDCompressedSha1Writer.write w ds = (w', .ok rs) →
    w'.close = (w'', .ok ()) →
    rs = ds.map List.length ∧ w''.sha1.hashed = w.sha1.hashed ++ ds.flatten ∧
      w''.fd.content = w.fd.content ++ zl.emit w.zip ds ∧ w''.fd.closed = true := by
  induction ds with
  | nil =>
    intro w w' w'' rs h1 h2
    simp only [writeMany, Prod.mk.injEq, Except.ok.injEq] at h1
    obtain ⟨rfl, rfl⟩ := h1
    unfold FDCompressedSha1Writer.close at h2
    simp only at h2
    rcases hw : w.fd.write (zl.cflush w.zip) with ⟨f, e | n⟩
    · rw [hw] at h2; simp at h2
    · rw [hw] at h2
      simp only at h2
      split at h2
      · simp at h2
      · rename_i hn
        have hn' : n = (zl.cflush w.zip).length := by omega
        subst hn'
        obtain ⟨k1, k2, k3⟩ := Fd.write_ok hw
        simp only [Prod.mk.injEq] at h2
        obtain ⟨rfl, _⟩ := h2
        refine ⟨rfl, by simp, ?_, ?_⟩
        · simp only [Zlib.emit]; unfold Fd.close; split <;> exact k1
        · unfold Fd.close; simp [k2, k3]
  | cons d ds ih =>
    intro w w' w'' rs h1 h2
    simp only [writeMany] at h1
    rcases hw : w.write d with ⟨w1, e | n⟩
    · rw [hw] at h1; simp at h1
    · rw [hw] at h1
      simp only at h1
      rcases hm : writeMany FDCompressedSha1Writer.write w1 ds with ⟨w2, e | rs'⟩
      · rw [hm] at h1; simp at h1
      · rw [hm] at h1
        simp only [Prod.mk.injEq, Except.ok.injEq] at h1
        obtain ⟨rfl, rfl⟩ := h1
        obtain ⟨k1, k2, k3, k4⟩ := ih w1 w2 w'' rs' hm h2
        unfold FDCompressedSha1Writer.write at hw
        simp only at hw
        rcases hf : w.fd.write (zl.ccompress w.zip d).2 with ⟨f, e | n'⟩
        · rw [hf] at hw; simp at hw
        · rw [hf] at hw
          simp only at hw
          split at hw
          · simp at hw
          · rename_i hn
            have hn' : n' = (zl.ccompress w.zip d).2.length := by omega
            subst hn'
            obtain ⟨j1, _, _⟩ := Fd.write_ok hf
            simp only [Prod.mk.injEq, Except.ok.injEq] at hw
            obtain ⟨rfl, rfl⟩ := hw
            refine ⟨by simp [k1], ?_, ?_, k4⟩
            · rw [k2]; simp [Sha1Writer.write]
            · rw [k3]; simp only [j1, Zlib.emit, List.append_assoc]

end GitDB
