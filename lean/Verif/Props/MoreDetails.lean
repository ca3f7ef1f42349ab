import Verif.Props.Pack
import Verif.Props.LockedFD
import Verif.Props.Values
import Verif.Props.Writers
import Verif.Props.Decomp
/-!
# C12, C17, C18, C29, C48, C60: more details
-/
set_option autoImplicit false

namespace GitDB.Props
open GitDB Spec

/-! ## C18, C29: exceptions of the output -/

section
variable {σ ω ω₂ ρ ρ₂ : Type}

/-- The writer with a list of the exceptions it has raised. -/
def noting (write : ω → Bytes → ω × Res ρ) (s : ω × List Err) (d : Bytes) : (ω × List Err) × Res ρ :=
  match write s.1 d with
  | (w, .ok r) => ((w, s.2), .ok r)
  | (w, .error e) => ((w, s.2 ++ [e]), .error e)

/-- No exception was raised, or one, which is the result. -/
def PassedOn {α : Type} (notes : List Err) (r : Res α) : Prop := notes = [] ∨ ∃ e, notes = [e] ∧ r = .error e

theorem passed_noting (write : ω → Bytes → ω × Res ρ) (s : ω × List Err) (d : Bytes) (h : s.2 = []) :
    PassedOn (noting write s d).1.2 (noting write s d).2 := by
  unfold noting
  rcases write s.1 d with ⟨w, e | r⟩
  · exact .inr ⟨e, by simp [h], rfl⟩
  · exact .inl h

theorem passed_ok {α : Type} {n : List Err} {a : α} (h : PassedOn n (.ok a)) : n = [] := by
  rcases h with h | ⟨e, _, h⟩
  · exact h
  · cases h

theorem passed_error {α β : Type} {n : List Err} {e : Err} (h : PassedOn (α := α) n (.error e)) : PassedOn (α := β) n (.error e) := by
  rcases h with h | ⟨e', h1, h2⟩
  · exact .inl h
  · cases h2; exact .inr ⟨_, h1, rfl⟩

theorem passed_flexible (write : ω → Bytes → ω × Res ρ) (f : FlexibleSha1Writer (ω × List Err)) (d : Bytes) (h : f.inner.2 = []) :
    PassedOn (FlexibleSha1Writer.write (noting write) f d).1.inner.2 (FlexibleSha1Writer.write (noting write) f d).2 := by
  have := passed_noting write f.inner d h
  unfold FlexibleSha1Writer.write
  dsimp only
  rcases hw : noting write f.inner d with ⟨s, e | r⟩
  · rw [hw] at this; exact passed_error this
  · rw [hw] at this; exact .inl (passed_ok this)

theorem passed_steps (write : ω → Bytes → ω × Res ρ) : ∀ (l : List (Res Bytes)) (f : FlexibleSha1Writer (ω × List Err)), f.inner.2 = [] →
    PassedOn (writeSteps (FlexibleSha1Writer.write (noting write)) f l).1.inner.2
      (writeSteps (FlexibleSha1Writer.write (noting write)) f l).2
  | [], _, h => .inl h
  | .error e :: _, _, h => .inl h
  | .ok d :: l, f, h => by
    have := passed_flexible write f d h
    unfold writeSteps
    rcases hw : FlexibleSha1Writer.write (noting write) f d with ⟨s, e | r⟩
    · rw [hw] at this; exact passed_error this
    · rw [hw] at this; exact passed_steps write l s (passed_ok this)

/-- **C18** an exception of the function that writes the index ends the writing and is passed on; in particular none is
raised if the index is written. -/
theorem C18_write_fails (write : ω → Bytes → ω × Res ρ) (H : Hash) (objs : List IdxObj) (packSha : Bytes) (w : ω) :
    PassedOn (indexWrite H objs packSha (noting write) (w, [])).1.2 (indexWrite H objs packSha (noting write) (w, [])).2 := by
  have h1 := passed_steps write (indexSteps (sortObjs objs) packSha) { inner := (w, []) } rfl
  unfold indexWrite
  rcases hs : writeSteps (FlexibleSha1Writer.write (noting write)) { inner := (w, []) } (indexSteps (sortObjs objs) packSha) with ⟨f, e | r⟩
  · rw [hs] at h1; exact passed_error h1
  · rw [hs] at h1
    dsimp only
    have h2 := passed_noting write f.inner (f.sha1.sha H false) (passed_ok h1)
    rcases hw : noting write f.inner (f.sha1.sha H false) with ⟨s, e | r⟩
    · rw [hw] at h2; exact passed_error h2
    · rw [hw] at h2; exact .inl (passed_ok h2)

theorem passed_copy (zl : Zlib) (read : σ → Int → σ × Res Bytes) (write : ω → Bytes → ω × Res ρ) : ∀ (fuel : Nat) (s : σ)
    (f : FlexibleSha1Writer (ω × List Err)) (z : zl.Comp) (br bw : Nat) (crc : Option Nat), f.inner.2 = [] →
    PassedOn (packCopyLoop zl read (FlexibleSha1Writer.write (noting write)) fuel s f z br bw crc).2.1.inner.2
      (packCopyLoop zl read (FlexibleSha1Writer.write (noting write)) fuel s f z br bw crc).2.2
  | 0, _, _, _, _, _, _, h => .inl h
  | fuel + 1, s, f, z, br, bw, crc, h => by
    unfold packCopyLoop
    rcases hr : read s chunkSize with ⟨s', e | chunk⟩
    · exact .inl h
    · dsimp only
      have := passed_flexible write f (zl.ccompress z chunk).2 h
      rcases hw : FlexibleSha1Writer.write (noting write) f (zl.ccompress z chunk).2 with ⟨f', e | r⟩
      · rw [hw] at this; exact passed_error this
      · rw [hw] at this
        dsimp only
        split
        · exact .inl (passed_ok this)
        · exact passed_copy zl read write fuel s' f' _ _ _ _ (passed_ok this)

theorem passed_stream (zl : Zlib) (read : σ → Int → σ × Res Bytes) (write : ω → Bytes → ω × Res ρ) (fuel : Nat) (s : σ)
    (f : FlexibleSha1Writer (ω × List Err)) (z : zl.Comp) (crc : Option Nat) (h : f.inner.2 = []) :
    PassedOn (writeStreamToPack zl fuel read (FlexibleSha1Writer.write (noting write)) z crc s f).2.1.inner.2
      (writeStreamToPack zl fuel read (FlexibleSha1Writer.write (noting write)) z crc s f).2.2 := by
  have h1 := passed_copy zl read write fuel s f z 0 0 crc h
  unfold writeStreamToPack
  rcases hc : packCopyLoop zl read (FlexibleSha1Writer.write (noting write)) fuel s f z 0 0 crc with ⟨s', f', e | ⟨br, bw, crc', z'⟩⟩
  · rw [hc] at h1; exact passed_error h1
  · rw [hc] at h1
    dsimp only
    have := passed_flexible write f' (zl.cflush z') (passed_ok h1)
    rcases hw : FlexibleSha1Writer.write (noting write) f' (zl.cflush z') with ⟨f2, e | r⟩
    · rw [hw] at this; exact passed_error this
    · rw [hw] at this; exact .inl (passed_ok this)

theorem passed_objects (zl : Zlib) (read : σ → Int → σ × Res Bytes) (write : ω → Bytes → ω × Res ρ) (fuel : Nat) (level : Int)
    (b : Bool) (count : Nat) : ∀ (objs : List (PackIn σ)) (f : FlexibleSha1Writer (ω × List Err)) (actual ofs : Nat) (idx : List IdxObj),
    f.inner.2 = [] → PassedOn (packObjects zl fuel read (noting write) level b count objs f actual ofs idx).1.inner.2
      (packObjects zl fuel read (noting write) level b count objs f actual ofs idx).2
  | [], _, _, _, _, h => .inl h
  | obj :: objs, f, actual, ofs, idx, h => by
    unfold packObjects
    dsimp only
    rcases hh : createPackObjectHeader obj.typeId obj.size with e | hdr
    · exact .inl h
    · dsimp only
      have h1 := passed_flexible write f hdr h
      rcases hw : FlexibleSha1Writer.write (noting write) f hdr with ⟨f1, e | r⟩
      · rw [hw] at h1; exact passed_error h1
      · rw [hw] at h1
        dsimp only
        generalize (if b = true then some (crc32 hdr 0) else none) = crc
        have h2 := passed_stream zl read write fuel obj.strm f1 (zl.cinit level) crc (passed_ok h1)
        rcases hs : writeStreamToPack zl fuel read (FlexibleSha1Writer.write (noting write)) (zl.cinit level) crc obj.strm f1 with
          ⟨s', f2, e | ⟨br, bw, crc'⟩⟩
        · rw [hs] at h2; exact passed_error h2
        · rw [hs] at h2
          have h3 := passed_ok h2
          dsimp only at h3 ⊢
          split
          · exact .inl h3
          · split
            · exact .inl h3
            · exact passed_objects zl read write fuel level b count objs f2 _ _ _ h3

/-- **C29** an exception of one of the two functions that a pack is written with ends the writing and is passed on; at most one
of them raises one. -/
theorem C29_write_fails (H : Hash) (zl : Zlib) (fuel : Nat) (read : σ → Int → σ × Res Bytes) (packWrite : ω → Bytes → ω × Res ρ)
    (idxWrite : ω₂ → Bytes → ω₂ × Res ρ₂) (objs : List (PackIn σ)) (count : Option Nat) (level : Int) (w : ω) (iw : ω₂) :
    let r := writePack H zl fuel read (noting packWrite) (some (noting idxWrite)) objs count level (w, []) (iw, [])
    PassedOn (r.1.2 ++ r.2.1.2) r.2.2 := by
  intro r
  show PassedOn (r.1.2 ++ r.2.1.2) r.2.2
  have hr : r = writePack H zl fuel read (noting packWrite) (some (noting idxWrite)) objs count level (w, []) (iw, []) := rfl
  unfold writePack at hr
  dsimp only at hr
  rcases h0 : packLLL packSignature 2 (packCount count objs.length) with e | hdr
  · simp only [h0] at hr; rw [hr]; exact .inl rfl
  · simp only [h0] at hr
    have h1 := passed_flexible packWrite { inner := (w, []) } hdr rfl
    rcases hw : FlexibleSha1Writer.write (noting packWrite) { inner := (w, []) } hdr with ⟨f, e | _⟩
    · rw [hw] at h1; simp only [hw] at hr; rw [hr]; simp only [List.append_nil]; exact passed_error h1
    · rw [hw] at h1; simp only [hw] at hr
      have h2 := passed_objects zl read packWrite fuel level (some (noting idxWrite)).isSome (packCount count objs.length) objs f 0 12 [] (passed_ok h1)
      rcases ho : packObjects zl fuel read (noting packWrite) level (some (noting idxWrite)).isSome (packCount count objs.length) objs f 0 12 [] with
        ⟨f1, e | ⟨actual, idx⟩⟩
      · rw [ho] at h2; simp only [ho] at hr; rw [hr]; simp only [List.append_nil]; exact passed_error h2
      · rw [ho] at h2; simp only [ho] at hr
        have h2' := passed_ok h2
        dsimp only at h2'
        by_cases hc : actual = packCount count objs.length
        · rw [if_neg (fun h => h hc)] at hr
          have h3 := passed_noting packWrite f1.inner (f1.sha1.sha H false) h2'
          rcases hp : noting packWrite f1.inner (f1.sha1.sha H false) with ⟨s, e | _⟩
          · rw [hp] at h3; simp only [hp] at hr; rw [hr]; simp only [List.append_nil]; exact passed_error h3
          · rw [hp] at h3; simp only [hp] at hr
            have h3' := passed_ok h3
            dsimp only at h3'
            have h4 := C18_write_fails idxWrite H idx (f1.sha1.sha H false) iw
            rcases hi : indexWrite H idx (f1.sha1.sha H false) (noting idxWrite) (iw, []) with ⟨s2, e | _⟩
            · rw [hi] at h4; simp only [hi] at hr; rw [hr]; simp only [h3', List.nil_append]; exact passed_error h4
            · rw [hi] at h4; simp only [hi] at hr; rw [hr]; simp only [h3', List.nil_append]; exact .inl (passed_ok h4)
        · rw [if_pos hc] at hr; rw [hr]; simp only [List.append_nil]; exact .inl h2'

/-- A disk that is full after some bytes. -/
def fullAfter (n : Nat) (w d : Bytes) : Bytes × Res Unit := if (w ++ d).length ≤ n then (w ++ d, .ok ()) else (w, .error .osError)

/-- Without entries the trailer is written at 1052: enough for everything but the last checksum. -/
example (H : Hash) : indexWrite H [] (List.replicate 20 7) (noting (fullAfter 1060)) ([], []) =
    (((indexWrite H [] (List.replicate 20 7) (noting (fullAfter 1060)) ([], [])).1.1, [.osError]), .error .osError) := by
  have h := C18_write_fails (fullAfter 1060) H [] (List.replicate 20 7) []
  have hl := H.len
  have key : ∀ s : Bytes, s.length = 20 → ∀ b : Bytes, b.length = 1052 → fullAfter 1060 b s = (b, .error .osError) := by
    intro s hs b hb
    unfold fullAfter
    rw [if_neg (by rw [List.length_append]; omega)]
  have hst : (writeSteps (FlexibleSha1Writer.write (noting (fullAfter 1060))) { inner := (([] : Bytes), []) }
      (indexSteps (sortObjs []) (List.replicate 20 7))).2 = .ok () ∧
      (writeSteps (FlexibleSha1Writer.write (noting (fullAfter 1060))) { inner := (([] : Bytes), []) }
      (indexSteps (sortObjs []) (List.replicate 20 7))).1.inner.1.length = 1052 ∧ (writeSteps (FlexibleSha1Writer.write (noting (fullAfter 1060))) { inner := (([] : Bytes), []) }
      (indexSteps (sortObjs []) (List.replicate 20 7))).1.inner.2 = [] := by decide +kernel
  unfold indexWrite at h ⊢
  rcases hs : writeSteps (FlexibleSha1Writer.write (noting (fullAfter 1060))) { inner := (([] : Bytes), []) }
      (indexSteps (sortObjs []) (List.replicate 20 7)) with ⟨f, e | _⟩
  · rw [hs] at hst; exact absurd hst.1 (by simp)
  · rw [hs] at hst
    have hn : noting (fullAfter 1060) f.inner (f.sha1.sha H false) = ((f.inner.1, [.osError]), .error .osError) := by
      unfold noting
      rw [key _ (by simp [Sha1Writer.sha, hl]) _ hst.2.1]
      have := hst.2.2
      dsimp only at this
      simp [this]
    simp only [hn]
end

/-! ## C48 -/

/-- **C48** the lock of a file is the file beside it whose name has `.lock` appended. -/
theorem C48_lock_name (dir : Path) (name : Bytes) :
    lockPath (dir ++ [name]) = dir ++ [name ++ ".lock".toUTF8.toList] := by
  have : dotLock = ".lock".toUTF8.toList := by decide +kernel
  unfold lockPath
  rw [List.getLast?_append, List.dropLast_concat, this]
  rfl

/-! ## C60 -/

/-- **C60** a `type_id` that is no number has no type: `KeyError`. -/
theorem C60_type_unknown {V : Type} (sizeOf : V → Res Nat) (off size : PyVal V) (v : PyVal V) (h : ∀ n, v ≠ .int n) :
    (newOPackInfo off v size).attr sizeOf .type = .error .keyError := by
  cases v with
  | int n => exact absurd rfl (h n)
  | _ => rfl

/-! ## C17 -/

/-- The compressed bytes in memory have been read up to `rem`. -/
def ZippedLeft {zl : Zlib} (w : ZippedStoreShaWriter zl) (rem : Bytes) : Prop := w.buf.data.drop w.buf.pos = rem

/-- **C17** the compressing writer in memory is read like a file, after `seek(0)` from the beginning of what was written. -/
theorem C17_zipped_reads {zl : Zlib} : FileReads (fun (w : ZippedStoreShaWriter zl) n => ((w.read n).1, .ok (w.read n).2)) ZippedLeft ∧
    ∀ w : ZippedStoreShaWriter zl, ∃ w', w.seek 0 0 = (w', .ok ()) ∧ ZippedLeft w' w.getvalue := by
  refine ⟨⟨⟨fun w rem n h hn => ?_⟩, fun w rem h => ⟨_, rfl, ?_⟩⟩, fun w => ⟨_, rfl, rfl⟩⟩
  · have h0 : ¬ n < 0 := by omega
    unfold ZippedLeft at h
    refine ⟨(w.read n).1, ?_, ?_⟩
    · simp [ZippedStoreShaWriter.read, BytesIO.read, h0, h]
    · simp only [ZippedStoreShaWriter.read, BytesIO.read, h0, if_false, h, ZippedLeft]
      rw [← List.drop_drop, h, List.length_take]
      by_cases hl : n.toNat ≤ rem.length
      · rw [Nat.min_eq_left hl]
      · rw [Nat.min_eq_right (by omega), List.drop_length, List.drop_eq_nil_of_le (by omega)]
  · unfold ZippedLeft at h ⊢
    simpa [ZippedStoreShaWriter.read, BytesIO.read] using h

/-- **C17** a descriptor is closed once: `close` again raises `OSError`, and so does every `write` after it; the file is not changed. -/
theorem C17_closed_once (f : Fd) (d : Bytes) : f.close.1.closed = true ∧ f.close.1.content = f.content ∧
    f.close.1.close = (f.close.1, .error .osError) ∧ f.close.1.write d = (f.close.1, .error .osError) := by
  obtain ⟨c, p, b⟩ := f
  cases b <;> simp [Fd.close, Fd.write, Fd.content]

/-! ## C12 -/

/-- **C12** a reader made with a negative size raises `ValueError` at every `read`. -/
theorem C12_negative_size (zl : Zlib) (m : Bytes) (s : Int) (hs : s < 0) (n : Int) :
    ((Reader.ofSize m s).read zl n).2 = .error .valueError := by
  have hsize : (if n < 1 then s - 0 else min n (s - 0)) < 0 := by split <;> omega
  unfold Reader.read Reader.needS Reader.ofSize
  simp only [if_true]
  generalize hf : Reader.fuel _ = fuel
  obtain ⟨k, rfl⟩ : ∃ k, fuel = k + 1 := ⟨fuel - 1, by rw [← hf]; unfold Reader.fuel; omega⟩
  unfold Reader.readCore
  dsimp only
  generalize (if n < 1 then s - 0 else min n (s - 0)) = size at hsize ⊢
  rw [if_neg (by omega)]
  have hz : ∀ (r : Reader), (r.readZip zl size).2 = .error .valueError := by
    intro r
    unfold Reader.readZip
    dsimp only
    generalize pySlice r.m _ _ = w
    have : r.zip.decompress zl w size = (r.zip, .error .valueError) := by
      unfold ZDec.decompress; rw [if_pos hsize]
    rw [this]
  have := hz { m := m, s := s }
  rcases h : Reader.readZip zl { m := m, s := s } size with ⟨r', e | d⟩
  · rw [h] at this; cases this; rfl
  · rw [h] at this; cases this

example : (-3 : Int) < 0 := by decide

end GitDB.Props
