import Verif.Model.DryRun
import Verif.Props.Loose
import Verif.Props.Writers
import Verif.Proofs.Memory
import Verif.Proofs.ToyZlib
/-!
# C66: storing through an output stream of the caller
-/
set_option autoImplicit false

namespace GitDB.Props
open GitDB Spec

variable {σ ω₁ ω₂ ρ₁ ρ₂ : Type}

/-- Two writers which both accept everything: a copy through one runs as a copy through the other. -/
theorem streamCopyLoop_sim {read : σ → Int → σ × Res Bytes} {write₁ : ω₁ → Bytes → ω₁ × Res ρ₁}
    {write₂ : ω₂ → Bytes → ω₂ × Res ρ₂} (R : ω₁ → ω₂ → Prop)
    (hR : ∀ w₁ w₂ d, R w₁ w₂ → ∃ w₁' r₁ w₂' r₂, write₁ w₁ d = (w₁', .ok r₁) ∧ write₂ w₂ d = (w₂', .ok r₂) ∧ R w₁' w₂')
    (size chunk : Int) : ∀ (fuel : Nat) (dbw : Int) (s : σ) (w₁ : ω₁) (w₂ : ω₂), R w₁ w₂ →
      (streamCopyLoop read write₁ size chunk fuel dbw s w₁).1 = (streamCopyLoop read write₂ size chunk fuel dbw s w₂).1 ∧
      (streamCopyLoop read write₁ size chunk fuel dbw s w₁).2.2 =
        (streamCopyLoop read write₂ size chunk fuel dbw s w₂).2.2 ∧
      R (streamCopyLoop read write₁ size chunk fuel dbw s w₁).2.1
        (streamCopyLoop read write₂ size chunk fuel dbw s w₂).2.1 := by
  intro fuel
  induction fuel with
  | zero => intro dbw s w₁ w₂ h; exact ⟨rfl, rfl, h⟩
  | succ fuel ih =>
    intro dbw s w₁ w₂ h
    simp only [streamCopyLoop]
    rcases hr : read s (min chunk (size - dbw)) with ⟨s1, e | data⟩
    · exact ⟨rfl, rfl, h⟩
    · obtain ⟨w₁', r₁, w₂', r₂, h1, h2, h3⟩ := hR w₁ w₂ data h
      simp only [h1, h2]
      split
      · exact ⟨rfl, rfl, h3⟩
      · exact ih _ _ _ _ h3

theorem writeObject_sim {read : σ → Int → σ × Res Bytes} {write₁ : ω₁ → Bytes → ω₁ × Res (Option Int)}
    {write₂ : ω₂ → Bytes → ω₂ × Res (Option Int)} (R : ω₁ → ω₂ → Prop)
    (hR : ∀ w₁ w₂ d, R w₁ w₂ → ∃ w₁' w₂' n, write₁ w₁ d = (w₁', .ok (some n)) ∧ write₂ w₂ d = (w₂', .ok (some n)) ∧ R w₁' w₂')
    (fuel : Nat) (ty : Bytes) (size : Nat) (chunk : Int) (s : σ) (w₁ : ω₁) (w₂ : ω₂) (h : R w₁ w₂) :
      (writeObject fuel ty size read write₁ chunk s w₁).1 = (writeObject fuel ty size read write₂ chunk s w₂).1 ∧
      (writeObject fuel ty size read write₁ chunk s w₁).2.2 = (writeObject fuel ty size read write₂ chunk s w₂).2.2 ∧
      R (writeObject fuel ty size read write₁ chunk s w₁).2.1 (writeObject fuel ty size read write₂ chunk s w₂).2.1 := by
  unfold writeObject
  rcases looseObjectHeader ty size with e | hdr
  · exact ⟨rfl, rfl, h⟩
  · obtain ⟨w₁', w₂', n, h1, h2, h3⟩ := hR w₁ w₂ hdr h
    simp only [h1, h2]
    obtain ⟨a, b, c⟩ := streamCopyLoop_sim (read := read) R (fun w₁ w₂ d h => by
      obtain ⟨a, b, n, k⟩ := hR w₁ w₂ d h
      exact ⟨a, _, b, _, k⟩) size chunk fuel 0 s _ _ h3
    unfold streamCopy
    rcases hx : streamCopyLoop read write₁ size chunk fuel 0 s w₁' with ⟨s1, v1, e1 | m1⟩ <;>
      rcases hy : streamCopyLoop read write₂ size chunk fuel 0 s w₂' with ⟨s2, v2, e2 | m2⟩ <;>
      rw [hx, hy] at a b c <;> simp_all

/-- The stream in use after some calls of `set_ostream`, by the last call that was not refused. -/
def installed (before : Option Nat) : List OstreamArg → Option Nat
  | [] => before
  | .other :: as => installed before as
  | .none :: as => installed none as
  | .writer k :: as => installed (some k) as

/-- A run of `store` to a file in which the operating system does what it is asked for. -/
def undisturbed (rnd : Bytes) (isfile : Bool) : StoreEnv := { tmp := some rnd, isfile := isfile }

theorem publish_undisturbed (rnd : Bytes) (isfile : Bool) (a b : Path) : (publish (undisturbed rnd isfile) a b).2 = .ok () := by
  simp [publish, undisturbed, chmodLoop]

theorem fd_write_plain {f : Fd} (h1 : f.plan = []) (h2 : f.closed = false) (d : Bytes) :
    f.write d = ({ f with chunks := f.chunks ++ [d] }, .ok d.length) := by
  simp [Fd.write, h1, h2]

theorem fdWrite_plain {zl : Zlib} {w : FDCompressedSha1Writer zl} (h1 : w.fd.plan = []) (h2 : w.fd.closed = false) (d : Bytes) :
    fdWrite w d = (⟨⟨w.sha1.hashed ++ d⟩, { w.fd with chunks := w.fd.chunks ++ [(zl.ccompress w.zip d).2] },
      (zl.ccompress w.zip d).1⟩, .ok (some (d.length : Int))) := by
  simp [fdWrite, FDCompressedSha1Writer.write, fd_write_plain h1 h2, Sha1Writer.write]

theorem dry_new (H : Hash) (zl : Zlib) (fuel : Nat) (rnd : Bytes) (isfile : Bool) (read : σ → Int → σ × Res Bytes)
    (i : IStream σ) (hb : i.binsha = none) :
    (looseStoreTo fuel read sha1Write (fun w => w.sha H true) i {}).2 =
      (looseStore H zl fuel (undisturbed rnd isfile) read i).2 := by
  obtain ⟨a, b, c⟩ := writeObject_sim (read := read) (write₁ := fdWrite (zl := zl)) (write₂ := sha1Write)
    (fun w₁ w₂ => w₁.sha1 = w₂ ∧ w₁.fd.plan = [] ∧ w₁.fd.closed = false)
    (by
      intro w₁ w₂ d h
      obtain ⟨rfl, h1, h2⟩ := h
      exact ⟨_, _, _, fdWrite_plain h1 h2 d, rfl, rfl, h1, h2⟩)
    fuel i.type i.size looseChunk i.strm (FDCompressedSha1Writer.new zl {}) {} ⟨rfl, rfl, rfl⟩
  unfold looseStoreTo looseStore
  simp only [hb, writeNew, undisturbed]
  rcases hx : writeObject fuel i.type i.size read (fdWrite (zl := zl)) looseChunk i.strm (FDCompressedSha1Writer.new zl {}) with
    ⟨s1, v1, r1⟩
  rcases hy : writeObject fuel i.type i.size read sha1Write looseChunk i.strm {} with ⟨s2, v2, r2⟩
  rw [hx, hy] at a b c
  simp only at a b c
  obtain ⟨c1, c2, c3⟩ := c
  subst a b c1
  have hc : v1.close.2 = .ok () ∧ v1.close.1.sha1 = v1.sha1 := by
    simp [FDCompressedSha1Writer.close, fd_write_plain c2 c3, Fd.close, c3]
  simp only [hc.1, hc.2]
  rcases r1 with e | n
  · simp [afterClose]
  · simp [afterClose, storedName, publish, chmodLoop]
    rcases hexToBin (Sha1Writer.sha H v1.sha1 true) with e | b <;> rfl

theorem dry_named (H : Hash) (zl : Zlib) (fuel : Nat) (rnd : Bytes) (isfile : Bool) (read : σ → Int → σ × Res Bytes)
    (i : IStream σ) (w : Sha1Writer) (name : Bytes) (hb : i.binsha = some name) (hn : name ≠ []) :
    (looseStoreTo fuel read sha1Write (fun w => w.sha H true) i w).2 =
      (looseStore H zl fuel (undisturbed rnd isfile) read i).2 := by
  obtain ⟨a, b, c⟩ := streamCopyLoop_sim (read := read) (write₁ := FDStream.write) (write₂ := sha1Write)
    (fun w₁ _ => w₁.fd.plan = [] ∧ w₁.fd.closed = false)
    (by
      intro w₁ w₂ d h
      refine ⟨⟨{ w₁.fd with chunks := w₁.fd.chunks ++ [d] }, w₁.pos + d.length⟩, none, _, _, ?_, rfl, h.1, h.2⟩
      simp [FDStream.write, fd_write_plain h.1 h.2])
    maxsize looseChunk fuel 0 i.strm { fd := {} } w ⟨rfl, rfl⟩
  unfold looseStoreTo looseStore
  simp only [hb, writeRaw, undisturbed, streamCopy]
  rcases hx : streamCopyLoop read FDStream.write maxsize looseChunk fuel 0 i.strm { fd := {} } with ⟨s1, v1, r1⟩
  rcases hy : streamCopyLoop read sha1Write maxsize looseChunk fuel 0 i.strm w with ⟨s2, v2, r2⟩
  rw [hx, hy] at a b
  rw [hx] at c
  simp only at a b c
  obtain ⟨c2, c3⟩ := c
  subst a b
  have hc : v1.fd.close.2 = .ok () := by simp [Fd.close, c3]
  simp only [hc]
  rcases r1 with e | n
  · simp [afterClose]
  · cases name with
    | nil => exact absurd rfl hn
    | cons x xs =>
      simp [afterClose, storedName, publish, chmodLoop]
      rcases hexToBin (binToHex (x :: xs)) with e | b <;> rfl

/-- **C66** `set_ostream`: every call returns the stream installed by the last successful call before it (or `None`),
anything but a `Sha1Writer` or `None` is refused and changes nothing. -/
theorem C66_set_ostream (st : OstreamState) (as : List OstreamArg) :
    (st.setAll as).2.length = as.length ∧
    (∀ (k : Nat) (h : k < as.length) (h' : k < (st.setAll as).2.length),
      (as[k] = .other → (st.setAll as).2[k] = .error .typeError) ∧
      (as[k] ≠ .other → (st.setAll as).2[k] = .ok (installed st.get (as.take k)))) ∧
    (st.setAll as).1.get = installed st.get as ∧ (st.setAll as).1.heap = st.heap := by
  induction as generalizing st with
  | nil => exact ⟨rfl, by simp, rfl, rfl⟩
  | cons a as ih =>
    obtain ⟨h1, h2, h3, h4⟩ := ih (st.setOstream a).1
    refine ⟨by simp [OstreamState.setAll, h1], ?_, ?_, ?_⟩
    · intro k h h'
      cases k with
      | zero => cases a <;> simp [OstreamState.setAll, OstreamState.setOstream, installed, OstreamState.get]
      | succ k =>
        have := h2 k (by simpa using h) (by simpa [OstreamState.setAll] using h')
        cases a <;> simpa [OstreamState.setAll, OstreamState.setOstream, installed, OstreamState.get] using this
    · cases a <;> simpa [OstreamState.setAll, OstreamState.setOstream, installed, OstreamState.get] using h3
    · rw [OstreamState.setAll, h4]; cases a <;> rfl

example : (OstreamState.setAll {} [.writer 4, .other, .none, .writer 1]).2 =
    [.ok none, .error .typeError, .ok (some 4), .ok none] := by rfl

/-- **C66** A dry run: with a fresh writer installed, `store` touches no file, and gives the stream the name and has the
outcome that a store to a file has, whatever the stream returns or raises. -/
theorem C66_dry_run (H : Hash) (zl : Zlib) (fuel : Nat) (rnd : Bytes) (isfile : Bool) (env : StoreEnv)
    (read : σ → Int → σ × Res Bytes) (i : IStream σ) (hb : i.binsha ≠ some []) (st : OstreamState) (k : Nat)
    (hk : st.get = some k) (hfresh : st.heap k = {}) :
    (st.store H zl fuel env read i).2 =
      ([], (looseStore H zl fuel (undisturbed rnd isfile) read i).2) ∧
    (st.store H zl fuel env read i).1.get = some k ∧
    ∀ j, j ≠ k → (st.store H zl fuel env read i).1.heap j = st.heap j := by
  have hk' : st.ostream = some k := hk
  unfold OstreamState.store
  simp only [hk']
  refine ⟨?_, rfl, fun j hj => if_neg hj⟩
  rw [hfresh]
  rcases hbi : i.binsha with _ | name
  · rw [← dry_new H zl fuel rnd isfile read i hbi]
  · rw [← dry_named H zl fuel rnd isfile read i {} name hbi (by rintro rfl; exact hb hbi)]

/-- **C66** Without a stream installed, and after it has been removed, objects go to files. -/
theorem C66_back (H : Hash) (zl : Zlib) (fuel : Nat) (env : StoreEnv) (read : σ → Int → σ × Res Bytes) (i : IStream σ)
    (st : OstreamState) (as : List OstreamArg) (h : installed st.get as = none) :
    ((st.setAll as).1.store H zl fuel env read i).2 = looseStore H zl fuel env read i := by
  have h1 : (st.setAll as).1.ostream = none := by rw [← h]; exact (C66_set_ostream st as).2.2.1
  unfold OstreamState.store
  rw [h1]

theorem sha1Write_many (ds : List Bytes) : ∀ w : Sha1Writer, (writeMany sha1Write w ds).1.hashed = w.hashed ++ ds.flatten := by
  induction ds with
  | nil => intro w; simp [writeMany]
  | cons d ds ih =>
    intro w
    have hw : sha1Write w d = (⟨w.hashed ++ d⟩, .ok (some (d.length : Int))) := rfl
    have := ih ⟨w.hashed ++ d⟩
    simp only [writeMany, hw]
    rcases hm : writeMany sha1Write ⟨w.hashed ++ d⟩ ds with ⟨w2, e | rs⟩ <;> rw [hm] at this <;> simpa using this

/-- **C66** A stream which is used again goes on hashing: the next object is named after the digest of everything
written to the stream so far. -/
theorem C66_reused (H : Hash) (zl : Zlib) (fuel : Nat) (env : StoreEnv) (read : σ → Int → σ × Res Bytes) (Rep : σ → Bytes → Prop)
    (hr : FileReads read Rep ∨ ObjectReads read Rep) (i : IStream σ) (data : Bytes) (hs : Rep i.strm data)
    (hsz : i.size = data.length) (hb : i.binsha = none) (ha : ∀ b ∈ i.type, b.toNat < 128) (hf : data.length < fuel)
    (st : OstreamState) (k : Nat) (hk : st.get = some k) :
    ∃ x, IsObject x i.type data ∧ (st.store H zl fuel env read i).2.2.2 = .ok () ∧
      (st.store H zl fuel env read i).2.2.1.binsha = some (H.digest ((st.heap k).hashed ++ x)) ∧
      ((st.store H zl fuel env read i).1.heap k).hashed = (st.heap k).hashed ++ x := by
  have hk' : st.ostream = some k := hk
  obtain ⟨s', w', n, e⟩ := writeObject_total (write := sha1Write) hr (fun w d => ⟨_, _, rfl⟩) hs ha hf looseChunk (by decide)
    (st.heap k)
  obtain ⟨ds, rs, h1, h2, _⟩ := writeObject_ok (write := sha1Write) hr (by decide : 1 ≤ looseChunk) hs (n := n) (by rw [e])
  rw [e] at h1
  simp only at h1
  have hw' : w'.hashed = (st.heap k).hashed ++ ds.flatten := by
    have := sha1Write_many ds (st.heap k)
    rw [h1] at this
    exact this
  refine ⟨ds.flatten, ⟨_, natToDec_isDecimal data.length, h2⟩, ?_⟩
  unfold OstreamState.store looseStoreTo
  simp only [hk', hb, hsz, e, Sha1Writer.sha, if_true, hexToBin_binToHex, hw']
  simp

/-- The full statement: storing any sequence of objects gives them the names they have as files. -/
def C66_full : Prop :=
  ∀ (H : Hash) (zl : Zlib) (fuel : Nat) (rnd : Bytes) (isfile : Bool) (is : List (IStream Bytes)),
    (∀ i ∈ is, i.binsha = none) → ∀ (st : OstreamState) (k : Nat), st.get = some k → st.heap k = {} →
    (st.storeAll H zl fuel (undisturbed rnd isfile) bytesIORead is).2 =
      is.map fun i => ((looseStore H zl fuel (undisturbed rnd isfile) bytesIORead i).2.1.binsha,
        (looseStore H zl fuel (undisturbed rnd isfile) bytesIORead i).2.2)

/-- **C66** It fails for the second of two objects stored through one stream. -/
theorem C66_not_full : ¬ C66_full := by
  intro h
  have := h (oneHash (object blob (natToDec 2) [1, 2])) toyZlib 10 [] false [smallStream, smallStream] (by simp [smallStream])
    { ostream := some 0 } 0 rfl rfl
  revert this
  decide +kernel

example := C66_dry_run exHash toyZlib 10 [5] true { tmp := none, isfile := false } bytesIORead smallStream (by simp [smallStream])
  { ostream := some 7 } 7 rfl rfl
example := C66_dry_run exHash toyZlib 10 [5] true { tmp := none, isfile := false } bytesIORead
  (namedStream (List.replicate 20 9) [1, 2, 3]) (by simp [namedStream]) { ostream := some 7 } 7 rfl rfl
example := C66_back exHash toyZlib 10 { tmp := some [1], isfile := false } bytesIORead smallStream {} [.writer 3, .other, .none] rfl
example := C66_reused exHash toyZlib 10 { tmp := none, isfile := false } bytesIORead _ (.inl bytesIO_reads) smallStream [1, 2] rfl rfl
  rfl (by decide) (by decide) { ostream := some 7, heap := fun _ => ⟨[1]⟩ } 7 rfl

end GitDB.Props
