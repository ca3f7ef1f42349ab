import Verif.Props.DryRun
import Verif.Proofs.LooseRun
/-!
# C79: output streams of every kind
-/
set_option autoImplicit false

namespace GitDB.Props
open GitDB Spec

variable {σ ω ρ : Type}

/-- The bytes written into files by some system calls, in order. -/
def written : List Ev → Bytes
  | [] => []
  | .append _ d :: es => d ++ written es
  | _ :: es => written es

theorem written_append (a b : List Ev) : written (a ++ b) = written a ++ written b := by
  induction a with
  | nil => rfl
  | cons e a ih => cases e <;> simp [written, ih]

theorem written_chunks (p : Path) (cs : List Bytes) : written (cs.map (.append p)) = cs.flatten := by
  induction cs with
  | nil => rfl
  | cons c cs ih => simp [written, ih]

theorem chmodLoop_written (p : Path) : ∀ (n : Nat) (cs : List ChmodOutcome), written (chmodLoop p n cs).1 = []
  | 0, _ => rfl
  | _ + 1, [] => rfl
  | _ + 1, .ok :: _ => rfl
  | _ + 1, .fail :: _ => rfl
  | n + 1, .denied :: cs => chmodLoop_written p n cs

theorem publish_written (env : StoreEnv) (a b : Path) : written (publish env a b).1 = [] := by
  unfold publish
  split
  · rfl
  · dsimp only
    split
    · rfl
    · rw [written_append]
      split <;> simp [written, chmodLoop_written]

/-- What a store to a file writes. -/
theorem looseStore_written (H : Hash) (zl : Zlib) (fuel : Nat) (env : StoreEnv) (rnd : Bytes) (ht : env.tmp = some rnd)
    (read : σ → Int → σ × Res Bytes) (i : IStream σ) (hb : i.binsha = none) :
    written (looseStore H zl fuel env read i).1 = (writeNew H zl fuel env.plan read i).1.flatten := by
  unfold looseStore
  simp only [ht, hb]
  rcases writeNew H zl fuel env.plan read i with ⟨chunks, s, e | u, sha⟩
  · simp only
    split <;> simp [written_append, written, written_chunks]
  · simp only [storedName]
    rcases hp : publish env (tmpPath rnd) (objectPath sha) with ⟨evs, e | u⟩
    · have := publish_written env (tmpPath rnd) (objectPath sha)
      rw [hp] at this
      simp [written_append, written, written_chunks, this]
    · have := publish_written env (tmpPath rnd) (objectPath sha)
      rw [hp] at this
      simp only
      rcases hexToBin sha with e | b <;> simp [written_append, written, written_chunks, this]

/-- **C79** A new object stored into a fresh `ZippedStoreShaWriter`: name, outcome and state of the stream are those of a
store to a file, and what the writer holds once it is closed is, byte for byte, what the other store writes to its file;
whatever the stream returns or raises. -/
theorem C79_zipped (H : Hash) (zl : Zlib) (fuel : Nat) (rnd : Bytes) (isfile : Bool) (read : σ → Int → σ × Res Bytes)
    (i : IStream σ) (hb : i.binsha = none) :
    (looseStoreTo fuel read zippedWrite (fun w => w.sha1.sha H true) i (ZippedStoreShaWriter.new zl)).2 =
      (looseStore H zl fuel (undisturbed rnd isfile) read i).2 ∧
    (looseStoreTo fuel read zippedWrite (fun w => w.sha1.sha H true) i (ZippedStoreShaWriter.new zl)).1.close.getvalue =
      written (looseStore H zl fuel (undisturbed rnd isfile) read i).1 := by
  rw [looseStore_written H zl fuel (undisturbed rnd isfile) rnd rfl read i hb]
  obtain ⟨a, b, c⟩ := writeObject_sim (read := read) (write₁ := fdWrite (zl := zl)) (write₂ := zippedWrite (zl := zl))
    (fun w₁ w₂ => w₁.sha1 = w₂.sha1 ∧ w₁.zip = w₂.zip ∧ w₁.fd.plan = [] ∧ w₁.fd.closed = false ∧
      w₂.buf = ⟨w₁.fd.content, w₁.fd.content.length⟩)
    (by
      intro w₁ w₂ d h
      obtain ⟨h1, h2, h3, h4, h5⟩ := h
      refine ⟨_, _, _, fdWrite_plain h3 h4 d, zippedWrite_ok w₂ d, ?_, ?_, h3, h4, ?_⟩
      · simp [ZippedStoreShaWriter.write, Sha1Writer.write, h1]
      · simp [ZippedStoreShaWriter.write, h2]
      · simp only [ZippedStoreShaWriter.write]
        rw [BytesIO.write_end _ _ (by rw [h5]), h5, h2]
        simp [Fd.content])
    fuel i.type i.size looseChunk i.strm (FDCompressedSha1Writer.new zl {}) (ZippedStoreShaWriter.new zl)
    ⟨rfl, rfl, rfl, rfl, rfl⟩
  unfold looseStoreTo looseStore
  simp only [hb, writeNew, undisturbed]
  rcases hx : writeObject fuel i.type i.size read fdWrite looseChunk i.strm (FDCompressedSha1Writer.new zl {}) with ⟨s1, v1, r1⟩
  rcases hy : writeObject fuel i.type i.size read zippedWrite looseChunk i.strm (ZippedStoreShaWriter.new zl) with ⟨s2, v2, r2⟩
  rw [hx, hy] at a b c
  simp only at a b c
  obtain ⟨c1, c2, c3, c4, c5⟩ := c
  subst a b
  have hc : v1.close.2 = .ok () ∧ v1.close.1.sha1 = v1.sha1 ∧ v1.close.1.fd.chunks.flatten = v2.close.getvalue := by
    refine ⟨?_, ?_, ?_⟩
    · simp [FDCompressedSha1Writer.close, fd_write_plain c3 c4, Fd.close, c4]
    · simp [FDCompressedSha1Writer.close, fd_write_plain c3 c4, Fd.close, c4]
    · simp only [ZippedStoreShaWriter.close, ZippedStoreShaWriter.getvalue]
      rw [BytesIO.write_end _ _ (by rw [c5]), c5, ← c2]
      simp [FDCompressedSha1Writer.close, fd_write_plain c3 c4, Fd.close, c4, Fd.content]
  simp only [hc.1, hc.2.1, hc.2.2]
  rcases r1 with e | n
  · simp [afterClose]
  · simp only [afterClose, storedName, publish, chmodLoop, c1]
    rcases hexToBin (Sha1Writer.sha H v2.sha1 true) with e | b <;> simp

/-- **C79** A new object stored into an `FDCompressedSha1Writer` of the caller, over a descriptor of which the operating
system may write less or nothing: once the caller has closed the writer, the file behind the descriptor holds what a store
to a file writes under the same circumstances, and the two stores agree on failure: the other store fails when this one or
the caller's `close` fails. -/
theorem C79_fd (H : Hash) (zl : Zlib) (fuel : Nat) (rnd : Bytes) (plan : List WriteOutcome) (isfile : Bool)
    (read : σ → Int → σ × Res Bytes) (i : IStream σ) (hb : i.binsha = none) :
    (looseStoreTo fuel read fdWrite (fun w => w.sha1.sha H true) i
        (FDCompressedSha1Writer.new zl { plan := plan })).1.close.1.fd.content =
      written (looseStore H zl fuel { tmp := some rnd, plan := plan, isfile := isfile } read i).1 ∧
    ((looseStore H zl fuel { tmp := some rnd, plan := plan, isfile := isfile } read i).2.2 = .ok () ↔
      (looseStoreTo fuel read fdWrite (fun w => w.sha1.sha H true) i
        (FDCompressedSha1Writer.new zl { plan := plan })).2.2 = .ok () ∧
      (looseStoreTo fuel read fdWrite (fun w => w.sha1.sha H true) i
        (FDCompressedSha1Writer.new zl { plan := plan })).1.close.2 = .ok ()) ∧
    ((looseStore H zl fuel { tmp := some rnd, plan := plan, isfile := isfile } read i).2.2 = .ok () →
      (looseStoreTo fuel read fdWrite (fun w => w.sha1.sha H true) i
        (FDCompressedSha1Writer.new zl { plan := plan })).2.1 =
      (looseStore H zl fuel { tmp := some rnd, plan := plan, isfile := isfile } read i).2.1) := by
  rw [looseStore_written H zl fuel { tmp := some rnd, plan := plan, isfile := isfile } rnd rfl read i hb]
  unfold looseStoreTo looseStore
  simp only [hb, writeNew]
  rcases writeObject fuel i.type i.size read fdWrite looseChunk i.strm (FDCompressedSha1Writer.new zl { plan := plan }) with
    ⟨s1, v1, e | n⟩
  · rcases hc : v1.close with ⟨w', e' | u⟩ <;> simp [afterClose, Fd.content]
  · have hs : v1.close.1.sha1 = v1.sha1 := by
      unfold FDCompressedSha1Writer.close
      dsimp only
      rcases v1.fd.write (zl.cflush v1.zip) with ⟨f, e | n⟩
      · rfl
      · dsimp only; split <;> rfl
    have hh : hexToBin (Sha1Writer.sha H v1.sha1 true) = .ok (H.digest v1.sha1.hashed) := by
      simp [Sha1Writer.sha, hexToBin_binToHex]
    rcases hc : v1.close with ⟨w', e' | u⟩
    · rw [hc] at hs
      simp [afterClose, hh, hc, Fd.content]
    · rw [hc] at hs
      simp only at hs
      simp [afterClose, storedName, publish, chmodLoop, hs, hh, hc, Fd.content]

/-- **C79** The name is known before the data is complete: the store into a writer over a descriptor whose last write will
fail succeeds and names the stream. -/
theorem C79_fd_named_early : ∃ (plan : List WriteOutcome),
    (looseStoreTo 10 bytesIORead fdWrite (fun w => w.sha1.sha exHash true) smallStream
        (FDCompressedSha1Writer.new toyZlib { plan := plan })).2.2 = .ok () ∧
    (looseStoreTo 10 bytesIORead fdWrite (fun w => w.sha1.sha exHash true) smallStream
        (FDCompressedSha1Writer.new toyZlib { plan := plan })).2.1.binsha ≠ none ∧
    (looseStoreTo 10 bytesIORead fdWrite (fun w => w.sha1.sha exHash true) smallStream
        (FDCompressedSha1Writer.new toyZlib { plan := plan })).1.close.2 = .error .osError := by
  refine ⟨[.full, .full, .fail], ?_⟩
  decide +kernel

/-- **C79** A new object cannot be stored through a writer whose `write` returns `None`: the header is written, then
`TypeError` is raised; nothing has been read from the stream, and it stays without a name. -/
theorem C79_none (fuel : Nat) (read : σ → Int → σ × Res Bytes) (write : ω → Bytes → ω × Res (Option Int)) (sha : ω → Bytes)
    (i : IStream σ) (w : ω) (hb : i.binsha = none) (ha : ∀ b ∈ i.type, b.toNat < 128)
    (hnone : ∀ w d, (write w d).2 = .ok none) :
    ∃ hdr,
      (∃ ds, IsDecimal ds i.size ∧ hdr = i.type ++ [0x20] ++ ds ++ [0]) ∧
      looseStoreTo fuel read write sha i w = ((write w hdr).1, i, .error .typeError) := by
  refine ⟨i.type ++ [0x20] ++ natToDec i.size ++ [0], ⟨_, natToDec_isDecimal i.size, rfl⟩, ?_⟩
  have hh : looseObjectHeader i.type i.size = .ok (i.type ++ [0x20] ++ natToDec i.size ++ [0]) := by
    rw [looseObjectHeader, if_pos (by simpa using ha)]
  unfold looseStoreTo writeObject
  have h := hnone w (i.type ++ [0x20] ++ natToDec i.size ++ [0])
  rcases hw : write w (i.type ++ [0x20] ++ natToDec i.size ++ [0]) with ⟨w1, r⟩
  rw [hw] at h
  simp only at h
  subst h
  simp only [hb, hh, hw]
  cases i; simp only at hb; subst hb; rfl

theorem flexibleLoop (read : σ → Int → σ × Res Bytes) (wr : ω → Bytes → ω × Res ρ) (size chunk : Int) :
    ∀ (fuel : Nat) (dbw : Int) (s : σ) (w : FlexibleSha1Writer ω),
      (streamCopyLoop read (FlexibleSha1Writer.write wr) size chunk fuel dbw s w).1 =
        (streamCopyLoop read wr size chunk fuel dbw s w.inner).1 ∧
      (streamCopyLoop read (FlexibleSha1Writer.write wr) size chunk fuel dbw s w).2.1.inner =
        (streamCopyLoop read wr size chunk fuel dbw s w.inner).2.1 ∧
      (streamCopyLoop read (FlexibleSha1Writer.write wr) size chunk fuel dbw s w).2.2 =
        (streamCopyLoop read wr size chunk fuel dbw s w.inner).2.2 := by
  intro fuel
  induction fuel with
  | zero => intro dbw s w; exact ⟨rfl, rfl, rfl⟩
  | succ fuel ih =>
    intro dbw s w
    simp only [streamCopyLoop]
    rcases read s (min chunk (size - dbw)) with ⟨s1, e | data⟩
    · exact ⟨rfl, rfl, rfl⟩
    · rcases hw : wr w.inner data with ⟨i, e | r⟩
      · simp [FlexibleSha1Writer.write, hw]
      · simp only [FlexibleSha1Writer.write, hw]
        split
        · exact ⟨rfl, rfl, rfl⟩
        · exact ih _ _ _

/-- **C79** `FlexibleSha1Writer` is accepted by `set_ostream` but returns `None`: a new object is refused with
`TypeError` (or the exception of the inner function) after the inner function has received the header, and nothing else. -/
theorem C79_flexible (H : Hash) (fuel : Nat) (read : σ → Int → σ × Res Bytes) (wr : ω → Bytes → ω × Res ρ) (i : IStream σ)
    (inner : ω) (hb : i.binsha = none) (ha : ∀ b ∈ i.type, b.toNat < 128) :
    ∃ ds, IsDecimal ds i.size ∧
      (looseStoreTo fuel read (FlexibleSha1Writer.write wr) (fun w => w.sha1.sha H true) i { inner := inner }).1.inner =
        (wr inner (i.type ++ [0x20] ++ ds ++ [0])).1 ∧
      (looseStoreTo fuel read (FlexibleSha1Writer.write wr) (fun w => w.sha1.sha H true) i { inner := inner }).2 =
        (i, match (wr inner (i.type ++ [0x20] ++ ds ++ [0])).2 with
          | .ok _ => .error .typeError
          | .error e => .error e) := by
  refine ⟨_, natToDec_isDecimal i.size, ?_⟩
  have hh : looseObjectHeader i.type i.size = .ok (i.type ++ [0x20] ++ natToDec i.size ++ [0]) := by
    rw [looseObjectHeader, if_pos (by simpa using ha)]
  unfold looseStoreTo writeObject
  rcases hw : wr inner (i.type ++ [0x20] ++ natToDec i.size ++ [0]) with ⟨w1, e | r⟩ <;>
    (simp only [hb, hh, FlexibleSha1Writer.write, hw]; cases i; simp only at hb; subst hb; simp)

/-- **C79** For a stream with a name, a `FlexibleSha1Writer` hands the pieces of the stream to the inner function and to
nothing else: the copy runs as a copy to the inner function, and the name is kept. -/
theorem C79_flexible_named (H : Hash) (fuel : Nat) (read : σ → Int → σ × Res Bytes) (wr : ω → Bytes → ω × Res ρ)
    (i : IStream σ) (w : FlexibleSha1Writer ω) (name : Bytes) (hb : i.binsha = some name) (hn : name ≠ []) :
    (looseStoreTo fuel read (FlexibleSha1Writer.write wr) (fun w => w.sha1.sha H true) i w).1.inner =
      (streamCopy fuel read wr maxsize looseChunk i.strm w.inner).2.1 ∧
    (looseStoreTo fuel read (FlexibleSha1Writer.write wr) (fun w => w.sha1.sha H true) i w).2.1 =
      { i with strm := (streamCopy fuel read wr maxsize looseChunk i.strm w.inner).1 } ∧
    ((looseStoreTo fuel read (FlexibleSha1Writer.write wr) (fun w => w.sha1.sha H true) i w).2.2 = .ok () ↔
      ∃ n, (streamCopy fuel read wr maxsize looseChunk i.strm w.inner).2.2 = .ok n) := by
  obtain ⟨a, b, c⟩ := flexibleLoop read wr maxsize looseChunk fuel 0 i.strm w
  unfold looseStoreTo streamCopy
  simp only [hb]
  rcases hx : streamCopyLoop read (FlexibleSha1Writer.write wr) maxsize looseChunk fuel 0 i.strm w with ⟨s1, v1, e1 | m1⟩ <;>
    rcases hy : streamCopyLoop read wr maxsize looseChunk fuel 0 i.strm w.inner with ⟨s2, v2, e2 | m2⟩ <;>
    rw [hx, hy] at a b c <;> simp only [Except.ok.injEq, Except.error.injEq, reduceCtorEq] at a b c
  · subst a b c; simp
  · subst a b c
    cases name with
    | nil => exact absurd rfl hn
    | cons x xs => simp [hexToBin_binToHex]

/-- **C79** A stream with a name holds a compressed object, and a `ZippedStoreShaWriter` compresses it again: what the
writer holds after a successful store decompresses to the given file. -/
theorem C79_twice (H : Hash) (zl : Zlib) (L : ZlibLaws zl) (fuel : Nat) (read : σ → Int → σ × Res Bytes)
    (Rep : σ → Bytes → Prop) (hr : BoundedReads read Rep) (i : IStream σ) (raw name : Bytes) (hs : Rep i.strm raw)
    (hsize : (raw.length : Int) ≤ maxsize) (hb : i.binsha = some name)
    (hok : (looseStoreTo fuel read zippedWrite (fun w => w.sha1.sha H true) i (ZippedStoreShaWriter.new zl)).2.2 = .ok ()) :
    IsZip zl (looseStoreTo fuel read zippedWrite (fun w => w.sha1.sha H true) i (ZippedStoreShaWriter.new zl)).1.close.getvalue
      (looseStoreTo fuel read zippedWrite (fun w => w.sha1.sha H true) i (ZippedStoreShaWriter.new zl)).1.close.getvalue.length
      raw := by
  have key : ∀ w n s', streamCopyLoop read zippedWrite maxsize looseChunk fuel 0 i.strm (ZippedStoreShaWriter.new zl) =
      (s', w, .ok n) → IsZip zl w.close.getvalue w.close.getvalue.length raw := by
    intro w n s' h
    obtain ⟨ds, rs, k1, k2⟩ := streamCopyLoop_ok (write := zippedWrite (zl := zl)) hr maxsize looseChunk (by decide) fuel 0 i.strm
      (ZippedStoreShaWriter.new zl) raw n hs (by decide) (by rw [h])
    rw [h] at k1
    have k3 := zippedWrite_many ds _ k1
    obtain ⟨w', j1, j2, j3, j4⟩ := zipped_writeMany ds (ZippedStoreShaWriter.new zl)
    rw [j1] at k3
    simp only at k3
    subst k3
    rw [List.take_of_length_le (by omega)] at k2
    simp only [ZippedStoreShaWriter.getvalue, j3]
    rw [BytesIO.write_end _ _ rfl]
    simp only [ZippedStoreShaWriter.new, List.nil_append]
    exact ⟨L.emit_stop 1 ds, k2 ▸ L.emit_out 1 ds⟩
  unfold looseStoreTo streamCopy at hok ⊢
  simp only [hb] at hok ⊢
  rcases hx : streamCopyLoop read zippedWrite maxsize looseChunk fuel 0 i.strm (ZippedStoreShaWriter.new zl) with ⟨s1, v1, e1 | m1⟩
  · simp [hx] at hok
  · have := key v1 m1 s1 hx
    cases name with
    | nil =>
      dsimp only
      rcases hexToBin (v1.sha1.sha H true) with e | b <;> exact this
    | cons x xs => simpa [hx, hexToBin_binToHex] using this

/-- **C79** The name `b''` is false but not `None`: the stream is copied as it is, and is named after the digest of what
it holds, which is not the name of an object; the same store to a file raises `AttributeError`, and leaves its temporary
file behind. -/
theorem C79_empty_name (H : Hash) (zl : Zlib) (fuel : Nat) (rnd : Bytes) (isfile : Bool) (read : σ → Int → σ × Res Bytes)
    (Rep : σ → Bytes → Prop) (hr : BoundedReads read Rep) (i : IStream σ) (raw : Bytes)
    (hs : Rep i.strm raw) (hsize : (raw.length : Int) ≤ maxsize) (hb : i.binsha = some [])
    (hok : (looseStoreTo fuel read sha1Write (fun w => w.sha H true) i {}).2.2 = .ok ()) :
    (looseStoreTo fuel read sha1Write (fun w => w.sha H true) i {}).2.1.binsha = some (H.digest raw) ∧
    (looseStore H zl fuel (undisturbed rnd isfile) read i).2.2 = .error .attributeError ∧
    (looseStore H zl fuel (undisturbed rnd isfile) read i).2.1.binsha = some [] ∧
    ∃ cs : List Bytes, (looseStore H zl fuel (undisturbed rnd isfile) read i).1 =
      .create (tmpPath rnd) :: cs.map (.append (tmpPath rnd)) := by
  obtain ⟨a, b, c⟩ := streamCopyLoop_sim (read := read) (write₁ := FDStream.write) (write₂ := sha1Write)
    (fun w₁ _ => w₁.fd.plan = [] ∧ w₁.fd.closed = false)
    (by
      intro w₁ w₂ d h
      refine ⟨⟨{ w₁.fd with chunks := w₁.fd.chunks ++ [d] }, w₁.pos + d.length⟩, none, _, _, ?_, rfl, h.1, h.2⟩
      simp [FDStream.write, fd_write_plain h.1 h.2])
    maxsize looseChunk fuel 0 i.strm { fd := {} } {} ⟨rfl, rfl⟩
  unfold looseStoreTo streamCopy at hok ⊢
  simp only [hb] at hok ⊢
  rcases hx : streamCopyLoop read sha1Write maxsize looseChunk fuel 0 i.strm {} with ⟨s1, v1, e1 | m1⟩
  · simp [hx] at hok
  · obtain ⟨ds, rs, k1, k2⟩ := streamCopyLoop_ok (write := sha1Write) hr maxsize looseChunk (by decide) fuel 0 i.strm
      {} raw m1 hs (by decide) (by rw [hx])
    rw [hx] at k1
    rw [List.take_of_length_le (by omega)] at k2
    have := sha1Write_many ds {}
    rw [k1] at this
    simp only [List.nil_append] at this
    refine ⟨by simp [Sha1Writer.sha, hexToBin_binToHex, this, k2], ?_⟩
    unfold looseStore
    simp only [undisturbed, hb, writeRaw, streamCopy]
    rcases hy : streamCopyLoop read FDStream.write maxsize looseChunk fuel 0 i.strm { fd := {} } with ⟨s2, v2, r2⟩
    rw [hx, hy] at a b
    rw [hy] at c
    simp only at a b c
    subst b
    have hc : v2.fd.close.2 = .ok () := by simp [Fd.close, c.2]
    simp only [hc, afterClose, storedName]
    exact ⟨trivial, trivial, _, rfl⟩

/-! ### Cases -/

example := C79_zipped exHash toyZlib 10 [5] true bytesIORead smallStream rfl
example : (looseStoreTo 10 bytesIORead zippedWrite (fun w => w.sha1.sha exHash true) smallStream
    (ZippedStoreShaWriter.new toyZlib)).2.2 = .ok () := by decide +kernel
example := C79_fd exHash toyZlib 10 [5] [.full, .short 1] true bytesIORead smallStream rfl
example := C79_fd exHash toyZlib 10 [5] [] false bytesIORead smallStream rfl
example := C79_none 10 bytesIORead (fun (w : Bytes) d => (w ++ d, .ok none)) id smallStream [] rfl (by decide) (by simp)
example := C79_flexible exHash 10 bytesIORead sha1Write smallStream {} rfl (by decide)
example := C79_flexible_named exHash 10 bytesIORead sha1Write (namedStream (List.replicate 20 9) [1, 2, 3]) { inner := {} } _ rfl
  (by decide)
example := C79_twice exHash toyZlib toyZlib_laws 10 bytesIORead _ bytesIO_reads.toBoundedReads
  (namedStream (List.replicate 20 9) [1, 2, 3]) [1, 2, 3] _ rfl (by decide) rfl (by decide +kernel)
example := C79_empty_name exHash toyZlib 10 [1] false bytesIORead _
  bytesIO_reads.toBoundedReads (namedStream [] [1, 2, 3]) [1, 2, 3] rfl (by decide) rfl (by decide +kernel)

end GitDB.Props
