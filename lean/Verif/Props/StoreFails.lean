import Verif.Props.Loose
/-!
# C36: which exception `store` raises if the stream fails
-/
set_option autoImplicit false

namespace GitDB.Props
open GitDB Spec

variable {σ : Type}

/-- A stream that is asked for `size` bytes from the `done`-th on, in chunks, delivers `n` full chunks and then raises `e`. -/
inductive FailsAfter (read : σ → Int → σ × Res Bytes) (size : Int) (e : Err) : Nat → Int → σ → Prop
  | now {done : Int} {s s' : σ} : read s (min looseChunk (size - done)) = (s', .error e) → FailsAfter read size e 0 done s
  | later {n : Nat} {done : Int} {s s' : σ} {d : Bytes} : read s (min looseChunk (size - done)) = (s', .ok d) →
      (d.length : Int) = min looseChunk (size - done) → done + d.length ≠ size →
      FailsAfter read size e n (done + d.length) s' → FailsAfter read size e (n + 1) done s

theorem fd_full (f : Fd) (d : Bytes) (p : List WriteOutcome) (hc : f.closed = false) (hp : f.plan = .full :: p) :
    ∃ f', f.write d = (f', .ok d.length) ∧ f'.closed = false ∧ f'.plan = p := by
  unfold Fd.write
  rw [if_neg (by simp [hc]), hp]
  exact ⟨_, rfl, hc, rfl⟩

theorem fd_none (f : Fd) (d : Bytes) (hc : f.closed = false) (hp : f.plan = []) :
    ∃ f', f.write d = (f', .ok d.length) ∧ f'.closed = false ∧ f'.plan = [] := by
  unfold Fd.write
  rw [if_neg (by simp [hc]), hp]
  exact ⟨_, rfl, hc, rfl⟩

theorem fdWrite_full {zl : Zlib} (w : FDCompressedSha1Writer zl) (d : Bytes) (p : List WriteOutcome)
    (hc : w.fd.closed = false) (hp : w.fd.plan = .full :: p) :
    ∃ w', fdWrite w d = (w', .ok (some d.length)) ∧ w'.fd.closed = false ∧ w'.fd.plan = p := by
  obtain ⟨f', h1, h2, h3⟩ := fd_full w.fd (zl.ccompress w.zip d).2 p hc hp
  refine ⟨⟨(w.sha1.write d).1, f', (zl.ccompress w.zip d).1⟩, ?_, h2, h3⟩
  simp [fdWrite, FDCompressedSha1Writer.write, h1]

theorem copy_fails {zl : Zlib} (read : σ → Int → σ × Res Bytes) (size : Int) (e : Err) (rest : List WriteOutcome) {n : Nat}
    {done : Int} {s : σ} (h : FailsAfter read size e n done s) :
    ∀ (fuel : Nat) (w : FDCompressedSha1Writer zl), n < fuel → w.fd.closed = false →
      w.fd.plan = List.replicate n .full ++ rest →
      ∃ s' w', streamCopyLoop read fdWrite size looseChunk fuel done s w = (s', w', .error e) ∧ w'.fd.closed = false ∧
        w'.fd.plan = rest := by
  induction h with
  | now hr =>
    rename_i done s s'
    intro fuel w hf hc hp
    obtain ⟨k, rfl⟩ : ∃ k, fuel = k + 1 := ⟨fuel - 1, by omega⟩
    exact ⟨s', w, by simp only [streamCopyLoop, hr], hc, by simpa using hp⟩
  | later hr hd hne hrest ih =>
    rename_i n done s s' d
    intro fuel w hf hc hp
    obtain ⟨k, rfl⟩ : ∃ k, fuel = k + 1 := ⟨fuel - 1, by omega⟩
    obtain ⟨w', h1, h2, h3⟩ := fdWrite_full w d (List.replicate n .full ++ rest) hc (by
      rw [hp, List.replicate_succ, List.cons_append])
    obtain ⟨s2, w2, h4, h5, h6⟩ := ih k w' (by omega) h2 h3
    refine ⟨s2, w2, ?_, h5, h6⟩
    simp only [streamCopyLoop, hr, h1]
    rw [if_neg (by rw [hd]; omega)]
    exact h4

/-- **C36** If the stream of a new object raises while it is stored, `store` raises the same exception - unless the compressor's
last bytes, which are written all the same, cannot be written either: then the `OSError` of that write hides it. -/
theorem C36_source_fails (H : Hash) (zl : Zlib) (fuel : Nat) (env : StoreEnv) (read : σ → Int → σ × Res Bytes) (i : IStream σ)
    (hb : i.binsha = none) (ht : env.tmp.isSome) (hcl : env.cleanup = true) (hdr : Bytes)
    (hh : looseObjectHeader i.type i.size = .ok hdr) (e : Err) (n : Nat) (hn : n < fuel)
    (hf : FailsAfter read i.size e n 0 i.strm) (rest : List WriteOutcome)
    (hp : env.plan = List.replicate (n + 1) .full ++ rest) :
    (rest = [] ∨ rest.head? = some .full → (looseStore H zl fuel env read i).2.2 = .error e) ∧
    (rest.head? = some .fail → (looseStore H zl fuel env read i).2.2 = .error .osError) := by
  obtain ⟨rnd, hrnd⟩ := Option.isSome_iff_exists.1 ht
  obtain ⟨w1, h1, h2, h3⟩ := fdWrite_full (FDCompressedSha1Writer.new zl { plan := env.plan }) hdr
    (List.replicate n .full ++ rest) rfl (by
      show env.plan = _
      rw [hp, List.replicate_succ, List.cons_append])
  obtain ⟨s', w2, h4, h5, h6⟩ := copy_fails read i.size e rest hf fuel w1 hn h2 h3
  have hw : writeObject fuel i.type i.size read fdWrite looseChunk i.strm (FDCompressedSha1Writer.new zl { plan := env.plan }) =
      (s', w2, .error e) := by
    simp only [writeObject, hh, h1, streamCopy, h4]
  have hstore : (looseStore H zl fuel env read i).2.2 = (match w2.close.2 with | .error e' => .error e' | .ok () => .error e) := by
    simp only [looseStore, hrnd, hb, writeNew, hw]
    rcases w2.close.2 with e' | u
    · simp [afterClose, hcl]
    · simp [afterClose, hcl]
  have hgood : (∃ f', w2.fd.write (zl.cflush w2.zip) = (f', .ok (zl.cflush w2.zip).length) ∧ f'.closed = false) →
      w2.close.2 = .ok () := by
    rintro ⟨f', g1, g2⟩
    simp [FDCompressedSha1Writer.close, g1, Fd.close, g2]
  constructor
  · intro hr
    rw [hstore, hgood]
    rcases hr with rfl | hr
    · obtain ⟨f', g1, g2, _⟩ := fd_none w2.fd (zl.cflush w2.zip) h5 h6
      exact ⟨f', g1, g2⟩
    · obtain ⟨p, rfl⟩ : ∃ p, rest = .full :: p := by
        cases rest with
        | nil => simp at hr
        | cons a p => simp at hr; exact ⟨p, by rw [hr]⟩
      obtain ⟨f', g1, g2, _⟩ := fd_full w2.fd (zl.cflush w2.zip) p h5 h6
      exact ⟨f', g1, g2⟩
  · intro hr
    obtain ⟨p, rfl⟩ : ∃ p, rest = .fail :: p := by
      cases rest with
      | nil => simp at hr
      | cons a p => simp at hr; exact ⟨p, by rw [hr]⟩
    have hfw : w2.fd.write (zl.cflush w2.zip) = ({ w2.fd with plan := p }, .error .osError) := by
      unfold Fd.write
      rw [if_neg (by simp [h5]), h6]
    rw [hstore]
    simp [FDCompressedSha1Writer.close, hfw]

/-- A stream that raises at once. -/
def brokenRead (u : Unit) (_ : Int) : Unit × Res Bytes := (u, .error .valueError)

/-- Not vacuous: on a good disk, and on one that is full when the last bytes are written. -/
example (H : Hash) : (looseStore H lightZlib 3 { tmp := some [1], isfile := false } brokenRead ⟨blob, 7, none, ()⟩).2.2 =
    .error .valueError := by rfl
example (H : Hash) := C36_source_fails H lightZlib 3 { tmp := some [1], isfile := false, plan := [.full, .fail] } brokenRead
  ⟨blob, 7, none, ()⟩ rfl rfl rfl _ rfl .valueError 0 (by decide) (.now rfl) [.fail] rfl

/-- **C36** The same for an object with a name, whose stream is copied as it is; nothing is written at the end, so nothing hides
the exception. -/
theorem C36_named_source_fails (H : Hash) (zl : Zlib) (fuel : Nat) (env : StoreEnv) (read : σ → Int → σ × Res Bytes) (i : IStream σ)
    (hb : i.binsha.isSome) (ht : env.tmp.isSome) (hcl : env.cleanup = true) (e : Err) (n : Nat) (hn : n < fuel)
    (hf : FailsAfter read maxsize e n 0 i.strm) (rest : List WriteOutcome)
    (hp : env.plan = List.replicate n .full ++ rest) :
    (looseStore H zl fuel env read i).2.2 = .error e := by
  obtain ⟨rnd, hrnd⟩ := Option.isSome_iff_exists.1 ht
  obtain ⟨b, hbb⟩ := Option.isSome_iff_exists.1 hb
  have copy : ∀ {n : Nat} {done : Int} {s : σ}, FailsAfter read maxsize e n done s → ∀ (fuel : Nat) (w : FDStream), n < fuel →
      w.fd.closed = false → w.fd.plan = List.replicate n .full ++ rest →
      ∃ s' w', streamCopyLoop read FDStream.write maxsize looseChunk fuel done s w = (s', w', .error e) ∧
        w'.fd.closed = false := by
    intro n done s h
    induction h with
    | now hr =>
      rename_i done s s'
      intro fuel w hf hc hp
      obtain ⟨k, rfl⟩ : ∃ k, fuel = k + 1 := ⟨fuel - 1, by omega⟩
      exact ⟨s', w, by simp only [streamCopyLoop, hr], hc⟩
    | later hr hd hne hrest ih =>
      rename_i n done s s' d
      intro fuel w hf hc hp
      obtain ⟨k, rfl⟩ : ∃ k, fuel = k + 1 := ⟨fuel - 1, by omega⟩
      obtain ⟨f', h1, h2, h3⟩ := fd_full w.fd d (List.replicate n .full ++ rest) hc (by
        rw [hp, List.replicate_succ, List.cons_append])
      obtain ⟨s2, w2, h4, h5⟩ := ih k ⟨f', w.pos + d.length⟩ (by omega) h2 h3
      refine ⟨s2, w2, ?_, h5⟩
      simp only [streamCopyLoop, hr, FDStream.write, h1]
      rw [if_neg (by rw [hd]; omega)]
      exact h4
  obtain ⟨s', w', h1, h2⟩ := copy hf fuel { fd := { plan := env.plan } } hn rfl hp
  simp only [looseStore, hrnd, hbb, writeRaw, streamCopy, h1, Fd.close, h2, afterClose, hcl, Bool.false_eq_true, if_false, if_true]

example (H : Hash) := C36_named_source_fails H lightZlib 3 { tmp := some [1], isfile := false, plan := [.fail] } brokenRead
  ⟨blob, 7, some [1, 2], ()⟩ rfl rfl rfl .valueError 0 (by decide) (.now rfl) [.fail] rfl

end GitDB.Props
