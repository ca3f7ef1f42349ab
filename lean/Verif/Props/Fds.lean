import Verif.Model.Fds
import Verif.Props.Loose
import Verif.Props.PackCreate
/-!
# C57: file descriptors
-/
set_option autoImplicit false

namespace GitDB.Props
open GitDB Spec

/-! ## Reading -/

/-- The same descriptors and maps. -/
def SameHeld (p q : Proc) : Prop := q.fds = p.fds ∧ q.maps = p.maps

/-- Nothing new, except the memory returned. -/
def HoldsOnly (p q : Proc) : Res Memory → Prop
  | .ok (.map n) => q.fds = p.fds ∧ q.maps = n :: p.maps
  | _ => SameHeld p q

theorem fileContentsRo_held (env : ReadEnv) (p : Proc) :
    HoldsOnly p (fileContentsRo env p).1 (fileContentsRo env p).2 := by
  unfold fileContentsRo
  cases env.mmap1 <;> simp only
  · exact ⟨rfl, rfl⟩
  · split
    · split <;> exact ⟨rfl, rfl⟩
    · cases env.mmap2 <;> simp only
      · exact ⟨rfl, rfl⟩
      · split <;> exact ⟨rfl, rfl⟩
      · exact ⟨rfl, rfl⟩
  · exact ⟨rfl, rfl⟩

/-- **C57** reading a file: whatever fails, the descriptor is released, and a memory map remains only if
it is returned. -/
theorem C57_file (env : ReadEnv) (p : Proc) :
    HoldsOnly p (fileContentsRoFilepath env p).1 (fileContentsRoFilepath env p).2 := by
  unfold fileContentsRoFilepath
  cases env.open_ with
  | absent => exact ⟨rfl, rfl⟩
  | fail => exact ⟨rfl, rfl⟩
  | ok =>
    simp only
    have h := fileContentsRo_held env p.openFd.1
    generalize fileContentsRo env p.openFd.1 = r at h
    obtain ⟨q, r⟩ := r
    have hf : ∀ {q : Proc}, q.fds = p.openFd.1.fds → (q.closeFd p.openFd.2).fds = p.fds := by
      intro q hq
      simp [Proc.closeFd, hq, Proc.openFd]
    rcases r with e | m
    · have hq : SameHeld p (q.closeFd p.openFd.2) := ⟨hf h.1, h.2⟩
      split <;> exact hq
    · cases m with
      | bytes =>
        have hq : SameHeld p (q.closeFd p.openFd.2) := ⟨hf h.1, h.2⟩
        split <;> exact hq
      | map n =>
        have h2 : (q.closeFd p.openFd.2).maps = n :: p.maps := h.2
        split
        · exact ⟨hf h.1, h2⟩
        · refine ⟨hf h.1, ?_⟩
          simp only [Proc.release, Proc.unmap, h2, List.erase_cons_head]

theorem holdsOnly_trans {p q r : Proc} {x : Res Memory} (h : SameHeld p q) (h' : HoldsOnly q r x) :
    HoldsOnly p r x := by
  rcases x with e | m
  · exact ⟨h'.1.trans h.1, h'.2.trans h.2⟩
  · cases m with
    | bytes => exact ⟨h'.1.trans h.1, h'.2.trans h.2⟩
    | map n => exact ⟨h'.1.trans h.1, h'.2.trans (by rw [h.2])⟩

theorem mapLooseFd_held (env1 env2 : ReadEnv) (p : Proc) :
    HoldsOnly p (mapLooseFd env1 env2 p).1 (mapLooseFd env1 env2 p).2 := by
  unfold mapLooseFd
  have h1 := C57_file env1 p
  generalize fileContentsRoFilepath env1 p = a at h1
  obtain ⟨q, a⟩ := a
  split
  · rename_i heq; cases heq; exact h1
  · rename_i heq
    cases heq
    have h2 := C57_file env2 q
    generalize fileContentsRoFilepath env2 q = b at h2
    obtain ⟨r, b⟩ := b
    split
    · rename_i heq; cases heq; exact holdsOnly_trans h1 h2
    · rename_i heq; cases heq; exact holdsOnly_trans h1 h2
    · exact holdsOnly_trans h1 h2
  · exact h1

theorem release_held {p q : Proc} {m : Memory} (h : HoldsOnly p q (.ok m)) : SameHeld p (q.release m) := by
  cases m with
  | bytes => exact h
  | map n => exact ⟨h.1, by simp only [Proc.release, Proc.unmap, h.2, List.erase_cons_head]⟩

/-- **C57** `info` of a loose database holds nothing afterwards, whatever happened. -/
theorem C57_info {α : Type} (env1 env2 : ReadEnv) (header : Res α) (p : Proc) :
    SameHeld p (looseInfoFd env1 env2 header p).1 := by
  unfold looseInfoFd
  have h := mapLooseFd_held env1 env2 p
  generalize mapLooseFd env1 env2 p = a at h
  obtain ⟨q, e | m⟩ := a
  · exact h
  · exact release_held h

/-- **C57** `stream` of a loose database: if it raises nothing is held; otherwise only the memory of the
stream returned, until the stream is closed or deleted. -/
theorem C57_stream {α : Type} (env1 env2 : ReadEnv) (header : Res α) (p : Proc) :
    match (looseStreamFd env1 env2 header p).2 with
    | .error _ => SameHeld p (looseStreamFd env1 env2 header p).1
    | .ok (m, _) => (looseStreamFd env1 env2 header p).1.fds = p.fds ∧
        SameHeld p ((looseStreamFd env1 env2 header p).1.release m) := by
  unfold looseStreamFd
  have h := mapLooseFd_held env1 env2 p
  generalize mapLooseFd env1 env2 p = a at h
  obtain ⟨q, e | m⟩ := a
  · exact h
  · cases header with
    | error e => exact release_held h
    | ok a =>
      refine ⟨?_, release_held h⟩
      cases m <;> exact h.1

/-! ## Storing -/

variable {σ ω ρ : Type}

theorem streamCopy_keeps (P : ω → Prop) (read : σ → Int → σ × Res Bytes) (write : ω → Bytes → ω × Res ρ)
    (hw : ∀ w d, P w → P (write w d).1) (size chunk : Int) : ∀ fuel dbw s w, P w →
    P (streamCopyLoop read write size chunk fuel dbw s w).2.1 := by
  intro fuel
  induction fuel with
  | zero => intro dbw s w h; exact h
  | succ fuel ih =>
    intro dbw s w h
    simp only [streamCopyLoop]
    rcases read s (min chunk (size - dbw)) with ⟨s', e | d⟩
    · exact h
    · simp only
      have h' := hw w d h
      rcases hr : write w d with ⟨w', e | x⟩
      · rw [hr] at h'; exact h'
      · rw [hr] at h'
        simp only
        split
        · exact h'
        · exact ih _ _ _ h'

theorem writeObject_keeps (P : ω → Prop) (read : σ → Int → σ × Res Bytes)
    (write : ω → Bytes → ω × Res (Option Int)) (hw : ∀ w d, P w → P (write w d).1) (fuel : Nat) (type : Bytes)
    (size : Nat) (chunk : Int) (s : σ) (w : ω) (h : P w) :
    P (writeObject fuel type size read write chunk s w).2.1 := by
  unfold writeObject
  split
  · exact h
  · rename_i hdr _
    have h' := hw w hdr h
    split
    · rename_i hr; rw [hr] at h'; exact h'
    · rename_i hr; rw [hr] at h'; exact h'
    · rename_i w' n hr
      rw [hr] at h'
      have h2 := streamCopy_keeps P read write hw size chunk fuel 0 s w' h'
      split
      · rename_i hs; simp only [streamCopy] at hs; rw [hs] at h2; exact h2
      · rename_i hs; simp only [streamCopy] at hs; rw [hs] at h2; exact h2

theorem fd_write_closed (f : Fd) (d : Bytes) : (f.write d).1.closed = f.closed := by
  unfold Fd.write
  split
  · rfl
  · rcases f.plan with _ | ⟨o, p⟩
    · rfl
    · cases o <;> rfl

theorem fdWrite_closed {zl : Zlib} (w : FDCompressedSha1Writer zl) (d : Bytes) :
    (fdWrite w d).1.fd.closed = w.fd.closed := by
  unfold fdWrite FDCompressedSha1Writer.write
  simp only
  have h := fd_write_closed w.fd (zl.ccompress w.zip d).2
  rcases hr : w.fd.write (zl.ccompress w.zip d).2 with ⟨f, e | n⟩
  · rw [hr] at h; exact h
  · rw [hr] at h
    simp only
    by_cases hn : n ≠ (zl.ccompress w.zip d).2.length
    · rw [if_pos hn]; exact h
    · rw [if_neg hn]; exact h

theorem fd_close_closed (f : Fd) : f.close.1.closed = true := by
  unfold Fd.close
  split
  · assumption
  · rfl

/-- The writer of `store` when everything has been passed to it, before `writer.close()`. -/
def storeWriter (zl : Zlib) (fuel : Nat) (env : StoreEnv) (read : σ → Int → σ × Res Bytes) (i : IStream σ) :
    FDCompressedSha1Writer zl :=
  (writeObject fuel i.type i.size read fdWrite looseChunk i.strm
    (FDCompressedSha1Writer.new zl { plan := env.plan })).2.1

/-- **C57** storing under a given name: the descriptor is closed, whatever happened. -/
theorem C57_store_named (zl : Zlib) (fuel : Nat) (env : StoreEnv) (read : σ → Int → σ × Res Bytes)
    (i : IStream σ) (b : Bytes) (hb : i.binsha = some b) (f : Fd) (h : looseStoreFd zl fuel env read i = some f) :
    f.closed = true := by
  unfold looseStoreFd at h
  rw [hb] at h
  split at h
  · cases h
  · injection h with h
    rw [← h]
    exact fd_close_closed _

/-- **C57** storing a new object: the descriptor is closed - whatever was raised while reading, compressing or
writing - exactly if the last write, of the rest of the compressed data, is complete. -/
theorem C57_store_new (zl : Zlib) (fuel : Nat) (env : StoreEnv) (read : σ → Int → σ × Res Bytes)
    (i : IStream σ) (hb : i.binsha = none) (f : Fd) (h : looseStoreFd zl fuel env read i = some f) :
    f.closed = true ↔ ((storeWriter zl fuel env read i).fd.write (zl.cflush (storeWriter zl fuel env read i).zip)).2 =
      .ok (zl.cflush (storeWriter zl fuel env read i).zip).length := by
  have hf : f = (storeWriter zl fuel env read i).close.1.fd := by
    unfold looseStoreFd at h
    rw [hb] at h
    split at h
    · cases h
    · injection h with h; exact h.symm
  have ho : (storeWriter zl fuel env read i).fd.closed = false := by
    apply writeObject_keeps (fun w : FDCompressedSha1Writer zl => w.fd.closed = false)
    · intro w d hw; rw [fdWrite_closed]; exact hw
    · rfl
  rw [hf]
  generalize storeWriter zl fuel env read i = w at ho
  have hc := fd_write_closed w.fd (zl.cflush w.zip)
  unfold FDCompressedSha1Writer.close
  simp only
  rcases hr : w.fd.write (zl.cflush w.zip) with ⟨g, e | n⟩
  · rw [hr] at hc
    simp only at hc ⊢
    simp [hc, ho]
  · rw [hr] at hc
    simp only at hc ⊢
    by_cases hn : n = (zl.cflush w.zip).length
    · rw [if_neg (by simp [hn])]; simp [fd_close_closed, hn]
    · rw [if_pos (by simp [hn])]; simp [hc, ho, hn]

/-- **C57** (partial) if the operating system writes completely what it is given, or raises only before the last write, a
store leaves no descriptor open.  Special case of `C57_store_new`: no failures planned at all; reading the source
and closing may still raise. -/
theorem C57_store_partial (zl : Zlib) (fuel : Nat) (env : StoreEnv) (read : σ → Int → σ × Res Bytes)
    (i : IStream σ) (f : Fd) (hp : env.plan = []) (h : looseStoreFd zl fuel env read i = some f) : f.closed = true := by
  rcases hb : i.binsha with _ | b
  · rw [C57_store_new zl fuel env read i hb f h]
    have ho : (storeWriter zl fuel env read i).fd.closed = false ∧ (storeWriter zl fuel env read i).fd.plan = [] := by
      apply writeObject_keeps (fun w : FDCompressedSha1Writer zl => w.fd.closed = false ∧ w.fd.plan = [])
      · intro w d hw
        refine ⟨by rw [fdWrite_closed]; exact hw.1, ?_⟩
        unfold fdWrite FDCompressedSha1Writer.write
        simp [Fd.write, hw.1, hw.2]
      · exact ⟨rfl, hp⟩
    simp [Fd.write, ho.1, ho.2]
  · exact C57_store_named zl fuel env read i b hb f h

/-! ## Creating packs -/

/-- **C57** (partial: successful calls) `PackEntity.create` closes both files if it succeeds. -/
theorem C57_create_partial (H : Hash) (zl : Zlib) (fuel : Nat) (env : CreateEnv) (read : σ → Int → σ × Res Bytes)
    (objs : List (PackIn σ)) (count : Option Nat) (level : Int) (name : Bytes)
    (h : (createPack H zl fuel env read objs count level).2 = .ok name) :
    (createPackFds H zl fuel env read objs count level).length = 2 ∧
    ∀ f ∈ createPackFds H zl fuel env read objs count level, f.closed = true := by
  unfold createPack at h
  unfold createPackFds
  rcases hp : env.packTmp with _ | tp
  · rw [hp] at h; cases h
  rcases hi : env.idxTmp with _ | ti
  · rw [hp, hi] at h; cases h
  rw [hp, hi] at h
  simp only at h ⊢
  generalize writePack H zl fuel read Fd.write (some Fd.write) objs count level { plan := env.packPlan }
    { plan := env.idxPlan } = r at h
  obtain ⟨f1, f2, e | ⟨sha, x⟩⟩ := r
  · cases h
  · simp only at h ⊢
    by_cases hc : env.close1 = true
    · rw [if_pos hc]
      refine ⟨rfl, fun f hf => ?_⟩
      simp only [List.mem_cons, List.not_mem_nil, or_false] at hf
      rcases hf with rfl | rfl <;> exact fd_close_closed _
    · simp only [Bool.not_eq_true] at hc
      rw [if_pos (.inl hc)] at h
      cases h

/-! ## Lock files -/

/-- A `LockedFD` has a descriptor only after `open`. -/
theorem locked_opened (p : Path) (l : LockedFD) (hl : l.write = none → l.fd = false) (op : LockOp) :
    (l.call p op).1.write = none → (l.call p op).1.fd = false := by
  rcases l with ⟨fd, w⟩
  cases op with
  | open_ w' env => cases w <;> simp_all [LockedFD.call, LockedFD.open_] <;> (repeat' split) <;> simp_all
  | put d n => simp only [LockedFD.call]; (repeat' split) <;> simp_all
  | commit env => cases w <;> simp_all [LockedFD.call, LockedFD.endWriting] <;> (repeat' split) <;> simp_all
  | rollback env => cases w <;> simp_all [LockedFD.call, LockedFD.endWriting] <;> (repeat' split) <;> simp_all
  | drop env => cases w <;> simp_all [LockedFD.call, LockedFD.endWriting] <;> (repeat' split) <;> simp_all

theorem locked_opened_calls (p : Path) (ops : List LockOp) : ∀ l : LockedFD, (l.write = none → l.fd = false) →
    (l.calls p ops).1.write = none → (l.calls p ops).1.fd = false := by
  induction ops with
  | nil => intro l hl; exact hl
  | cons op ops ih => intro l hl; exact ih _ (locked_opened p l hl op)

/-- **C57** a `LockedFD` object: whatever was done with it, deleting it closes its descriptor (if `close` works). -/
theorem C57_locked (p : Path) (ops : List LockOp) (env : EndEnv) (hc : env.close = true) :
    (((LockedFD.init.calls p ops).1.call p (.drop env)).1).fd = false := by
  have h := locked_opened_calls p ops LockedFD.init (fun _ => rfl)
  generalize (LockedFD.init.calls p ops).1 = l at h
  rcases l with ⟨fd, w⟩
  cases w <;> cases fd <;> simp_all [LockedFD.call, LockedFD.endWriting] <;> (repeat' split) <;> simp_all

/-! ## What goes wrong -/

/-- The property for writing: whatever happens, no descriptor stays open when the call has ended. -/
def C57_full : Prop :=
  (∀ (zl : Zlib) (fuel : Nat) (env : StoreEnv) (i : IStream Bytes) (f : Fd), ZlibLaws zl →
    looseStoreFd zl fuel env bytesIORead i = some f → f.closed = true) ∧
  ∀ (H : Hash) (zl : Zlib) (fuel : Nat) (env : CreateEnv) (objs : List (PackIn Bytes)) (count : Option Nat) (level : Int),
    ZlibLaws zl → ∀ f ∈ createPackFds H zl fuel env bytesIORead objs count level, f.closed = true

/-- **C57** the descriptor of a new object stays open if the disk is full at the last write; the exception
itself is reported and the temporary file removed. -/
theorem C57_store_leaks :
    (looseStoreFd lightZlib 10 { tmp := some [1], isfile := false, plan := [.full, .full, .fail] } bytesIORead
      smallStream).map Fd.closed = some false ∧
    (looseStore exHash lightZlib 10 { tmp := some [1], isfile := false, plan := [.full, .full, .fail] } bytesIORead
      smallStream).2.2 = .error .osError := by decide +kernel

/-- **C57** `PackEntity.create` leaves both descriptors open if there are fewer objects than announced, and the
first one if the second temporary file cannot be made. -/
theorem C57_create_leaks :
    (createPackFds exHash lightZlib 10 { packTmp := some [1], idxTmp := some [2] } bytesIORead [] (some 1) 1).map Fd.closed =
      [false, false] ∧
    (createPackFds exHash lightZlib 10 { packTmp := some [1], idxTmp := none } bytesIORead [] (some 0) 1).map Fd.closed =
      [false] := by decide +kernel

theorem C57_not_full : ¬ C57_full := by
  intro h
  have h1 := C57_store_leaks.1
  rcases hf : looseStoreFd lightZlib 10 { tmp := some [1], isfile := false, plan := [.full, .full, .fail] } bytesIORead
      smallStream with _ | f
  · rw [hf] at h1; cases h1
  · have := h.1 _ _ _ _ _ lightZlib_laws hf
    rw [hf] at h1
    simp [this] at h1

/-! ## Examples -/

/-- A file that can be mapped; one that must be read; one that cannot be closed. -/
example : looseInfoFd ⟨.ok, .ok, true, .ok, true, true, true⟩ ⟨.ok, .ok, true, .ok, true, true, true⟩ (.ok 5)
    { fds := [7], maps := [8], next := 9 } = ({ fds := [7], maps := [8], next := 11 }, .ok 5) := by decide
example : looseStreamFd ⟨.fail, .ok, true, .ok, true, true, true⟩ ⟨.ok, .ok, true, .ok, true, true, true⟩ (.ok 5)
    { fds := [7], maps := [8], next := 9 } =
      ({ fds := [7], maps := [10, 8], next := 11 }, .ok (.map 10, 5)) := by decide
example : looseStreamFd ⟨.ok, .fail, false, .ok, true, true, true⟩ ⟨.ok, .ok, true, .ok, true, true, true⟩ (.ok 5)
    { fds := [7] } = ({ fds := [7], next := 1 }, .ok (.bytes, 5)) := by decide
example : fileContentsRoFilepath ⟨.ok, .ok, true, .ok, true, true, false⟩ {} = ({ next := 2 }, .error .osError) := by
  decide
example : (looseStoreFd lightZlib 10 { tmp := some [1], isfile := false } bytesIORead smallStream).map Fd.closed =
    some true := by decide +kernel
/-- writing fails in the middle; a named object on a full disk -/
example : (looseStoreFd lightZlib 10 { tmp := some [1], isfile := false, plan := [.full, .fail] } bytesIORead
    smallStream).map Fd.closed = some true := by decide +kernel
example : (looseStoreFd lightZlib 10 { tmp := some [1], isfile := false, plan := [.fail] } bytesIORead
    (namedStream [1, 2] [3])).map Fd.closed = some true := by decide +kernel
/-- a pack of two objects -/
example (n : Nat) (hn : n < 2 ^ 59) : ∀ f ∈ createPackFds lenHash toyZlib (n + 2) exEnv bytesIORead
    ((twoBlobs n).map Prod.fst) none 1, f.closed = true := by
  obtain ⟨w', iw', es, isha, k1, k2, -⟩ :=
    written_spec toyZlib toyZlib_laws bytesIO_reads.toBoundedReads fd_stores fd_stores lenHash (n + 2) 1 (twoBlobs n)
      (twoBlobs_packable n hn) {} ⟨rfl, rfl, rfl⟩ {} ⟨rfl, rfl, rfl⟩
  exact (C57_create_partial lenHash toyZlib (n + 2) exEnv bytesIORead _ none 1
    (newPackName (lenHash.digest (packBody es))) (by simp [createPack, exEnv, k2])).2
example : (((LockedFD.init.calls [[1]] [.open_ true ⟨true, true, true, true⟩, .put [1] 1]).1).fd) = true := by decide

end GitDB.Props
