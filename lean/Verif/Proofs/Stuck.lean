import Verif.Proofs.AnyBytes
import Verif.Proofs.PackIter
import Verif.Model.ReaderOps
/-!
# A reader after `zlib.error`
-/
set_option autoImplicit false

namespace GitDB
open Spec
variable {zl : Zlib}

/-- A reader whose last read raised `zlib.error`. -/
structure Stuck (r : Reader) : Prop where
  broken : r.zip.broken = true
  eof : r.zip.eof = false
  buf : r.buf = none
  buflen : r.buflen = 0
  lt : r.br < r.s

/-- The buffer has a length only if it is there. -/
def BufLen (r : Reader) : Prop := r.buf = none → r.buflen = 0

theorem decompress_error (z z' : ZDec) (w : Bytes) (max : Int) (h : z.decompress zl w max = (z', .error .zlibError)) :
    z'.broken = true ∧ z'.eof = false ∧ 0 ≤ max := by
  unfold ZDec.decompress at h
  by_cases h0 : max < 0
  · rw [if_pos h0] at h; simp at h
  rw [if_neg h0] at h
  by_cases h1 : z.eof = true
  · rw [if_pos h1] at h; simp at h
  rw [if_neg h1] at h
  by_cases h2 : z.broken = true
  · rw [if_pos h2] at h
    simp only [Prod.mk.injEq, and_true] at h
    subst h
    exact ⟨h2, by simpa using h1, by omega⟩
  rw [if_neg h2] at h
  simp only at h
  split at h
  · simp at h
  split at h
  · simp only [Prod.mk.injEq, and_true] at h
    subst h
    exact ⟨rfl, by simpa using h1, by omega⟩
  · split at h <;> simp at h

theorem decompress_broken (z : ZDec) (hb : z.broken = true) (he : z.eof = false) (w : Bytes) (max : Int) (h0 : 0 ≤ max) :
    z.decompress zl w max = (z, .error .zlibError) := by
  unfold ZDec.decompress
  rw [if_neg (by omega), if_neg (by simp [he]), if_pos hb]

theorem readZip_error (r r' : Reader) (size : Int) (h : r.readZip zl size = (r', .error .zlibError)) :
    r'.zip.broken = true ∧ r'.zip.eof = false ∧ 0 ≤ size ∧ r'.buf = r.buf ∧ r'.buflen = r.buflen ∧ r'.br = r.br ∧ r'.s = r.s ∧
      r'.hasS = r.hasS ∧ r'.m = r.m ∧ r'.phi = r.phi := by
  unfold Reader.readZip at h
  simp only at h
  split at h
  · rename_i z e he
    simp only [Prod.mk.injEq, Except.error.injEq] at h
    obtain ⟨h1, h2⟩ := h
    subst h2
    obtain ⟨k1, k2, k3⟩ := decompress_error _ _ _ _ he
    subst h1
    exact ⟨k1, k2, k3, rfl, rfl, rfl, rfl, rfl, rfl, rfl⟩
  · simp at h

theorem readZip_stuck (r : Reader) (hb : r.zip.broken = true) (he : r.zip.eof = false) (size : Int) (h0 : 0 ≤ size) :
    ∃ r', r.readZip zl size = (r', .error .zlibError) := by
  unfold Reader.readZip
  simp only
  rw [decompress_broken _ hb he _ _ h0]
  exact ⟨_, rfl⟩

theorem readZip_keeps (r r' : Reader) (d : Bytes) (size : Int) (h : r.readZip zl size = (r', .ok d)) :
    r'.buf = r.buf ∧ r'.buflen = r.buflen ∧ r'.s = r.s ∧ r'.hasS = r.hasS ∧ r'.m = r.m ∧ r'.phi = r.phi := by
  unfold Reader.readZip at h
  simp only at h
  split at h
  · simp at h
  · simp only [Prod.mk.injEq] at h
    obtain ⟨h1, -⟩ := h
    subst h1
    exact ⟨rfl, rfl, rfl, rfl, rfl, rfl⟩

/-- What a read that raised has left alone. -/
structure UnchangedObject (r r' : Reader) : Prop where
  s : r'.s = r.s
  hasS : r'.hasS = r.hasS
  m : r'.m = r.m
  phi : r'.phi = r.phi

theorem readCore_error (fuel : Nat) : ∀ (r r' : Reader) (n : Int), BufLen r → r.readCore zl fuel n = (r', .error .zlibError) →
    Stuck r' ∧ UnchangedObject r r' := by
  induction fuel with
  | zero => intro r r' n _ h; simp [Reader.readCore] at h
  | succ fuel ih =>
    intro r r' n hbl h
    rw [readCore_succ] at h
    split at h
    · simp at h
    rename_i hw
    have hws : r.want n ≤ r.s - r.br := by unfold Reader.want; split <;> omega
    have key : ∀ (r0 : Reader) (dat : Bytes) (size : Int), r0.buf = none → r0.buflen = 0 → size ≠ 0 → size ≤ r0.s - r0.br →
        Reader.cont zl fuel r0 dat size = (r', .error .zlibError) → Stuck r' ∧ UnchangedObject r0 r' := by
      intro r0 dat size hb hl hs hle hc
      unfold Reader.cont at hc
      split at hc
      · rename_i r1 e he
        simp only [Prod.mk.injEq, Except.error.injEq] at hc
        obtain ⟨h1, h2⟩ := hc
        subst h1 h2
        obtain ⟨k1, k2, k3, k4, k5, k6, k7, k8, k9, k10⟩ := readZip_error _ _ _ he
        exact ⟨⟨k1, k2, by rw [k4, hb], by rw [k5, hl], by rw [k6, k7]; omega⟩, ⟨k7, k8, k9, k10⟩⟩
      · rename_i r1 new he
        obtain ⟨k1, k2, k3, k4, k5, k6⟩ := readZip_keeps _ _ _ _ he
        split at hc
        · split at hc
          · rename_i r2 e he2
            simp only [Prod.mk.injEq, Except.error.injEq] at hc
            obtain ⟨h1, h2⟩ := hc
            subst h1 h2
            obtain ⟨j1, j2⟩ := ih r1 r2 _ (fun _ => by rw [k2, hl]) he2
            exact ⟨j1, ⟨j2.s.trans k3, j2.hasS.trans k4, j2.m.trans k5, j2.phi.trans k6⟩⟩
          · simp at hc
        · simp at hc
    split at h
    · rename_i b hb
      split at h
      · simp at h
      · rename_i hge
        obtain ⟨j1, j2⟩ := key { r with br := r.br + r.buflen, buflen := 0, buf := none } b (r.want n - r.buflen) rfl rfl (by omega)
          (by simp only; omega) h
        exact ⟨j1, ⟨j2.s, j2.hasS, j2.m, j2.phi⟩⟩
    · rename_i hb
      exact key r [] (r.want n) hb (hbl hb) hw hws h

theorem readCore_stuck (fuel : Nat) (r : Reader) (n : Int) (h : Stuck r) :
    ∃ r', r.readCore zl (fuel + 1) n = (r', .error .zlibError) := by
  have hw : 1 ≤ r.want n := by
    have := h.lt
    unfold Reader.want; split <;> omega
  rw [readCore_succ, if_neg (by omega), h.buf]
  simp only
  unfold Reader.cont
  obtain ⟨r', e⟩ := readZip_stuck (zl := zl) r h.broken h.eof (r.want n) (by omega)
  rw [e]
  exact ⟨r', rfl⟩

/-- The header is not refused by zlib. -/
theorem parseObjectHeader_error (hdr : Bytes) (e : Err) (h : parseObjectHeader hdr = .error e) : e = .valueError := by
  unfold parseObjectHeader at h
  split at h
  split at h
  · rename_i size hs
    rcases hp : pyInt size with e' | n
    · rw [hp] at h
      simp only [Except.error.injEq] at h
      subst h
      exact pyInt_error _ _ hp
    · rw [hp] at h; simp at h
  · simp only [Except.error.injEq] at h
    exact h.symm

theorem readCore_bufLen (fuel : Nat) : ∀ (r : Reader) (n : Int), BufLen r → BufLen (r.readCore zl fuel n).1 := by
  induction fuel with
  | zero => intro r n h; simpa [Reader.readCore] using h
  | succ fuel ih =>
    intro r n hbl
    have key : ∀ (r0 : Reader) (dat : Bytes) (size : Int), BufLen r0 → BufLen (Reader.cont zl fuel r0 dat size).1 := by
      intro r0 dat size h0
      have hz : BufLen (r0.readZip zl size).1 := by
        unfold Reader.readZip
        simp only
        split <;> exact h0
      unfold Reader.cont
      split
      · rename_i r1 e he; rw [he] at hz; exact hz
      · rename_i r1 new he
        rw [he] at hz
        split
        · have h2 := ih r1 (size - (dat ++ new).length) hz
          split
          · rename_i r2 e he2; rw [he2] at h2; exact h2
          · rename_i r2 more he2; rw [he2] at h2; exact h2
        · exact hz
    rw [readCore_succ]
    split
    · exact hbl
    · split
      · split
        · intro h; simp at h
        · exact key _ _ _ (fun _ => rfl)
      · exact key _ _ _ hbl

theorem parse_bufLen (r : Reader) (h : BufLen r) : BufLen (r.parseHeaderInfo zl).1 := by
  have h1 := readCore_bufLen (zl := zl) ({ r with s := maxHeader, hasS := true } : Reader).fuel { r with s := maxHeader, hasS := true } maxHeader h
  unfold Reader.parseHeaderInfo
  simp only
  split
  · rename_i r1 e he; rw [he] at h1; exact h1
  · rename_i r1 hdr he
    rw [he] at h1
    split
    · exact h1
    · intro h; simp at h

theorem needS_bufLen (r : Reader) (h : BufLen r) : BufLen (r.needS zl).1 := by
  have h1 := parse_bufLen (zl := zl) r h
  unfold Reader.needS
  split
  · exact h
  · split
    · rename_i r1 e he; rw [he] at h1; exact h1
    · rename_i r1 x he; rw [he] at h1; exact h1

theorem read_bufLen (r : Reader) (n : Int) (h : BufLen r) : BufLen (r.read zl n).1 := by
  have h1 := needS_bufLen (zl := zl) r h
  unfold Reader.read
  split
  · rename_i r1 e he; rw [he] at h1; exact h1
  · rename_i r1 he; rw [he] at h1; exact readCore_bufLen _ _ _ h1

theorem scrub_bufLen (fuel : Nat) : ∀ (r : Reader), BufLen r → BufLen (r.scrub zl fuel).1 := by
  induction fuel with
  | zero => intro r h; exact h
  | succ fuel ih =>
    intro r h
    have h1 := readCore_bufLen (zl := zl) r.fuel r PAGESIZE h
    unfold Reader.scrub
    split
    · split
      · rename_i r1 e he; rw [he] at h1; exact h1
      · rename_i r1 d he; rw [he] at h1; exact ih _ h1
    · exact h

theorem count_bufLen (r : Reader) (fuel : Nat) (h : BufLen r) : BufLen (r.compressedBytesRead zl fuel).1 := by
  have h1 := needS_bufLen (zl := zl) r h
  unfold Reader.compressedBytesRead
  split
  · rename_i r1 e he; rw [he] at h1; exact h1
  · rename_i r1 he
    rw [he] at h1
    split
    · have h2 := scrub_bufLen (zl := zl) fuel { r1 with br := 0 } h1
      split
      · rename_i r2 e he2; rw [he2] at h2; exact h2
      · rename_i r2 he2; rw [he2] at h2; exact h2
    · exact h1

theorem seek_bufLen (r : Reader) (o w : Int) (h : BufLen r) : BufLen (r.seek o w).1 := by
  unfold Reader.seek
  split
  · exact h
  · simp only; split <;> exact h

theorem step_bufLen (r : Reader) (op : ReaderOp) (h : BufLen r) : BufLen (r.step zl op).1 := by
  cases op with
  | read n =>
    have h1 := read_bufLen (zl := zl) r n h
    unfold Reader.step
    simp only
    split <;> (rename_i e; rw [e] at h1; exact h1)
  | seek o w =>
    have h1 := seek_bufLen r o w h
    unfold Reader.step
    simp only
    split <;> (rename_i e; rw [e] at h1; exact h1)
  | count fuel =>
    have h1 := count_bufLen (zl := zl) r fuel h
    unfold Reader.step
    simp only
    split <;> (rename_i e; rw [e] at h1; exact h1)

theorem steps_bufLen : ∀ (ops : List ReaderOp) (r : Reader), BufLen r → BufLen (r.steps zl ops)
  | [], _, h => h
  | op :: ops, r, h => steps_bufLen ops _ (step_bufLen r op h)

/-- A reader that does nothing but raise. -/
structure Dead (r : Reader) : Prop extends Stuck r where
  hasS : r.hasS = true

theorem parse_error (r r' : Reader) (hbl : BufLen r) (h : r.parseHeaderInfo zl = (r', .error .zlibError)) :
    Dead r' := by
  unfold Reader.parseHeaderInfo at h
  simp only at h
  split at h
  · rename_i r1 e he
    simp only [Prod.mk.injEq, Except.error.injEq] at h
    obtain ⟨h1, h2⟩ := h
    subst h1 h2
    obtain ⟨j1, j2⟩ := readCore_error _ _ _ _ (show BufLen { r with s := maxHeader, hasS := true } from hbl) he
    exact ⟨j1, j2.hasS⟩
  · rename_i r1 hdr he
    split at h
    · rename_i e hp
      simp only [Prod.mk.injEq, Except.error.injEq] at h
      obtain ⟨-, h2⟩ := h
      subst h2
      exact absurd (parseObjectHeader_error _ _ hp) (by simp)
    · simp at h

theorem UnchangedObject.refl (r : Reader) : UnchangedObject r r := ⟨rfl, rfl, rfl, rfl⟩
theorem UnchangedObject.trans {a b c : Reader} (h : UnchangedObject a b) (k : UnchangedObject b c) : UnchangedObject a c :=
  ⟨k.s.trans h.s, k.hasS.trans h.hasS, k.m.trans h.m, k.phi.trans h.phi⟩

/-- Reading does not change size, data and flags, whatever happens. -/
theorem readCore_same (fuel : Nat) : ∀ (r : Reader) (n : Int), UnchangedObject r (r.readCore zl fuel n).1 := by
  induction fuel with
  | zero => intro r n; exact .refl r
  | succ fuel ih =>
    intro r n
    have key : ∀ (r0 : Reader) (dat : Bytes) (size : Int), UnchangedObject r0 (Reader.cont zl fuel r0 dat size).1 := by
      intro r0 dat size
      have hz : UnchangedObject r0 (r0.readZip zl size).1 := by
        unfold Reader.readZip
        simp only
        split <;> exact ⟨rfl, rfl, rfl, rfl⟩
      unfold Reader.cont
      split
      · rename_i r1 e he; rw [he] at hz; exact hz
      · rename_i r1 new he
        rw [he] at hz
        split
        · have h2 := ih r1 (size - (dat ++ new).length)
          split
          · rename_i r2 e he2; rw [he2] at h2; exact hz.trans h2
          · rename_i r2 more he2; rw [he2] at h2; exact hz.trans h2
        · exact hz
    rw [readCore_succ]
    split
    · exact .refl r
    · split
      · split
        · exact ⟨rfl, rfl, rfl, rfl⟩
        · have h := key { r with br := r.br + r.buflen, buflen := 0, buf := none } (by assumption) (r.want n - r.buflen)
          exact ⟨h.s, h.hasS, h.m, h.phi⟩
      · exact key _ _ _

theorem scrub_same (fuel : Nat) : ∀ (r : Reader), UnchangedObject r (r.scrub zl fuel).1 := by
  induction fuel with
  | zero => intro r; exact .refl r
  | succ fuel ih =>
    intro r
    have h1 := readCore_same (zl := zl) r.fuel r PAGESIZE
    unfold Reader.scrub
    split
    · split
      · rename_i r1 e he; rw [he] at h1; exact h1
      · rename_i r1 d he; rw [he] at h1; exact h1.trans (ih _)
    · exact .refl r

theorem scrub_error (fuel : Nat) : ∀ (r r' : Reader), BufLen r → r.scrub zl fuel = (r', .error .zlibError) → Stuck r' := by
  induction fuel with
  | zero => intro r r' _ h; simp [Reader.scrub] at h
  | succ fuel ih =>
    intro r r' hbl h
    have h1 := readCore_bufLen (zl := zl) r.fuel r PAGESIZE hbl
    unfold Reader.scrub at h
    split at h
    · split at h
      · rename_i r1 e he
        simp only [Prod.mk.injEq, Except.error.injEq] at h
        obtain ⟨k1, k2⟩ := h
        subst k1 k2
        exact (readCore_error _ _ _ _ hbl he).1
      · rename_i r1 d he
        rw [he] at h1
        exact ih _ _ h1 h
    · simp at h

/-- The size is there after the header was parsed. -/
theorem needS_ok (r r' : Reader) (h : r.needS zl = (r', .ok ())) : r'.hasS = true := by
  unfold Reader.needS at h
  split at h
  · rename_i hs
    simp only [Prod.mk.injEq, and_true] at h
    subst h
    exact hs
  · unfold Reader.parseHeaderInfo at h
    simp only at h
    have h1 := readCore_same (zl := zl) ({ r with s := maxHeader, hasS := true } : Reader).fuel { r with s := maxHeader, hasS := true } maxHeader
    split at h
    · simp at h
    · rename_i r1 x he
      simp only [Prod.mk.injEq, and_true] at h
      subst h
      split at he
      · simp at he
      · rename_i r2 hdr he2
        rw [he2] at h1
        split at he
        · simp at he
        · simp only [Prod.mk.injEq] at he
          obtain ⟨k1, -⟩ := he
          subst k1
          exact h1.hasS

theorem needS_error (r r' : Reader) (hbl : BufLen r) (h : r.needS zl = (r', .error .zlibError)) : Dead r' := by
  unfold Reader.needS at h
  split at h
  · simp at h
  · split at h
    · rename_i r1 e he
      simp only [Prod.mk.injEq, Except.error.injEq] at h
      obtain ⟨k1, k2⟩ := h
      subst k1 k2
      exact parse_error _ _ hbl he
    · simp at h

theorem read_error (r r' : Reader) (n : Int) (hbl : BufLen r) (h : r.read zl n = (r', .error .zlibError)) : Dead r' := by
  have h1 := needS_bufLen (zl := zl) r hbl
  unfold Reader.read at h
  split at h
  · rename_i r1 e he
    simp only [Prod.mk.injEq, Except.error.injEq] at h
    obtain ⟨k1, k2⟩ := h
    subst k1 k2
    exact needS_error _ _ hbl he
  · rename_i r1 he
    rw [he] at h1
    obtain ⟨j1, j2⟩ := readCore_error _ _ _ _ h1 h
    exact ⟨j1, j2.hasS.trans (needS_ok _ _ he)⟩

theorem count_error (r r' : Reader) (fuel : Nat) (hbl : BufLen r) (h : r.compressedBytesRead zl fuel = (r', .error .zlibError)) :
    Dead r' := by
  have h1 := needS_bufLen (zl := zl) r hbl
  unfold Reader.compressedBytesRead at h
  split at h
  · rename_i r1 e he
    simp only [Prod.mk.injEq, Except.error.injEq] at h
    obtain ⟨k1, k2⟩ := h
    subst k1 k2
    exact needS_error _ _ hbl he
  · rename_i r1 he
    rw [he] at h1
    have h2 := scrub_same (zl := zl) fuel { r1 with br := 0 }
    split at h
    · split at h
      · rename_i r2 e he2
        simp only [Prod.mk.injEq, Except.error.injEq] at h
        obtain ⟨k1, k2⟩ := h
        subst k1 k2
        rw [he2] at h2
        exact ⟨scrub_error _ _ _ (show BufLen { r1 with br := 0 } from h1) he2, h2.hasS.trans (show ({ r1 with br := 0 } : Reader).hasS = true from needS_ok _ r1 he)⟩
      · simp at h
    · simp at h

/-- Whichever call raised `zlib.error`, the reader is dead. -/
theorem step_error (r : Reader) (op : ReaderOp) (hbl : BufLen r) (h : (r.step zl op).2 = .error .zlibError) : Dead (r.step zl op).1 := by
  cases op with
  | read n =>
    unfold Reader.step at h ⊢
    simp only at h ⊢
    split at h
    · rename_i r1 e he
      simp only [Except.error.injEq] at h
      subst h
      exact read_error _ _ _ hbl he
    · simp at h
  | seek o w =>
    unfold Reader.step Reader.seek at h
    simp only at h
    split at h
    · rename_i r1 e he
      split at he
      · simp only [Prod.mk.injEq, Except.error.injEq] at he
        obtain ⟨-, k⟩ := he
        rw [← k] at h
        simp at h
      · simp at he
    · simp at h
  | count fuel =>
    unfold Reader.step at h ⊢
    simp only at h ⊢
    split at h
    · rename_i r1 e he
      simp only [Except.error.injEq] at h
      subst h
      exact count_error _ _ _ hbl he
    · simp at h

theorem dead_read (r : Reader) (n : Int) (h : Dead r) : ∃ r', r.read zl n = (r', .error .zlibError) ∧ Dead r' := by
  obtain ⟨r', e⟩ := readCore_stuck (zl := zl) (r.fuel - 1) r n h.toStuck
  have hf : r.fuel - 1 + 1 = r.fuel := by unfold Reader.fuel; omega
  rw [hf] at e
  have he : r.read zl n = (r', .error .zlibError) := by
    unfold Reader.read Reader.needS
    rw [if_pos h.hasS]
    exact e
  exact ⟨r', he, read_error _ _ _ (fun _ => h.buflen) he⟩

/-- Nothing but a `seek(0)` changes that. -/
theorem dead_step (r : Reader) (op : ReaderOp) (h : Dead r) (ho : op ≠ .seek 0 0) : Dead (r.step zl op).1 := by
  cases op with
  | read n =>
    obtain ⟨r', e, hd⟩ := dead_read (zl := zl) r n h
    unfold Reader.step
    simp only [e]
    exact hd
  | seek o w =>
    unfold Reader.step Reader.seek
    have hc : o ≠ 0 ∨ w ≠ 0 := by
      by_cases h1 : o = 0
      · right; intro h2; subst h1 h2; exact ho rfl
      · exact .inl h1
    simp only [if_pos hc]
    exact h
  | count fuel =>
    have hlt := h.lt
    unfold Reader.step Reader.compressedBytesRead Reader.needS
    simp only [if_pos h.hasS]
    rw [if_neg (by omega)]
    exact h

theorem dead_steps : ∀ (ops : List ReaderOp) (r : Reader), Dead r → (∀ o ∈ ops, o ≠ .seek 0 0) → Dead (r.steps zl ops)
  | [], _, h, _ => h
  | op :: ops, r, h, ho => dead_steps ops _ (dead_step r op h (ho op (by simp))) fun o hm => ho o (by simp [hm])

/-! ## Starting again -/

/-- A reader made with a size. -/
structure Sized (m : Bytes) (size : Int) (r : Reader) : Prop where
  m : r.m = m
  s : r.s = size
  hasS : r.hasS = true
  phi : r.phi = false
  buf : r.buf = none
  buflen : r.buflen = 0

theorem Sized.of_static {m : Bytes} {size : Int} {r r' : Reader} (h : Sized m size r) (k : Static r r') : Sized m size r' :=
  ⟨k.m.trans h.m, k.s.trans h.s, k.hasS.trans h.hasS, k.phi.trans h.phi, k.buf.trans h.buf, k.buflen.trans h.buflen⟩

theorem scrub_sized (m : Bytes) (size : Int) (fuel : Nat) : ∀ (r : Reader), Sized m size r → Sized m size (r.scrub zl fuel).1 := by
  induction fuel with
  | zero => intro r h; exact h
  | succ fuel ih =>
    intro r h
    have h1 := h.of_static (readCore_static (zl := zl) r.fuel r PAGESIZE h.buf)
    unfold Reader.scrub
    split
    · split
      · rename_i r1 e he; rw [he] at h1; exact h1
      · rename_i r1 d he; rw [he] at h1; exact ih _ h1
    · exact h

theorem step_sized (m : Bytes) (size : Int) (r : Reader) (op : ReaderOp) (h : Sized m size r) : Sized m size (r.step zl op).1 := by
  cases op with
  | read n =>
    have h1 := h.of_static (readCore_static (zl := zl) r.fuel r n h.buf)
    unfold Reader.step Reader.read Reader.needS
    simp only [if_pos h.hasS]
    split <;> (rename_i e; rw [e] at h1; exact h1)
  | seek o w =>
    unfold Reader.step Reader.seek
    by_cases hc : o ≠ 0 ∨ w ≠ 0
    · simp only [if_pos hc]; exact h
    · simp only [if_neg hc, h.phi]
      exact ⟨h.m, h.s, h.hasS, rfl, h.buf, h.buflen⟩
  | count fuel =>
    unfold Reader.step Reader.compressedBytesRead Reader.needS
    simp only [if_pos h.hasS]
    have h1 := scrub_sized (zl := zl) m size fuel { r with br := 0 } ⟨h.m, h.s, h.hasS, h.phi, h.buf, h.buflen⟩
    by_cases hc : r.br = r.s ∧ r.zip.unused = []
    · simp only [if_pos hc]
      rcases hs : ({ r with br := 0 } : Reader).scrub zl fuel with ⟨r1, e | u⟩
      · rw [hs] at h1; exact h1
      · rw [hs] at h1; exact ⟨h1.m, h1.s, h1.hasS, h1.phi, h1.buf, h1.buflen⟩
    · simp only [if_neg hc]; exact h

theorem steps_sized (m : Bytes) (size : Int) : ∀ (ops : List ReaderOp) (r : Reader), Sized m size r → Sized m size (r.steps zl ops)
  | [], _, h => h
  | op :: ops, r, h => steps_sized m size ops _ (step_sized m size r op h)

theorem sized_seek (m : Bytes) (size : Int) (r : Reader) (h : Sized m size r) : r.seek 0 0 = (Reader.ofSize m size, .ok ()) := by
  obtain ⟨h1, h2, h3, h4, h5, h6⟩ := h
  cases r
  simp only at h1 h2 h3 h4 h5 h6
  subst h1 h2 h3 h4 h5 h6
  rfl

/-- `m` and `_phi` as long as nobody seeks. -/
theorem step_same (r : Reader) (op : ReaderOp) (hs : r.hasS = true) (ho : op ≠ .seek 0 0) : UnchangedObject r (r.step zl op).1 := by
  cases op with
  | read n =>
    have h1 := readCore_same (zl := zl) r.fuel r n
    unfold Reader.step Reader.read Reader.needS
    simp only [if_pos hs]
    split <;> (rename_i e; rw [e] at h1; exact h1)
  | seek o w =>
    have hc : o ≠ 0 ∨ w ≠ 0 := by
      by_cases h1 : o = 0
      · right; intro h2; subst h1 h2; exact ho rfl
      · exact .inl h1
    unfold Reader.step Reader.seek
    simp only [if_pos hc]
    exact .refl r
  | count fuel =>
    unfold Reader.step Reader.compressedBytesRead Reader.needS
    simp only [if_pos hs]
    have h1 := scrub_same (zl := zl) fuel { r with br := 0 }
    by_cases hc : r.br = r.s ∧ r.zip.unused = []
    · simp only [if_pos hc]
      rcases he : ({ r with br := 0 } : Reader).scrub zl fuel with ⟨r1, e | u⟩
      · rw [he] at h1; exact ⟨h1.s, h1.hasS, h1.m, h1.phi⟩
      · rw [he] at h1; exact ⟨h1.s, h1.hasS, h1.m, h1.phi⟩
    · simp only [if_neg hc]; exact .refl r

theorem steps_same : ∀ (ops : List ReaderOp) (r : Reader), r.hasS = true → (∀ o ∈ ops, o ≠ .seek 0 0) → UnchangedObject r (r.steps zl ops)
  | [], r, _, _ => .refl r
  | op :: ops, r, h, ho =>
    have h1 := step_same r op h (ho op (by simp))
    h1.trans (steps_same ops _ (h1.hasS.trans h) fun o hm => ho o (by simp [hm]))

/-- A dead reader of an object with a header, after `seek(0)`, parses the header again as the first time. -/
theorem dead_again (m typ : Bytes) (size : Int) (r r' : Reader) (hn : Reader.new zl m = .ok (typ, size, r)) (hd : Dead r') (hm : r'.m = m)
    (hp : r'.phi = true) : (r'.seek 0 0).1.needS zl = (r, .ok ()) := by
  unfold Reader.new at hn
  split at hn
  · simp at hn
  rename_i r1 t z he
  simp only [Except.ok.injEq, Prod.mk.injEq] at hn
  obtain ⟨-, -, k⟩ := hn
  subst k
  have h5 := hd.buf
  have h6 := hd.buflen
  have hs : (r'.seek 0 0).1.hasS = false := by unfold Reader.seek; simp [hp]
  have hpar : (r'.seek 0 0).1.parseHeaderInfo zl = (Reader.ofSize m 0).parseHeaderInfo zl := by
    have : ({ (r'.seek 0 0).1 with s := maxHeader, hasS := true } : Reader) = { Reader.ofSize m 0 with s := maxHeader, hasS := true } := by
      clear hd hs
      cases r'
      simp only at hm hp h5 h6
      subst hm hp h5 h6
      rfl
    unfold Reader.parseHeaderInfo
    simp only [this]
  unfold Reader.needS
  rw [if_neg (by simp [hs]), hpar, he]

end GitDB
