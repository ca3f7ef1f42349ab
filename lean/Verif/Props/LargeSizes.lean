import Verif.Model.LargeSizes
import Verif.Props.Raises
import Verif.Props.DeltaMemory
/-!
# C101: announced sizes that do not fit a machine word
-/
set_option autoImplicit false

namespace GitDB.Props
open GitDB Spec

variable {zl : Zlib}

theorem readZipWord_fits (r : Reader) (size : Int) (h : fitsWord size = true) : r.readZipWord zl size = r.readZip zl size := by
  unfold Reader.readZipWord Reader.readZip ZDec.decompressWord
  simp only [h, if_true]
  rfl

theorem readZipWord_over (r : Reader) (size : Int) (h : ¬ fitsWord size = true) : (r.readZipWord zl size).2 = .error .overflowError := by
  unfold Reader.readZipWord ZDec.decompressWord
  simp only [h]
  rfl

theorem readCoreWord_or : ∀ (fuel : Nat) (r : Reader) (n : Int), r.readCoreWord zl fuel n = r.readCore zl fuel n ∨
    (r.readCoreWord zl fuel n).2 = .error .overflowError := by
  intro fuel
  induction fuel with
  | zero => intro r n; exact .inl rfl
  | succ fuel ih =>
    intro r n
    have hc : ∀ (r : Reader) (dat : Bytes) (size : Int) (x y : Reader × Res Bytes),
        x = (match r.readZipWord zl size with
        | (r, .error e) => (r, .error e)
        | (r, .ok new) =>
          if dat ++ new ≠ [] ∧ ((dat ++ new).length : Int) - dat.length < size ∧ r.br < r.s then
            match r.readCoreWord zl fuel (size - (dat ++ new).length) with
            | (r, .error e) => (r, .error e)
            | (r, .ok more) => (r, .ok (dat ++ new ++ more))
          else (r, .ok (dat ++ new)) : Reader × Res Bytes) →
        y = (match r.readZip zl size with
        | (r, .error e) => (r, .error e)
        | (r, .ok new) =>
          if dat ++ new ≠ [] ∧ ((dat ++ new).length : Int) - dat.length < size ∧ r.br < r.s then
            match r.readCore zl fuel (size - (dat ++ new).length) with
            | (r, .error e) => (r, .error e)
            | (r, .ok more) => (r, .ok (dat ++ new ++ more))
          else (r, .ok (dat ++ new)) : Reader × Res Bytes) →
        x = y ∨ x.2 = .error .overflowError := by
      intro r dat size x y hx hy
      by_cases hf : fitsWord size = true
      · rw [readZipWord_fits r size hf] at hx
        rcases hz : r.readZip zl size with ⟨r', e | new⟩
        · rw [hz] at hx hy; exact .inl (hx.trans hy.symm)
        · rw [hz] at hx hy
          dsimp only at hx hy
          split at hx
          · rename_i hcnd
            rw [if_pos hcnd] at hy
            rcases ih r' (size - (dat ++ new).length) with h | h
            · rw [h] at hx; exact .inl (hx.trans hy.symm)
            · rcases hz2 : r'.readCoreWord zl fuel (size - (dat ++ new).length) with ⟨r2, e | d⟩
              · rw [hz2] at hx h; right; rw [hx]; exact h
              · rw [hz2] at h; cases h
          · rename_i hcnd
            rw [if_neg hcnd] at hy
            exact .inl (hx.trans hy.symm)
      · have h := readZipWord_over (zl := zl) r size hf
        rcases hz : r.readZipWord zl size with ⟨r', e | new⟩
        · rw [hz] at hx h; right; rw [hx]; exact h
        · rw [hz] at h; cases h
    unfold Reader.readCoreWord Reader.readCore
    dsimp only
    generalize (if n < 1 then r.s - r.br else min n (r.s - r.br)) = size
    by_cases h0 : size = 0
    · left; rw [if_pos h0, if_pos h0]
    · rw [if_neg h0, if_neg h0]
      rcases r.buf with _ | b
      · exact hc _ _ _ _ _ rfl rfl
      · dsimp only
        by_cases hb : r.buflen ≥ size
        · rw [if_pos hb, if_pos hb]
          by_cases hf : fitsWord size = true
          · rw [if_pos hf]; exact .inl rfl
          · rw [if_neg hf]; exact .inr rfl
        · rw [if_neg hb, if_neg hb]
          exact hc _ _ _ _ _ rfl rfl

/-- The bytes of the buffer are counted, and the rest of the object fits a machine word. -/
def RestFits (r : Reader) : Prop := (r.buf = none ∨ 0 ≤ r.buflen) ∧ -(2 ^ 63 : Int) ≤ r.s - r.br ∧ r.s - r.br < (2 ^ 63 : Int)

theorem fits_iff (n : Int) : fitsWord n = true ↔ -(2 ^ 63 : Int) ≤ n ∧ n < (2 ^ 63 : Int) := by
  unfold fitsWord; rw [Bool.and_eq_true, decide_eq_true_iff, decide_eq_true_iff]

theorem readZip_keeps (r : Reader) (size : Int) : (r.readZip zl size).1.s = r.s ∧ (r.readZip zl size).1.buflen = r.buflen ∧
    r.br ≤ (r.readZip zl size).1.br ∧ (r.readZip zl size).1.buf = r.buf := by
  unfold Reader.readZip
  dsimp only
  split
  · exact ⟨rfl, rfl, Int.le_refl _, rfl⟩
  · exact ⟨rfl, rfl, by dsimp only; omega, rfl⟩

theorem readCoreWord_fits : ∀ (fuel : Nat) (r : Reader) (n : Int), RestFits r → r.readCoreWord zl fuel n = r.readCore zl fuel n := by
  intro fuel
  induction fuel with
  | zero => intro r n _; rfl
  | succ fuel ih =>
    intro r n ⟨hb0, hlo, hhi⟩
    have hc : ∀ (r : Reader) (dat : Bytes) (size : Int), fitsWord size = true → (r.buf = none ∨ 0 ≤ r.buflen) → r.s - r.br < (2 ^ 63 : Int) →
        (match r.readZipWord zl size with
        | (r, .error e) => (r, .error e)
        | (r, .ok new) =>
          if dat ++ new ≠ [] ∧ ((dat ++ new).length : Int) - dat.length < size ∧ r.br < r.s then
            match r.readCoreWord zl fuel (size - (dat ++ new).length) with
            | (r, .error e) => (r, .error e)
            | (r, .ok more) => (r, .ok (dat ++ new ++ more))
          else (r, .ok (dat ++ new)) : Reader × Res Bytes) =
        (match r.readZip zl size with
        | (r, .error e) => (r, .error e)
        | (r, .ok new) =>
          if dat ++ new ≠ [] ∧ ((dat ++ new).length : Int) - dat.length < size ∧ r.br < r.s then
            match r.readCore zl fuel (size - (dat ++ new).length) with
            | (r, .error e) => (r, .error e)
            | (r, .ok more) => (r, .ok (dat ++ new ++ more))
          else (r, .ok (dat ++ new)) : Reader × Res Bytes) := by
      intro r dat size hf hbl hr
      rw [readZipWord_fits r size hf]
      obtain ⟨k1, k2, k3, k4⟩ := readZip_keeps (zl := zl) r size
      rcases hz : r.readZip zl size with ⟨r', e | new⟩
      · rfl
      · rw [hz] at k1 k2 k3 k4
        dsimp only at k1 k2 k3 k4 ⊢
        split
        · rename_i hcnd
          rw [ih r' _ ⟨k4 ▸ hbl.imp id (fun h => k2 ▸ h), by omega, by omega⟩]
        · rfl
    unfold Reader.readCoreWord Reader.readCore
    dsimp only
    generalize hs : (if n < 1 then r.s - r.br else min n (r.s - r.br)) = size
    have hsz : -(2 ^ 63 : Int) ≤ size ∧ size < (2 ^ 63 : Int) := by
      split at hs <;> omega
    by_cases h0 : size = 0
    · rw [if_pos h0, if_pos h0]
    · rw [if_neg h0, if_neg h0]
      rcases hbuf : r.buf with _ | b
      · exact hc _ _ _ ((fits_iff _).2 hsz) hb0 hhi
      · have hb0 : 0 ≤ r.buflen := hb0.resolve_left (by rw [hbuf]; exact fun h => nomatch h)
        dsimp only
        by_cases hb : r.buflen ≥ size
        · rw [if_pos hb, if_pos hb, if_pos ((fits_iff _).2 hsz)]
        · rw [if_neg hb, if_neg hb]
          exact hc _ _ _ ((fits_iff _).2 ⟨by omega, by omega⟩) (.inl rfl) (by dsimp only; omega)

/-! ## Calls on a reader -/

theorem parseWord_or (r : Reader) : r.parseHeaderInfoWord zl = r.parseHeaderInfo zl ∨
    (r.parseHeaderInfoWord zl).2 = .error .overflowError := by
  unfold Reader.parseHeaderInfoWord Reader.parseHeaderInfo
  dsimp only
  generalize ({ r with s := (maxHeader : Int), hasS := true } : Reader) = q
  rcases readCoreWord_or (zl := zl) q.fuel q maxHeader with h | h
  · rw [h]; exact .inl rfl
  · rcases hz : q.readCoreWord zl q.fuel maxHeader with ⟨r2, e | d⟩
    · rw [hz] at h; exact .inr (by cases h; rfl)
    · rw [hz] at h; cases h

theorem parseWord_fits (r : Reader) (hb : r.buf = none ∨ 0 ≤ r.buflen) (h : fitsWord (8192 - r.br) = true) :
    r.parseHeaderInfoWord zl = r.parseHeaderInfo zl := by
  unfold Reader.parseHeaderInfoWord Reader.parseHeaderInfo
  dsimp only
  rw [fits_iff] at h
  have k : RestFits ({ r with s := (maxHeader : Int), hasS := true } : Reader) := ⟨hb, h.1, h.2⟩
  generalize ({ r with s := (maxHeader : Int), hasS := true } : Reader) = q at k
  rw [readCoreWord_fits _ _ _ k]
  rfl

theorem needSWord_or (r : Reader) : r.needSWord zl = r.needS zl ∨ (r.needSWord zl).2 = .error .overflowError := by
  unfold Reader.needSWord Reader.needS
  by_cases h : r.hasS = true
  · rw [if_pos h, if_pos h]; exact .inl rfl
  · rw [if_neg h, if_neg h]
    rcases parseWord_or (zl := zl) r with k | k
    · rw [k]; exact .inl rfl
    · rcases hz : r.parseHeaderInfoWord zl with ⟨r2, e | d⟩
      · rw [hz] at k; exact .inr (by cases k; rfl)
      · rw [hz] at k; cases k

theorem readWord_or (r : Reader) (n : Int) : r.readWord zl n = r.read zl n ∨ (r.readWord zl n).2 = .error .overflowError := by
  unfold Reader.readWord Reader.read
  rcases needSWord_or (zl := zl) r with k | k
  · rw [k]
    rcases r.needS zl with ⟨r2, e | d⟩
    · exact .inl rfl
    · exact readCoreWord_or _ _ _
  · rcases hz : r.needSWord zl with ⟨r2, e | d⟩
    · rw [hz] at k; exact .inr (by cases k; rfl)
    · rw [hz] at k; cases k

theorem scrubWord_or : ∀ (fuel : Nat) (r : Reader), r.scrubWord zl fuel = r.scrub zl fuel ∨
    (r.scrubWord zl fuel).2 = .error .overflowError := by
  intro fuel
  induction fuel with
  | zero => intro r; exact .inl rfl
  | succ fuel ih =>
    intro r
    unfold Reader.scrubWord Reader.scrub
    by_cases hc : r.zip.unused = [] ∧ r.cbr ≠ r.m.length
    · rw [if_pos hc, if_pos hc]
      rcases readCoreWord_or (zl := zl) r.fuel r PAGESIZE with k | k
      · rw [k]
        rcases r.readCore zl r.fuel PAGESIZE with ⟨r2, e | d⟩
        · exact .inl rfl
        · exact ih r2
      · rcases hz : r.readCoreWord zl r.fuel PAGESIZE with ⟨r2, e | d⟩
        · rw [hz] at k; exact .inr (by cases k; rfl)
        · rw [hz] at k; cases k
    · rw [if_neg hc, if_neg hc]; exact .inl rfl

theorem countWord_or (fuel : Nat) (r : Reader) : r.compressedBytesReadWord zl fuel = r.compressedBytesRead zl fuel ∨
    (r.compressedBytesReadWord zl fuel).2 = .error .overflowError := by
  unfold Reader.compressedBytesReadWord Reader.compressedBytesRead
  rcases needSWord_or (zl := zl) r with k | k
  · rw [k]
    rcases r.needS zl with ⟨r2, e | d⟩
    · exact .inl rfl
    · dsimp only
      by_cases hc : r2.br = r2.s ∧ r2.zip.unused = []
      · rw [if_pos hc, if_pos hc]
        generalize ({ r2 with br := 0 } : Reader) = q
        rcases scrubWord_or (zl := zl) fuel q with k | k
        · rw [k]; exact .inl rfl
        · rcases hz : q.scrubWord zl fuel with ⟨r2, e | d⟩
          · rw [hz] at k; exact .inr (by cases k; rfl)
          · rw [hz] at k; cases k
      · rw [if_neg hc, if_neg hc]; exact .inl rfl
  · rcases hz : r.needSWord zl with ⟨r2, e | d⟩
    · rw [hz] at k; exact .inr (by cases k; rfl)
    · rw [hz] at k; cases k

/-- **C101** the limit shows in one way only: every call on a reader, in any state, does exactly what it does without the limit, or
raises `OverflowError`. -/
theorem C101_or (r : Reader) (op : ReaderOp) : r.stepWord zl op = r.step zl op ∨ (r.stepWord zl op).2 = .error .overflowError := by
  unfold Reader.stepWord Reader.step
  cases op with
  | read n =>
    dsimp only
    rcases readWord_or (zl := zl) r n with k | k
    · rw [k]; exact .inl rfl
    · rcases hz : r.readWord zl n with ⟨r2, e | d⟩
      · rw [hz] at k; exact .inr (by cases k; rfl)
      · rw [hz] at k; cases k
  | seek o w => exact .inl rfl
  | count f =>
    dsimp only
    rcases countWord_or (zl := zl) f r with k | k
    · rw [k]; exact .inl rfl
    · rcases hz : r.compressedBytesReadWord zl f with ⟨r2, e | d⟩
      · rw [hz] at k; exact .inr (by cases k; rfl)
      · rw [hz] at k; cases k

/-- **C101** a stream made from an object in memory is the same: parsing the header asks for 8192 bytes. -/
theorem C101_new (m : Bytes) : Reader.newWord zl m = Reader.new zl m := by
  unfold Reader.newWord Reader.new
  rw [parseWord_fits _ (.inl rfl) (show fitsWord (8192 - 0) = true by decide)]
  rfl

/-- **C101** while the rest of the object fits a machine word, reading is the same, for every number asked for. -/
theorem C101_fits (r : Reader) (n : Int) (hs : r.hasS = true) (h : RestFits r) : r.readWord zl n = r.read zl n := by
  unfold Reader.readWord Reader.read Reader.needSWord Reader.needS
  rw [if_pos hs, if_pos hs]
  exact readCoreWord_fits _ _ _ h

/-- What is left in the buffer. -/
def buffered (r : Reader) : Int := if r.buf = none then 0 else r.buflen

/-- **C101** (finding) `read()`, and `read(n)` with a large `n`, of what does not fit: `OverflowError`. -/
theorem C101_over (r : Reader) (n : Int) (hs : r.hasS = true) (h : (2 ^ 63 : Int) ≤ r.s - r.br - buffered r) (h0 : 0 ≤ buffered r)
    (hn : n < 1 ∨ (2 ^ 63 : Int) ≤ n - buffered r) : (r.readWord zl n).2 = .error .overflowError := by
  unfold Reader.readWord Reader.needSWord
  rw [if_pos hs]
  show (r.readCoreWord zl ((r.s - r.br).toNat + 2 + 1) n).2 = _
  unfold Reader.readCoreWord
  dsimp only
  generalize hz : (if n < 1 then r.s - r.br else min n (r.s - r.br)) = size
  have hsz : (2 ^ 63 : Int) ≤ size - buffered r := by split at hz <;> omega
  rw [if_neg (by omega)]
  have hc : ∀ (f : Nat) (q : Reader) (dat : Bytes) (k : Int), (2 ^ 63 : Int) ≤ k →
        (match q.readZipWord zl k with
        | (r, .error e) => (r, .error e)
        | (r, .ok new) =>
          if dat ++ new ≠ [] ∧ ((dat ++ new).length : Int) - dat.length < k ∧ r.br < r.s then
            match r.readCoreWord zl f (k - (dat ++ new).length) with
            | (r, .error e) => (r, .error e)
            | (r, .ok more) => (r, .ok (dat ++ new ++ more))
          else (r, .ok (dat ++ new)) : Reader × Res Bytes).2 = .error .overflowError := by
    intro f q dat k hk
    have := readZipWord_over (zl := zl) q k (by rw [fits_iff]; omega)
    rcases hz : q.readZipWord zl k with ⟨r2, e | d⟩
    · rw [hz] at this; exact this
    · rw [hz] at this; cases this
  unfold buffered at hsz
  rcases hb : r.buf with _ | b
  · rw [if_pos hb] at hsz
    exact hc _ _ _ _ (by omega)
  · rw [if_neg (by rw [hb]; exact fun h => nomatch h)] at hsz
    dsimp only
    rw [if_neg (by omega)]
    exact hc _ _ _ _ (by omega)

/-! ## Streams from packs -/

/-- The same result, or `OverflowError`. -/
def SameOr {α : Type} (a b : Res α) : Prop := a = b ∨ a = .error .overflowError

theorem sameOr_bind {α β : Type} {a b : Res α} {f g : α → Res β} (h : SameOr a b) (hf : ∀ x, SameOr (f x) (g x)) :
    SameOr (a >>= f) (b >>= g) := by
  rcases h with rfl | rfl
  · rcases a with e | x
    · exact .inl rfl
    · exact hf x
  · exact .inr rfl

theorem sameOr_refl {α : Type} (a : Res α) : SameOr a a := .inl rfl

section
variable {σ ω ρ : Type} {read' read : σ → Int → σ × Res Bytes}

theorem copy_or (hr : ∀ s n, read' s n = read s n ∨ (read' s n).2 = .error .overflowError) (write : ω → Bytes → ω × Res ρ)
    (size chunk : Int) : ∀ (fuel : Nat) (dbw : Int) (s : σ) (w : ω),
    streamCopyLoop read' write size chunk fuel dbw s w = streamCopyLoop read write size chunk fuel dbw s w ∨
    (streamCopyLoop read' write size chunk fuel dbw s w).2.2 = .error .overflowError := by
  intro fuel
  induction fuel with
  | zero => intro dbw s w; exact .inl rfl
  | succ fuel ih =>
    intro dbw s w
    unfold streamCopyLoop
    dsimp only
    generalize min chunk (size - dbw) = cs
    rcases hr s cs with k | k
    · rw [k]
      rcases read s cs with ⟨s2, e | d⟩
      · exact .inl rfl
      · dsimp only
        rcases write w d with ⟨w2, e | x⟩
        · exact .inl rfl
        · dsimp only
          split
          · exact .inl rfl
          · exact ih _ _ _
    · rcases hz : read' s cs with ⟨s2, e | d⟩
      · rw [hz] at k; exact .inr (by cases k; rfl)
      · rw [hz] at k; cases k

theorem head_or (hr : ∀ s n, read' s n = read s n ∨ (read' s n).2 = .error .overflowError) (s : σ) (n : Nat) :
    SameOr (readDeltaHead read' s n) (readDeltaHead read s n) := by
  unfold readDeltaHead
  rcases hr s 512 with k | k
  · rw [k]; exact .inl rfl
  · rcases hz : read' s 512 with ⟨s2, e | d⟩
    · rw [hz] at k; exact .inr (by cases k; rfl)
    · rw [hz] at k; cases k

theorem heads_or (hr : ∀ s n, read' s n = read s n ∨ (read' s n).2 = .error .overflowError) : ∀ l : List (σ × Nat),
    SameOr (readDeltaHeads read' l) (readDeltaHeads read l) := by
  intro l
  induction l with
  | nil => exact .inl rfl
  | cons x l ih =>
    exact sameOr_bind (head_or hr x.1 x.2) fun d => sameOr_bind ih fun ds => sameOr_refl _

theorem alloc_or (limit : Nat) (n : Int) : SameOr (allocateUpTo limit .overflowError n) (allocateMemory n) := by
  unfold allocateUpTo
  split
  · exact .inr rfl
  · exact .inl rfl

theorem applyOne_or (hr : ∀ s n, read' s n = read s n ∨ (read' s n).2 = .error .overflowError) (limit fuel : Nat) (b t : Buf)
    (d : DeltaInfo σ) : SameOr (applyOneUpTo limit .overflowError fuel read' b t d) (applyOne fuel read b t d) := by
  unfold applyOneUpTo
  split
  · exact .inr rfl
  · unfold applyOne
    refine sameOr_bind (sameOr_refl _) fun dd => ?_
    rcases dd.write d.dbuf with ⟨dd2, e | x⟩
    · exact .inl rfl
    · refine sameOr_bind (sameOr_refl _) fun dd3 => ?_
      unfold streamCopy
      dsimp only
      rcases copy_or hr Buf.write d.size (256 * PAGESIZE : Nat) fuel 0 d.strm dd3 with k | k
      · rw [k]; exact sameOr_refl _
      · rcases hz : streamCopyLoop read' Buf.write d.size (256 * PAGESIZE : Nat) fuel 0 d.strm dd3 with ⟨s2, w2, e | x⟩
        · rw [hz] at k; cases k; exact .inr rfl
        · rw [hz] at k; cases k

theorem applyAll_or (hr : ∀ s n, read' s n = read s n ∨ (read' s n).2 = .error .overflowError) (limit fuel : Nat) :
    ∀ (l : List (DeltaInfo σ)) (b t : Buf), SameOr (applyAllUpTo limit .overflowError fuel read' l b t) (applyAll fuel read l b t) := by
  intro l
  induction l with
  | nil => intro b t; exact .inl rfl
  | cons d l ih => intro b t; exact sameOr_bind (applyOne_or hr limit fuel b t d) fun x => ih x.1 x.2

theorem newDelta_or (hr : ∀ s n, read' s n = read s n ∨ (read' s n).2 = .error .overflowError) (limit fuel : Nat) (l : List (σ × Nat)) :
    SameOr (newDeltaReaderUpTo limit .overflowError fuel read' l) (newDeltaReader fuel read l) := by
  unfold newDeltaReaderUpTo newDeltaReader
  rcases l.reverse with _ | ⟨bs, _ | ⟨d, ds⟩⟩
  · exact sameOr_refl _
  · exact sameOr_refl _
  · dsimp only
    refine sameOr_bind ?_ fun x => sameOr_refl _
    unfold setCacheBruteUpTo setCacheBrute
    refine sameOr_bind (heads_or hr _) fun infos => ?_
    dsimp only
    generalize (if (d :: ds).reverse.length > 1 then _ else _ : Nat × Nat) = sz
    refine sameOr_bind (alloc_or _ _) fun b => ?_
    unfold streamCopy
    rcases copy_or hr Buf.write sz.1 (256 * PAGESIZE : Nat) fuel 0 bs.1 b with k | k
    · rw [k]
      rcases streamCopyLoop read Buf.write sz.1 (256 * PAGESIZE : Nat) fuel 0 bs.1 b with ⟨s2, w2, e | x⟩
      · exact sameOr_refl _
      · exact sameOr_bind (sameOr_refl _) fun b => sameOr_bind (alloc_or _ _) fun t =>
          sameOr_bind (applyAll_or hr limit fuel _ _ _) fun x => sameOr_refl _
    · rcases hz : streamCopyLoop read' Buf.write sz.1 (256 * PAGESIZE : Nat) fuel 0 bs.1 b with ⟨s2, w2, e | x⟩
      · rw [hz] at k; cases k; exact .inr rfl
      · rw [hz] at k; cases k
end

theorem openWord_or (fuel : Nat) (s : PStream) : SameOr (s.openWord zl fuel) (s.open zl fuel) := by
  cases s with
  | base r => exact sameOr_refl _
  | resolved r => exact sameOr_refl _
  | delta l =>
    unfold PStream.openWord PStream.open
    rcases newDelta_or (readWord_or (zl := zl)) maxWord fuel (l.map fun o => (o.stream, o.size)) with k | k
    · simp only [k]; exact sameOr_refl _
    · simp only [k]; exact .inr rfl

theorem pstreamWord_or (fuel : Nat) (s : PStream) (n : Int) : PStream.readWord zl fuel s n = PStream.read zl fuel s n ∨
    (PStream.readWord zl fuel s n).2 = .error .overflowError := by
  unfold PStream.readWord PStream.read
  rcases openWord_or (zl := zl) fuel s with k | k
  · rw [k]
    rcases s.open zl fuel with e | r | l | r
    · exact .inl rfl
    · dsimp only
      rcases readWord_or (zl := zl) r n with k | k
      · rw [k]; exact .inl rfl
      · exact .inr k
    · exact .inl rfl
    · exact .inl rfl
  · rw [k]; exact .inr rfl

/-- **C101** the same for streams from packs and a sequence of reads: the answers are those without the limit, or `OverflowError`
is raised. -/
theorem C101_pack_or (fuel : Nat) : ∀ (ns : List Int) (s : PStream),
    readMany (PStream.readWord zl fuel) s ns = readMany (PStream.read zl fuel) s ns ∨
    (readMany (PStream.readWord zl fuel) s ns).2 = .error .overflowError := by
  intro ns
  induction ns with
  | nil => intro s; exact .inl rfl
  | cons n ns ih =>
    intro s
    unfold readMany
    rcases pstreamWord_or (zl := zl) fuel s n with k | k
    · rw [k]
      rcases PStream.read zl fuel s n with ⟨s2, e | d⟩
      · exact .inl rfl
      · dsimp only
        rcases ih s2 with k | k
        · rw [k]; exact .inl rfl
        · rcases hz : readMany (PStream.readWord zl fuel) s2 ns with ⟨s3, e | d⟩
          · rw [hz] at k; exact .inr (by cases k; rfl)
          · rw [hz] at k; cases k
    · rcases hz : PStream.readWord zl fuel s n with ⟨s2, e | d⟩
      · rw [hz] at k; exact .inr (by cases k; rfl)
      · rw [hz] at k; cases k

/-- **C101** so what reading from any pack can raise is what C92 says, and `OverflowError`. -/
theorem C101_pack_raises (p : PackEntity) (f : Nat) (sha : Bytes) (o : OStream) (h : p.stream f sha = .ok o) (fuel : Nat)
    (hf : o.stream.Enough fuel) (ns : List Int) :
    Raises (readMany (PStream.readWord zl fuel) o.stream ns).2 [.zlibError, .indexError, .assertionError, .valueError, .overflowError] := by
  rcases C101_pack_or (zl := zl) fuel ns o.stream with k | k
  · rw [k]; exact (C92_read p f sha o h fuel hf ns).mono (by simp)
  · rw [k]; exact raises_error (by simp)

/-- All sizes the stream was made with, and those announced by its deltas, fit a machine word. -/
def WordSized (zl : Zlib) : PStream → Prop
  | .base r => r.s - r.br < (2 ^ 63 : Int)
  | .delta l => (∀ x ∈ l, x.size < 2 ^ 63) ∧ ∀ infos,
      readDeltaHeads (Reader.read zl) (l.dropLast.map fun o => (o.stream, o.size)) = .ok infos → ∀ i ∈ infos, i.targetSize < 2 ^ 63
  | .resolved _ => True

theorem sane_fits {r : Reader} (h : Sane r) (hk : r.s - r.br < (2 ^ 63 : Int)) (n : Int) : r.readWord zl n = r.read zl n :=
  C101_fits r n h.1 ⟨.inl h.2.2, by have := h.2.1; omega, hk⟩

theorem readWord_sane : ReadRaises (fun r k => Left r k ∧ k < 2 ^ 63) (Reader.readWord zl) [.zlibError] := by
  intro r k n ⟨h, hk⟩
  have e := sane_fits (zl := zl) h.1 (by have := h.2; omega) n
  obtain ⟨k', h1, h2, h3⟩ := read_sane (zl := zl) r k n h
  rw [e]
  exact ⟨k', ⟨h1, by omega⟩, h2, h3⟩

theorem openWord_fits (fuel : Nat) (s : PStream) (hm : s.Made) (hf : s.Enough fuel) (hw : WordSized zl s) :
    s.openWord zl fuel = s.open zl fuel := by
  cases s with
  | base r => rfl
  | resolved r => rfl
  | delta l =>
    have hall : ∀ x ∈ l, FromPack x := hm
    have hlt : ∀ x ∈ l, x.size < fuel := hf
    obtain ⟨hw1, hw2⟩ := hw
    unfold PStream.openWord PStream.open
    have key : newDeltaReaderUpTo maxWord .overflowError fuel (Reader.readWord zl) (l.map fun o => (o.stream, o.size)) =
        newDeltaReader fuel (Reader.read zl) (l.map fun o => (o.stream, o.size)) := by
      rcases newDelta_or (readWord_or (zl := zl)) maxWord fuel (l.map fun o => (o.stream, o.size)) with k | k
      · exact k
      · exfalso
        have hr := newDelta_raises (readWord_sane (zl := zl)) fuel (l.map fun o => (o.stream, o.size)) (by
          intro x hx
          obtain ⟨o, ho, rfl⟩ := List.mem_map.1 hx
          exact ⟨⟨(hall o ho).2, hw1 o ho⟩, hlt o ho⟩)
        have he : newDeltaReaderUpTo maxWord .overflowError fuel (Reader.readWord zl) (l.map fun o => (o.stream, o.size)) =
            newDeltaReader fuel (Reader.readWord zl) (l.map fun o => (o.stream, o.size)) := by
          rcases List.eq_nil_or_concat l with rfl | ⟨ss, b, rfl⟩
          · rfl
          · rw [List.concat_eq_append] at *
            rw [List.map_append, List.map_singleton]
            by_cases hne : ss = []
            · subst hne; rfl
            · refine C100_enough maxWord .overflowError fuel _ _ (by simpa using hne) _ _ ?_ ?_ ?_
              · have := hw1 b (by simp); unfold maxWord; omega
              · intro x hx
                obtain ⟨o, ho, rfl⟩ := List.mem_map.1 hx
                have := hw1 o (by simp [ho])
                show o.size ≤ maxWord
                unfold maxWord; omega
              · intro infos hi i hm
                have h3 : readDeltaHeads (Reader.read zl) (ss.map fun o => (o.stream, o.size)) = .ok infos := by
                  rcases heads_or (readWord_or (zl := zl)) (ss.map fun o => (o.stream, o.size)) with q | q
                  · rw [← q]; exact hi
                  · rw [q] at hi; cases hi
                have := hw2 infos (by rw [List.dropLast_concat]; exact h3) i hm
                unfold maxWord; omega
        have h5 := hr .overflowError (by rw [← he]; exact k)
        exact absurd h5 (by decide)
    simp only [key]
    rfl

/-- **C101** if all sizes fit, reading from a stream from a pack is the same. -/
theorem C101_pack_fits (fuel : Nat) : ∀ (ns : List Int) (s : PStream), s.Made → s.Enough fuel → WordSized zl s →
    readMany (PStream.readWord zl fuel) s ns = readMany (PStream.read zl fuel) s ns := by
  intro ns
  induction ns with
  | nil => intro s _ _ _; rfl
  | cons n ns ih =>
    intro s hm hf hw
    have h1 : PStream.readWord zl fuel s n = PStream.read zl fuel s n ∧ WordSized zl (PStream.read zl fuel s n).1 := by
      unfold PStream.readWord PStream.read
      rw [openWord_fits fuel s hm hf hw]
      cases s with
      | base r =>
        have hs : Sane r := hm
        have e := sane_fits (zl := zl) hs hw n
        obtain ⟨k', h3, h4, -⟩ := read_sane (zl := zl) r (r.s - r.br).toNat n ⟨hs, by have := hs.2.1; omega⟩
        refine ⟨?_, ?_⟩
        · show ((PStream.base (r.readWord zl n).1, (r.readWord zl n).2) : PStream × Res Bytes) = _
          rw [e]; rfl
        · show (r.read zl n).1.s - (r.read zl n).1.br < (2 ^ 63 : Int)
          have := h3.2
          have hw : r.s - r.br < (2 ^ 63 : Int) := hw
          have := hs.2.1
          omega
      | resolved r => exact ⟨rfl, trivial⟩
      | delta l =>
        obtain ⟨-, h2⟩ := open_raises (zl := zl) fuel (.delta l) hm hf
        rcases ho : (PStream.delta l).open zl fuel with e | r | l' | r
        · exact ⟨rfl, hw⟩
        · exfalso
          unfold PStream.open at ho
          dsimp only at ho
          split at ho <;> cases ho
        · exact absurd rfl ((h2 _ ho).2.2 l')
        · exact ⟨rfl, trivial⟩
    obtain ⟨k1, k2, -⟩ := stream_read_raises (zl := zl) fuel s n hm hf
    unfold readMany
    rw [h1.1]
    rcases hr : PStream.read zl fuel s n with ⟨s2, e | d⟩
    · rfl
    · rw [hr] at k1 k2 h1
      dsimp only
      rw [ih s2 k1 k2 h1.2]

/-- **C101** opening a delta raises `OverflowError` if the base announces 2^63 bytes or more, or if there are several deltas and the result
of one of them does. -/
theorem C101_pack_over (fuel : Nat) (ss : List PackObj) (b : PackObj) (infos : List (DeltaInfo Reader)) (hne : ss ≠ [])
    (hh : readDeltaHeads (Reader.read zl) (ss.map fun o => (o.stream, o.size)) = .ok infos)
    (hbig : 2 ^ 63 ≤ b.size ∨ (1 < ss.length ∧ ∃ i ∈ infos, 2 ^ 63 ≤ i.targetSize)) :
    (PStream.delta (ss ++ [b])).openWord zl fuel = .error .overflowError := by
  have key : newDeltaReaderUpTo maxWord .overflowError fuel (Reader.readWord zl) ((ss ++ [b]).map fun o => (o.stream, o.size)) =
      .error .overflowError := by
    unfold newDeltaReaderUpTo
    rw [List.map_append, List.map_singleton, List.reverse_append, List.reverse_singleton, List.singleton_append]
    rcases hrev : (ss.map fun o => (o.stream, o.size)).reverse with _ | ⟨d, ds⟩
    · exact absurd (by simpa using hrev) hne
    · have hl : (d :: ds).reverse = ss.map fun o => (o.stream, o.size) := by rw [← hrev, List.reverse_reverse]
      rw [hrev]
      dsimp only
      rw [hl]
      unfold setCacheBruteUpTo
      rcases heads_or (readWord_or (zl := zl)) (ss.map fun o => (o.stream, o.size)) with k | k
      · rw [k, hh]
        have hge := (targets_ge infos 0).2
        have hmax : ∀ (sz : Nat × Nat), maxWord < sz.1 → allocateUpTo maxWord .overflowError sz.1 = .error .overflowError := by
          intro sz h
          unfold allocateUpTo
          rw [if_pos (by omega)]
        show ((allocateUpTo maxWord .overflowError _ >>= _ : Res _) >>= _) = _
        rw [hmax]
        · rfl
        · show maxWord < (if (ss.map fun o => (o.stream, o.size)).length > 1 then
            (max b.size (infos.foldl (fun m d => max m d.targetSize) 0), max b.size (infos.foldl (fun m d => max m d.targetSize) 0))
            else (b.size, infos.foldl (fun m d => max m d.targetSize) 0)).1
          unfold maxWord
          rcases hbig with h | ⟨h, i, hi, h2⟩
          · split
            · dsimp only; omega
            · dsimp only; omega
          · rw [if_pos (by simpa using h)]
            have := hge i hi
            dsimp only
            omega
      · rw [k]; rfl
  unfold PStream.openWord
  dsimp only
  rw [key]

/-! ## Checking an object -/

/-- **C101** `is_valid_stream(sha)`: the same, or `OverflowError`. -/
theorem C101_sha (H : Hash) (p : PackEntity) (fuel : Nat) (sha : Bytes) :
    p.isValidShaWord H zl fuel sha = p.isValidSha H zl fuel sha ∨ p.isValidShaWord H zl fuel sha = .error .overflowError := by
  unfold PackEntity.isValidShaWord PackEntity.isValidSha
  rcases p.stream fuel sha with e | o
  · exact .inl rfl
  · dsimp only
    have hs : SameOr (o.getSizeWord zl fuel) (o.getSize zl fuel) := by
      unfold OStream.getSizeWord OStream.getSize
      rcases o.size with _ | n
      · dsimp only
        rcases openWord_or (zl := zl) fuel o.stream with k | k
        · rw [k]; exact sameOr_refl _
        · rw [k]; exact .inr rfl
      · exact sameOr_refl _
    rcases hs with k | k
    · rw [k]
      rcases o.getSize zl fuel with e | size
      · exact .inl rfl
      · dsimp only
        unfold writeObject
        rcases looseObjectHeader o.type.text size with e | hdr
        · exact .inl rfl
        · dsimp only
          rcases Sha1Writer.writeInt {} hdr with ⟨w, e | _ | n⟩
          · exact .inl rfl
          · exact .inl rfl
          · dsimp only
            unfold streamCopy
            rcases copy_or (pstreamWord_or (zl := zl) fuel) Sha1Writer.writeInt size chunkSize fuel 0 o.stream w with k | k
            · rw [k]; exact .inl rfl
            · rcases hz : streamCopyLoop (PStream.readWord zl fuel) Sha1Writer.writeInt size chunkSize fuel 0 o.stream w with ⟨s2, w2, e | x⟩
              · rw [hz] at k; cases k; exact .inr rfl
              · rw [hz] at k; cases k
    · rw [k]; exact .inr rfl

/-! ## Loose objects -/

/-- **C101** (finding) a loose object announcing 2^63 + 8192 bytes or more: it can be opened, `read()` raises `OverflowError`. -/
theorem C101_loose (m : Bytes) (typ : Bytes) (size : Int) (r : Reader) (h : Reader.newWord zl m = .ok (typ, size, r))
    (hs : (2 ^ 63 + 8192 : Int) ≤ size) (n : Int) (hn : n < 1) : (r.readWord zl n).2 = .error .overflowError := by
  rw [C101_new] at h
  unfold Reader.new Reader.parseHeaderInfo at h
  dsimp only at h
  have hq : Sane ({ Reader.ofSize m 0 with s := (maxHeader : Int), hasS := true } : Reader) :=
    ⟨rfl, show (0 : Int) ≤ 8192 by decide, rfl⟩
  have hf : ((({ Reader.ofSize m 0 with s := (maxHeader : Int), hasS := true } : Reader)).s -
      ({ Reader.ofSize m 0 with s := (maxHeader : Int), hasS := true } : Reader).br).toNat <
      ({ Reader.ofSize m 0 with s := (maxHeader : Int), hasS := true } : Reader).fuel := by unfold Reader.fuel; omega
  have hh : ({ Reader.ofSize m 0 with s := (maxHeader : Int), hasS := true } : Reader).hasS = true := rfl
  generalize ({ Reader.ofSize m 0 with s := (maxHeader : Int), hasS := true } : Reader) = q at h hq hf hh
  obtain ⟨h1, h2, h3, h4⟩ := readCore_sane (zl := zl) q.fuel q maxHeader hq hf
  rcases hc : q.readCore zl q.fuel maxHeader with ⟨r2, e | hdr⟩
  · rw [hc] at h; cases h
  · rw [hc] at h h1 h4
    dsimp only at h
    rcases hp : parseObjectHeader hdr with e | ⟨t, k, hend⟩
    · rw [hp] at h; cases h
    · rw [hp] at h
      dsimp only at h
      cases h
      have hl : (hdr.length : Int) ≤ 8192 := by
        rcases h4 with ⟨d, h5, -, h6⟩ | h5
        · cases h5; exact h6 (by decide)
        · cases h5
      have hend0 : hend ≤ hdr.length := by
        rcases parseObjectHeader_any hdr with k | ⟨_, _, _, _, k, h7, -⟩
        · rw [hp] at k; cases k
        · rw [hp] at k; cases k; exact h7
      refine C101_over _ n h1.1 ?_ ?_ (.inl hn)
      · show (2 ^ 63 : Int) ≤ size - 0 - ((hdr.length : Int) - hend)
        omega
      · show (0 : Int) ≤ (hdr.length : Int) - hend
        omega

/-! ## Examples -/

/-- `blob 9223372036854784001` (2^63 + 8193), then `hello`. -/
def hugeBlob : Bytes := [98, 108, 111, 98, 32] ++ natToDec 9223372036854784001 ++ [0, 104, 101, 108, 108, 111, 255]

/-- The object can be opened and read in pieces. -/
example : ((Reader.newWord toyZlib hugeBlob).map fun x => (x.1, x.2.1, (x.2.2.readWord toyZlib 2).2)) =
    .ok (strBlobType, 9223372036854784001, .ok [104, 101]) := by decide +kernel
/-- `read()` raises, and takes away what had been read along with the header: a `read(2)` after that finds nothing. -/
example : ((Reader.newWord toyZlib hugeBlob).map fun x => ((x.2.2.readWord toyZlib (-1)).2, ((x.2.2.readWord toyZlib (-1)).1.readWord toyZlib 2).2)) =
    .ok (.error .overflowError, .ok []) := by decide +kernel
example : ((Reader.new toyZlib hugeBlob).map fun x => (x.2.2.read toyZlib (-1)).2) = .ok (.ok [104, 101, 108, 108, 111]) := by decide +kernel

/-- An entry of a pack announcing 2^63 bytes. -/
def hugePack : PackFile := smallPack ([0xb0] ++ List.replicate 8 0x80 ++ [0x08, 65, 66, 255])
/-- The first reads. -/
def readHuge (n : Int) (p : PackEntity) : Res Bytes :=
  match p.stream 9 (List.replicate 20 0) with
  | .error e => .error e
  | .ok o => (o.stream.readWord toyZlib 9 n).2

example : ask (smallIdx 15) hugePack (readHuge 1) = .ok [65] ∧ ask (smallIdx 15) hugePack (readHuge 2) = .ok [65, 66] ∧
    ask (smallIdx 15) hugePack (readHuge (-1)) = .error .overflowError := by decide +kernel
example : ask (smallIdx 12) hugePack (readHuge (-1)) = .ok [65] := by decide +kernel
example : WordSized toyZlib (.base (Reader.ofSize [65, 255] 1)) ∧ (PStream.base (Reader.ofSize [65, 255] 1)).Made :=
  ⟨show (1 - 0 : Int) < 2 ^ 63 by decide, rfl, show (0 : Int) ≤ 1 by decide, rfl⟩
/-- The hypotheses of `C101_pack_over`: a delta of an object announcing 2^63 bytes, and two deltas, one announcing that for its result. -/
example : (PStream.delta ([⟨0, OFS_DELTA, 4, .ofs 3, 2, Reader.ofSize [2, 2, 1, 7, 255] 4⟩] ++
    [⟨0, 3, 2 ^ 63, .none, 1, Reader.ofSize [65, 255] (2 ^ 63)⟩])).openWord toyZlib 9 = .error .overflowError :=
  C101_pack_over 9 _ _ [⟨[1, 7], 2, 2, 2, 4, ((Reader.ofSize [2, 2, 1, 7, 255] 4).read toyZlib 512).1⟩] (by simp) rfl
    (.inl (Nat.le_refl _))
example : ((PStream.delta [⟨0, OFS_DELTA, 4, .ofs 3, 2, Reader.ofSize [2, 2, 1, 7, 255] 4⟩,
      ⟨0, OFS_DELTA, 11, .ofs 3, 2, Reader.ofSize ([2] ++ List.replicate 9 128 ++ [1, 255]) 11⟩,
      ⟨0, 3, 2, .none, 1, Reader.ofSize [65, 66, 255] 2⟩]).openWord toyZlib 9).map (fun _ => ()) = .error .overflowError := by decide +kernel
/-- A negative announced size is refused with another exception if it is large. -/
example : ((Reader.ofSize [65, 255] (-5)).readWord toyZlib (-1)).2 = .error .valueError ∧
    ((Reader.ofSize [65, 255] (-(2 ^ 63) - 1)).readWord toyZlib (-1)).2 = .error .overflowError := by decide +kernel

end GitDB.Props
