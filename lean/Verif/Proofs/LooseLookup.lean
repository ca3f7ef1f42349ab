import Verif.Proofs.LooseRun
/-!
# Lemmas about looking up loose objects
-/
set_option autoImplicit false

namespace GitDB
open Spec

variable {σ : Type}

theorem isHexOf_injective {h a b : Bytes} (ha : IsHexOf h a) (hb : IsHexOf h b) : a = b := by
  have e1 := isHexOf_unique ha (binToHex_isHexOf a)
  have e2 := isHexOf_unique hb (binToHex_isHexOf b)
  have : hexToBin (binToHex a) = hexToBin (binToHex b) := by rw [← e1, ← e2]
  rw [hexToBin_binToHex, hexToBin_binToHex] at this
  simpa using this

theorem isPathOf_objectPath (name : Bytes) : IsPathOf (objectPath (binToHex name)) name :=
  ⟨binToHex name, binToHex_isHexOf name, rfl⟩

theorem isPathOf_unique {p : Path} {name : Bytes} (h : IsPathOf p name) :
    p = objectPath (binToHex name) := by
  obtain ⟨h', h1, h2⟩ := h
  rw [h2, isHexOf_unique h1 (binToHex_isHexOf name)]; rfl

theorem isPathOf_injective {p : Path} {a b : Bytes} (ha : IsPathOf p a) (hb : IsPathOf p b) : a = b := by
  obtain ⟨h, h1, h2⟩ := ha
  obtain ⟨h', h1', h2'⟩ := hb
  rw [h2] at h2'
  simp only [List.cons.injEq, and_true] at h2'
  have : h = h' := by
    rw [← List.take_append_drop 2 h, ← List.take_append_drop 2 h', h2'.1, h2'.2]
  subst this
  exact isHexOf_injective h1 h1'

theorem dec_lower (ds : Bytes) : ∀ a, 10 ^ ds.length * a ≤
    ds.foldl (fun a d => 10 * a + (d.toNat - 48)) a := by
  induction ds with
  | nil => intro a; simp
  | cons d ds ih =>
    intro a
    simp only [List.foldl_cons, List.length_cons, Nat.pow_succ]
    have h1 := ih (10 * a + (d.toNat - 48))
    have h2 : 10 ^ ds.length * 10 * a ≤ 10 ^ ds.length * (10 * a + (d.toNat - 48)) := by
      rw [Nat.mul_assoc]; exact Nat.mul_le_mul_left _ (by omega)
    omega

/-- Decimal numbers below `10 ^ (k + 1)` have at most `k + 1` digits. -/
theorem isDecimal_length {ds : Bytes} {n k : Nat} (h : IsDecimal ds n) (hn : n < 10 ^ (k + 1)) :
    ds.length ≤ k + 1 := by
  obtain ⟨h1, h2, h3, h4⟩ := h
  rcases ds with _ | ⟨d, ds⟩
  · exact absurd rfl h3
  · by_cases hd : d = 48
    · have := h4 (by simp [hd])
      simp only [List.cons.injEq] at this
      rw [this.2]; simp
    · have hd1 := h1 d (by simp)
      have hd2 : 1 ≤ d.toNat - 48 := by
        have : d.toNat ≠ 48 := by
          intro e; apply hd
          rw [← UInt8.ofNat_toNat (x := d), e]; rfl
        omega
      have := dec_lower ds (10 * 0 + (d.toNat - 48))
      have hv : decValue (d :: ds) = ds.foldl (fun a d => 10 * a + (d.toNat - 48)) (10 * 0 + (d.toNat - 48)) := rfl
      rw [← hv, h2] at this
      have h5 : 10 ^ ds.length * 1 ≤ 10 ^ ds.length * (10 * 0 + (d.toNat - 48)) :=
        Nat.mul_le_mul_left _ (by omega)
      have h6 : 10 ^ ds.length < 10 ^ (k + 1) := by omega
      have := (Nat.pow_lt_pow_iff_right (by omega : 1 < 10)).mp h6
      simp only [List.length_cons]; omega

/-! ### success -/

/-- An `FDCompressedSha1Writer` on a disk that is never full. -/
def FdFine {zl : Zlib} (w : FDCompressedSha1Writer zl) (_ : Bytes) : Prop :=
  w.fd.plan = [] ∧ w.fd.closed = false

theorem fdWrite_fine {zl : Zlib} (w : FDCompressedSha1Writer zl) (d out : Bytes) (h : FdFine w out) :
    ∃ w' k, fdWrite w d = (w', .ok (some k)) ∧ FdFine w' (out ++ d) := by
  obtain ⟨h1, h2⟩ := h
  unfold fdWrite FDCompressedSha1Writer.write Fd.write
  simp only [h1, h2]
  simp only [Bool.false_eq_true, if_false, ne_eq, not_true_eq_false]
  exact ⟨_, _, rfl, rfl, rfl⟩

theorem fd_stores {zl : Zlib} (cap : Nat) : Stores (fdWrite (zl := zl)) FdFine cap := by
  intro w out d h _
  obtain ⟨w', k, e, h'⟩ := fdWrite_fine w d out h
  exact ⟨w', _, e, h'⟩

theorem writeNew_success (H : Hash) {zl : Zlib} {fuel : Nat} {read : σ → Int → σ × Res Bytes}
    {Rep : σ → Bytes → Prop} (hr : FileReads read Rep ∨ ObjectReads read Rep) {i : IStream σ}
    {data : Bytes} (hs : Rep i.strm data) (hsz : i.size = data.length)
    (ha : ∀ b ∈ i.type, b.toNat < 128) (hf : data.length < fuel) :
    (writeNew H zl fuel [] read i).2.2.1 = .ok () := by
  unfold writeNew
  simp only
  have hw0 : FdFine (FDCompressedSha1Writer.new zl { plan := [] }) [] := ⟨rfl, rfl⟩
  have hh : looseObjectHeader i.type i.size = .ok (i.type ++ [0x20] ++ natToDec i.size ++ [0]) := by
    rw [looseObjectHeader, if_pos (by simpa using ha)]
  obtain ⟨w1, k, e1, f1⟩ := fdWrite_fine (FDCompressedSha1Writer.new zl { plan := [] })
    (i.type ++ [0x20] ++ natToDec i.size ++ [0]) [] hw0
  have hcopy : ∃ s' w' m, streamCopy fuel read fdWrite i.size looseChunk i.strm w1 = (s', w', .ok m) ∧
      ∃ o, FdFine w' o := by
    rw [hsz]
    by_cases h0 : data = []
    · subst h0
      rcases hr with hr | hr
      · obtain ⟨s', w', h1, _, h3⟩ := streamCopy_zero_file hr (fd_stores (zl := zl)
          ([] ++ (i.type ++ [0x20] ++ natToDec i.size ++ [0])).length) looseChunk (by decide) fuel i.strm w1 []
          _ hs f1 (by omega) (Nat.le_refl _)
        exact ⟨s', w', _, h1, _, h3⟩
      · obtain ⟨s', w', h1, _, h3⟩ := streamCopy_zero_object hr (fd_stores (zl := zl)
          ([] ++ (i.type ++ [0x20] ++ natToDec i.size ++ [0])).length) looseChunk (by decide) fuel i.strm w1
          _ hs f1 (by omega) (Nat.le_refl _)
        exact ⟨s', w', _, h1, _, h3⟩
    · have hb : BoundedReads read Rep := by
        rcases hr with hr | hr
        · exact hr.toBoundedReads
        · exact hr.toBoundedReads
      have hl : 1 ≤ data.length := by
        rcases data with _ | ⟨a, b⟩
        · exact absurd rfl h0
        · simp
      obtain ⟨s', w', h1, _, h3⟩ := streamCopy_spec hb (fd_stores (zl := zl)
        (([] ++ (i.type ++ [0x20] ++ natToDec i.size ++ [0])).length + min data.length data.length))
        data.length looseChunk (by decide) fuel i.strm w1 data _ hs f1 hl (by omega) (by omega)
      exact ⟨s', w', _, h1, _, h3⟩
  obtain ⟨s', w', m, e2, o, f2⟩ := hcopy
  have he : writeObject fuel i.type i.size read fdWrite looseChunk i.strm
      (FDCompressedSha1Writer.new zl { plan := [] }) = (s', w', .ok (k + m)) := by
    unfold writeObject
    simp only [hh, e1, e2]
  rw [he]
  obtain ⟨g1, g2⟩ := f2
  unfold FDCompressedSha1Writer.close Fd.write
  simp only [g1, g2, Bool.false_eq_true, if_false, ne_eq, not_true_eq_false]
  simp [Fd.close, afterClose]

/-- With a willing operating system the store goes through. -/
theorem looseStore_success (H : Hash) {zl : Zlib} (L : ZlibLaws zl) {fuel : Nat}
    {read : σ → Int → σ × Res Bytes}
    {Rep : σ → Bytes → Prop} (hr : FileReads read Rep ∨ ObjectReads read Rep) {i : IStream σ}
    {data : Bytes} (hs : Rep i.strm data) (hsz : i.size = data.length) (hb : i.binsha = none)
    (ha : ∀ b ∈ i.type, b.toNat < 128) (hf : data.length < fuel) (fs : Fs) (rnd : Bytes)
    (hfree : fs (tmpPath rnd) = none) (b : Bool)
    (x : Bytes) (hx : x = i.type ++ [0x20] ++ natToDec data.length ++ [0] ++ data)
    (hdir : fs (objectPath (binToHex (H.digest x))).dropLast = none ∧ b = false ∨
      fs (objectPath (binToHex (H.digest x))).dropLast = some .dir)
    (hobj : fs (objectPath (binToHex (H.digest x))) = none ∧ b = false ∨
      IsFile fs (objectPath (binToHex (H.digest x))) ∧ b = true) :
    (looseStore H zl fuel { tmp := some rnd, isfile := b } read i).2.2 = .ok () ∧
    ∃ fs', fs.run (looseStore H zl fuel { tmp := some rnd, isfile := b } read i).1 = some fs' := by
  have h1 := writeNew_success H (zl := zl) hr hs hsz ha hf
  obtain ⟨x', hx', hz, hn⟩ := writeNew_data L hr hs hsz h1
  rw [← hx] at hx'
  subst hx'
  rw [looseStore_eq H zl fuel _ read i rnd rfl]
  have hlw : looseWrite H zl fuel { tmp := some rnd, isfile := b } read i = writeNew H zl fuel [] read i := by
    unfold looseWrite; rw [hb]
  simp only [hlw, h1, hb, storedName, hn, hexToBin_binToHex]
  have hp : publish { tmp := some rnd, isfile := b } (tmpPath rnd) (objectPath (binToHex (H.digest x'))) =
      ([.mkdir (objectPath (binToHex (H.digest x'))).dropLast, .isfile (objectPath (binToHex (H.digest x'))) b,
        if b then .remove (tmpPath rnd) else .rename (tmpPath rnd) (objectPath (binToHex (H.digest x'))),
        .chmod (objectPath (binToHex (H.digest x'))) newObjectsMode], .ok ()) := by
    unfold publish; simp [chmodLoop]
  rw [hp]
  refine ⟨rfl, ?_⟩
  rw [Fs.run_append]
  have hc : fs.run (.create (tmpPath rnd) :: (writeNew H zl fuel [] read i).1.map (.append (tmpPath rnd))) =
      some (fs.set (tmpPath rnd) (some (.file (writeNew H zl fuel [] read i).1.flatten 0o600))) := by
    simp only [Fs.run, Fs.step, hfree]
    rw [run_appends _ _ _ [] 0o600 (Fs.set_same _ _ _), Fs.set_set]
    simp
  rw [hc]
  simp only
  generalize (writeNew H zl fuel [] read i).1.flatten = c
  unfold objectPath at hdir hobj ⊢
  simp only [List.dropLast] at hdir hobj ⊢
  have hd : ((binToHex (H.digest x')).take 2).length ≤ 2 := by simp; omega
  generalize (binToHex (H.digest x')).take 2 = d at *
  generalize (binToHex (H.digest x')).drop 2 = f at *
  have htd := short_ne_tmp rnd d hd
  have hdf : ([d] : Path) ≠ [d, f] := by simp
  have ht2 : tmpPath rnd ≠ [d, f] := tmp_ne_two rnd d f
  have e1 : (fs.set (tmpPath rnd) (some (.file c 0o600))) [d] = fs [d] := Fs.set_other _ _ (Ne.symm htd)
  have e2 : (fs.set (tmpPath rnd) (some (.file c 0o600))).step (.mkdir [d]) =
      some ((fs.set (tmpPath rnd) (some (.file c 0o600))).set [d] (some .dir)) := by
    simp only [Fs.step, e1]
    rcases hdir with h | h
    · rw [h.1]
    · rw [h]; simp only [Option.some.injEq]; exact (Fs.set_self _ _ _ (by rw [e1, h])).symm
  simp only [Fs.run, e2]
  have e3 : ((fs.set (tmpPath rnd) (some (.file c 0o600))).set [d] (some .dir)) [d, f] = fs [d, f] := by
    rw [Fs.set_other _ _ (Ne.symm hdf), Fs.set_other _ _ (Ne.symm ht2)]
  have e4 : ((fs.set (tmpPath rnd) (some (.file c 0o600))).set [d] (some .dir)).step (.isfile [d, f] b) =
      some ((fs.set (tmpPath rnd) (some (.file c 0o600))).set [d] (some .dir)) := by
    simp only [Fs.step, e3]
    rcases hobj with ⟨h, rfl⟩ | ⟨⟨c', m', h⟩, rfl⟩ <;> rw [h]
  simp only [e4]
  have e5 : ((fs.set (tmpPath rnd) (some (.file c 0o600))).set [d] (some .dir)) (tmpPath rnd) =
      some (.file c 0o600) := by
    rw [Fs.set_other _ _ htd, Fs.set_same]
  rcases hobj with ⟨h, rfl⟩ | ⟨⟨c', m', h⟩, rfl⟩
  · simp only [Bool.false_eq_true, if_false]
    have : ((fs.set (tmpPath rnd) (some (.file c 0o600))).set [d] (some .dir)).step (.rename (tmpPath rnd) [d, f])
        = some ((((fs.set (tmpPath rnd) (some (.file c 0o600))).set [d] (some .dir)).set (tmpPath rnd) none).set
          [d, f] (some (.file c 0o600))) := by
      simp only [Fs.step, e5, e3, h]
      rw [if_pos]
      right; exact Fs.set_same _ _ _
    simp only [this]
    simp only [Fs.step, Fs.set_same]
    exact ⟨_, rfl⟩
  · simp only [if_true, Fs.step, e5]
    rw [Fs.set_other _ _ (Ne.symm ht2), e3, h]
    exact ⟨_, rfl⟩

end GitDB
