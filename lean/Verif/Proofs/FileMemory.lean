import Verif.Model.FileMemory
import Verif.Spec.Stream
/-!
# Lemmas about memory that is not mapped
-/
set_option autoImplicit false

namespace GitDB
open Spec

variable {σ ω₁ ω₂ : Type}

/-- Same contents and position; the second one grows if the first one does. -/
def Alike (a b : Buf) : Prop := b.data = a.data ∧ b.pos = a.pos ∧ (b.fixed = true → a.fixed = true)

/-- Writes that succeed on the first succeed on the second. -/
def Follows {ρ : Type} (w₁ : ω₁ → Bytes → ω₁ × Res ρ) (w₂ : ω₂ → Bytes → ω₂ × Res ρ) (R : ω₁ → ω₂ → Prop) : Prop :=
  ∀ a b d a' r, R a b → w₁ a d = (a', .ok r) → ∃ b', w₂ b d = (b', .ok r) ∧ R a' b'

theorem alike_follows : Follows Buf.write Buf.write Alike := by
  rintro a b d a' r ⟨h1, h2, h3⟩ h
  unfold Buf.write at h
  split at h
  · cases h
  · rename_i hn
    cases h
    refine ⟨_, by rw [Buf.write, if_neg (fun hc => hn ⟨h3 hc.1, by rw [h1, h2] at hc; exact hc.2⟩)], ?_⟩
    exact ⟨by simp only [h1, h2], by simp only [h2], h3⟩

theorem streamCopyLoop_follows {ρ : Type} {w₁ : ω₁ → Bytes → ω₁ × Res ρ} {w₂ : ω₂ → Bytes → ω₂ × Res ρ}
    {R : ω₁ → ω₂ → Prop} (hw : Follows w₁ w₂ R) (read : σ → Int → σ × Res Bytes) (size cs : Int) :
    ∀ (fuel : Nat) (dbw : Int) (s s' : σ) (a a' : ω₁) (b : ω₂) (n : Int), R a b →
    streamCopyLoop read w₁ size cs fuel dbw s a = (s', a', .ok n) →
    ∃ b', streamCopyLoop read w₂ size cs fuel dbw s b = (s', b', .ok n) ∧ R a' b' := by
  intro fuel
  induction fuel with
  | zero => intro dbw s s' a a' b n _ h; simp [streamCopyLoop] at h
  | succ fuel ih =>
    intro dbw s s' a a' b n hR h
    rw [streamCopyLoop] at h ⊢
    simp only at h ⊢
    rcases hr : read s (min cs (size - dbw)) with ⟨s1, e | data⟩
    · rw [hr] at h; simp at h
    · rw [hr] at h
      simp only at h ⊢
      rcases hw1 : w₁ a data with ⟨a1, e | r⟩
      · rw [hw1] at h; simp at h
      · rw [hw1] at h
        obtain ⟨b1, hb1, hR1⟩ := hw a b data a1 r hR hw1
        rw [hb1]
        simp only at h ⊢
        split at h
        · rename_i hc
          rw [if_pos hc]
          cases h
          exact ⟨b1, rfl, hR1⟩
        · rename_i hc
          rw [if_neg hc]
          exact ih _ _ _ _ _ _ _ hR1 h

theorem applyLoop_follows {w₁ : ω₁ → Bytes → ω₁ × Res Unit} {w₂ : ω₂ → Bytes → ω₂ × Res Unit}
    {R : ω₁ → ω₂ → Prop} (hw : Follows w₁ w₂ R) (src : Bytes) (srcSize : Nat) (db : Bytes) (dbSize : Nat) :
    ∀ (k i : Nat) (a a' : ω₁) (b : ω₂), dbSize - i ≤ k → R a b →
    applyLoop src srcSize db dbSize w₁ i a = (a', .ok ()) →
    ∃ b', applyLoop src srcSize db dbSize w₂ i b = (b', .ok ()) ∧ R a' b' := by
  intro k
  induction k with
  | zero =>
    intro i a a' b hk hR h
    rw [applyLoop, dif_neg (by omega)] at h ⊢
    injection h with h1 h2
    subst h1
    exact ⟨b, by rw [h2], hR⟩
  | succ k ih =>
    intro i a a' b hk hR h
    rw [applyLoop] at h ⊢
    by_cases hi : i < dbSize
    · rw [dif_pos hi] at h ⊢
      rcases hp : pyIndex db i with e | c
      · rw [hp] at h; simp at h
      · rw [hp] at h
        simp only at h ⊢
        by_cases hc : c &&& 0x80 ≠ 0
        · rw [if_pos hc] at h ⊢
          split at h
          · cases h
          · rename_i off size i2 hd
            by_cases hb : off + size < size ∨ off + size > srcSize
            · rw [if_pos hb] at h ⊢
              injection h with h1 h2
              subst h1
              exact ⟨b, by rw [h2], hR⟩
            · rw [if_neg hb] at h ⊢
              rcases hw1 : w₁ a (pySlice src off (off + size)) with ⟨a1, e | ⟨⟩⟩
              · rw [hw1] at h; simp at h
              · rw [hw1] at h
                obtain ⟨b1, hb1, hR1⟩ := hw _ _ _ _ _ hR hw1
                rw [hb1]
                have := decodeCopy_mono hd
                exact ih _ _ _ _ (by omega) hR1 h
        · rw [if_neg hc] at h ⊢
          by_cases h0 : c ≠ 0
          · rw [if_pos h0] at h ⊢
            rcases hw1 : w₁ a (pySlice db (i + 1) (i + 1 + c)) with ⟨a1, e | ⟨⟩⟩
            · rw [hw1] at h; simp at h
            · rw [hw1] at h
              obtain ⟨b1, hb1, hR1⟩ := hw _ _ _ _ _ hR hw1
              rw [hb1]
              exact ih _ _ _ _ (by omega) hR1 h
          · rw [if_neg h0] at h
            cases h
    · rw [dif_neg hi] at h ⊢
      injection h with h1 h2
      subst h1
      exact ⟨b, by rw [h2], hR⟩

theorem allocateIn_alike (works : Bool) (n : Int) (a : Buf) (h : allocateMemory n = .ok a) :
    ∃ b, allocateIn works n = .ok b ∧ Alike a b := by
  unfold allocateMemory at h
  unfold allocateIn
  by_cases h0 : n = 0
  · rw [if_pos h0] at h ⊢
    cases h
    exact ⟨_, rfl, rfl, rfl, id⟩
  · rw [if_neg h0] at h ⊢
    by_cases h1 : n < 0
    · rw [if_pos h1] at h; cases h
    · rw [if_neg h1] at h ⊢
      cases h
      cases works
      · exact ⟨_, rfl, rfl, rfl, fun h => (nomatch h)⟩
      · exact ⟨_, rfl, rfl, rfl, id⟩

theorem applyOneIn_alike (works : Bool) (fuel : Nat) (read : σ → Int → σ × Res Bytes) (b1 t1 b2 t2 : Buf)
    (d : DeltaInfo σ) (hb : Alike b1 b2) (ht : Alike t1 t2) (x y : Buf)
    (h : applyOne fuel read b1 t1 d = .ok (x, y)) :
    ∃ x' y', applyOneIn works fuel read b2 t2 d = .ok (x', y') ∧ Alike x x' ∧ Alike y y' := by
  simp only [applyOne, bind, Except.bind, pure, Except.pure] at h
  simp only [applyOneIn, bind, Except.bind, pure, Except.pure]
  rcases ha : allocateMemory ((d.size : Int) - d.offset) with e | a0
  · rw [ha] at h; simp at h
  · rw [ha] at h
    obtain ⟨a0', ha', hA⟩ := allocateIn_alike works _ _ ha
    rw [ha']
    simp only at h ⊢
    rcases hw : a0.write d.dbuf with ⟨a1, e | ⟨⟩⟩
    · rw [hw] at h; simp at h
    · rw [hw] at h
      obtain ⟨a1', hw', hA1⟩ := alike_follows _ _ _ _ _ hA hw
      rw [hw']
      simp only at h ⊢
      rcases hc : streamCopy fuel read Buf.write d.size (256 * PAGESIZE : Nat) d.strm a1 with ⟨s, a2, e | n⟩
      · rw [hc] at h; simp at h
      · rw [hc] at h
        obtain ⟨a2', hc', hA2⟩ := streamCopyLoop_follows alike_follows read _ _ fuel 0 _ _ _ _ a1' _ hA1 hc
        rw [show streamCopy fuel read Buf.write d.size (256 * PAGESIZE : Nat) d.strm a1' = _ from hc']
        simp only [hA2.1, hb.1] at h ⊢
        rcases hp : applyDeltaData b1.data d.srcSize a2.data a2.data.length Buf.write t1 with ⟨t, e | ⟨⟩⟩
        · rw [hp] at h; simp at h
        · rw [hp] at h
          obtain ⟨t', hp', hT⟩ := applyLoop_follows alike_follows b1.data d.srcSize a2.data a2.data.length
            _ 0 t1 t t2 (Nat.le_refl _) ht hp
          rw [show applyDeltaData b1.data d.srcSize a2.data a2.data.length Buf.write t2 = _ from hp']
          simp only at h ⊢
          cases h
          exact ⟨_, _, rfl, ⟨hT.1, rfl, hT.2.2⟩, ⟨hb.1, rfl, hb.2.2⟩⟩

theorem applyAllIn_alike (works : Nat → Bool) (fuel : Nat) (read : σ → Int → σ × Res Bytes) :
    ∀ (ds : List (DeltaInfo σ)) (i : Nat) (b1 t1 b2 t2 x y : Buf), Alike b1 b2 → Alike t1 t2 →
    applyAll fuel read ds b1 t1 = .ok (x, y) →
    ∃ x' y', applyAllIn works fuel read i ds b2 t2 = .ok (x', y') ∧ Alike x x' ∧ Alike y y' := by
  intro ds
  induction ds with
  | nil => intro i b1 t1 b2 t2 x y hb ht h; cases h; exact ⟨_, _, rfl, hb, ht⟩
  | cons d ds ih =>
    intro i b1 t1 b2 t2 x y hb ht h
    simp only [applyAll, bind, Except.bind] at h
    simp only [applyAllIn, bind, Except.bind]
    rcases h1 : applyOne fuel read b1 t1 d with e | ⟨p, q⟩
    · rw [h1] at h; simp at h
    · rw [h1] at h
      obtain ⟨p', q', h1', hp, hq⟩ := applyOneIn_alike (works i) fuel read b1 t1 b2 t2 d hb ht p q h1
      rw [h1']
      exact ih _ _ _ _ _ _ _ hp hq h

theorem setCacheBruteIn_alike (works : Nat → Bool) (fuel : Nat) (read : σ → Int → σ × Res Bytes)
    (ss : List (σ × Nat)) (bs : σ × Nat) (b : Buf) (n : Nat) (h : setCacheBrute fuel read ss bs = .ok (b, n)) :
    ∃ b', setCacheBruteIn works fuel read ss bs = .ok (b', n) ∧ Alike b b' := by
  simp only [setCacheBrute, bind, Except.bind, pure, Except.pure] at h
  simp only [setCacheBruteIn, bind, Except.bind, pure, Except.pure]
  rcases hi : readDeltaHeads read ss with e | infos
  · rw [hi] at h; simp at h
  · rw [hi] at h
    simp only at h ⊢
    generalize (if ss.length > 1 then
      (max bs.2 (List.foldl (fun m d => max m d.targetSize) 0 infos),
        max bs.2 (List.foldl (fun m d => max m d.targetSize) 0 infos))
      else (bs.2, List.foldl (fun m d => max m d.targetSize) 0 infos)) = sizes at h ⊢
    obtain ⟨B, T⟩ := sizes
    simp only at h ⊢
    rcases ha : allocateMemory (B : Int) with e | a0
    · rw [ha] at h; simp at h
    · rw [ha] at h
      obtain ⟨a0', ha', hA⟩ := allocateIn_alike (works 0) _ _ ha
      rw [ha']
      simp only at h ⊢
      rcases hc : streamCopy fuel read Buf.write B (256 * PAGESIZE : Nat) bs.1 a0 with ⟨s, a2, e | k⟩
      · rw [hc] at h; simp at h
      · rw [hc] at h
        obtain ⟨a2', hc', hA2⟩ := streamCopyLoop_follows alike_follows read _ _ fuel 0 _ _ _ _ a0' _ hA hc
        rw [show streamCopy fuel read Buf.write B (256 * PAGESIZE : Nat) bs.1 a0' = _ from hc']
        simp only at h ⊢
        rcases ht : allocateMemory (T : Int) with e | t0
        · rw [ht] at h; simp at h
        · rw [ht] at h
          obtain ⟨t0', ht', hT⟩ := allocateIn_alike (works 1) _ _ ht
          rw [ht']
          simp only at h ⊢
          rcases hall : applyAll fuel read infos.reverse a2 t0 with e | ⟨x, y⟩
          · rw [hall] at h; simp at h
          · rw [hall] at h
            obtain ⟨x', y', hall', hx, _⟩ := applyAllIn_alike works fuel read infos.reverse 2 a2 t0 a2' t0' x y
              hA2 hT hall
            rw [hall']
            cases infos with
            | nil => simp at h
            | cons d ds =>
              simp only at h ⊢
              cases h
              exact ⟨x', rfl, hx⟩

/-- Two readers that nobody can tell apart. -/
def AlikeReaders (a b : DeltaReader) : Prop := Alike a.target b.target ∧ b.size = a.size ∧ b.br = a.br

theorem alike_read (a b : DeltaReader) (h : AlikeReaders a b) (n : Int) :
    (b.read n).2 = (a.read n).2 ∧ AlikeReaders (a.read n).1 (b.read n).1 := by
  obtain ⟨⟨h1, h2, h3⟩, h4, h5⟩ := h
  simp only [DeltaReader.read, Buf.read, h1, h2, h4, h5]
  exact ⟨trivial, ⟨rfl, rfl, h3⟩, rfl, rfl⟩

theorem newDeltaReaderIn_alike (works : Nat → Bool) (fuel : Nat) (read : σ → Int → σ × Res Bytes)
    (ss : List (σ × Nat)) (r : DeltaReader) (h : newDeltaReader fuel read ss = .ok r) :
    ∃ r', newDeltaReaderIn works fuel read ss = .ok r' ∧ AlikeReaders r r' := by
  unfold newDeltaReader at h
  unfold newDeltaReaderIn
  split at h
  · rename_i base d ds hrev
    simp only [hrev, bind, Except.bind, pure, Except.pure] at h ⊢
    rcases hs : setCacheBrute fuel read (d :: ds).reverse base with e | ⟨t, n⟩
    · rw [hs] at h; simp at h
    · rw [hs] at h
      obtain ⟨t', hs', hA⟩ := setCacheBruteIn_alike works fuel read _ _ _ _ hs
      rw [hs']
      simp only at h ⊢
      cases h
      exact ⟨_, rfl, hA, rfl, rfl⟩
  · cases h

/-- With `mmap` working all the time the two descriptions agree. -/
theorem newDeltaReaderIn_mapped (fuel : Nat) (read : σ → Int → σ × Res Bytes) (ss : List (σ × Nat)) :
    newDeltaReaderIn (fun _ => true) fuel read ss = newDeltaReader fuel read ss := by
  have ha : ∀ n, allocateIn true n = allocateMemory n := fun n => by simp [allocateIn, allocateMemory]
  have h1 : ∀ b t d, applyOneIn true fuel read b t d = applyOne fuel read b t d := by
    intro b t d; simp only [applyOneIn, applyOne, ha]; rfl
  have h2 : ∀ ds i b t, applyAllIn (fun _ => true) fuel read i ds b t = applyAll fuel read ds b t := by
    intro ds
    induction ds with
    | nil => intro i b t; rfl
    | cons d ds ih => intro i b t; simp only [applyAllIn, applyAll, h1, ih]
  simp only [newDeltaReaderIn, newDeltaReader, setCacheBruteIn, setCacheBrute, ha, h2]
  rfl

end GitDB
