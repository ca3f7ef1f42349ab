import Verif.Proofs.PackIter
/-!
# Iterating a pack from any offset

Nothing is assumed about the bytes of the pack or about `zlib`.
-/
set_option autoImplicit false

namespace GitDB
open Spec

variable {zl : Zlib}

theorem copyLoop_static (size cs : Int) : ∀ (fuel : Nat) (dbw : Int) (r : Reader), r.buf = none →
    r.hasS = true → Static r (streamCopyLoop (Reader.read zl) nullWrite size cs fuel dbw r ()).1 := by
  intro fuel
  induction fuel with
  | zero => intro dbw r _ _; exact Static.refl r
  | succ fuel ih =>
    intro dbw r hb hS
    rw [streamCopyLoop]
    have h1 : Static r (r.read zl (min cs (size - dbw))).1 := by
      unfold Reader.read Reader.needS
      rw [if_pos hS]
      exact readCore_static (zl := zl) r.fuel r (min cs (size - dbw)) hb
    rcases hc : r.read zl (min cs (size - dbw)) with ⟨r1, e | d⟩
    · rw [hc] at h1; simpa only [hc] using h1
    · rw [hc] at h1
      simp only [nullWrite]
      split
      · exact h1
      · exact h1.trans (ih _ r1 (by rw [h1.buf, hb]) (by rw [h1.hasS, hS]))

theorem packObjectAt_shape {pack : Bytes} {off : Nat} {o : PackObj} (h : packObjectAt pack off = .ok o) :
    o.packOffset = off ∧ ∃ m : Bytes, ∃ size : Int, o.stream = Reader.ofSize m size := by
  unfold packObjectAt at h
  simp only at h
  split at h
  · exact absurd h (by simp)
  · split at h
    · split at h
      · exact absurd h (by simp)
      · cases h; exact ⟨rfl, _, _, rfl⟩
    · split at h
      · cases h; exact ⟨rfl, _, _, rfl⟩
      · cases h; exact ⟨rfl, _, _, rfl⟩

/-- What the first object yielded is, and where the iteration goes on. -/
theorem iterObjects_cons (p : PackFile) (innerFuel fuel : Nat) (cur : Int) (o : PackObj) (objs : List PackObj)
    (res : Res Unit) (h : p.iterObjects zl innerFuel fuel cur = (o :: objs, res)) :
    (o.packOffset : Int) = cur ∧ packObjectAt p.data o.packOffset = .ok o ∧ o.packOffset + 20 < p.data.length ∧
    1 ≤ fuel ∧ ∃ next, p.iterObjects zl innerFuel (fuel - 1) next = (objs, res) := by
  cases fuel with
  | zero => simp [PackFile.iterObjects] at h
  | succ fuel =>
    rw [PackFile.iterObjects] at h
    split at h
    · rename_i hlt
      split at h
      · simp at h
      · rename_i hneg
        rcases ho : packObjectAt p.data cur.toNat with e | o'
        · simp [ho] at h
        · obtain ⟨hoff, m, size, hm⟩ := packObjectAt_shape ho
          simp only [ho] at h
          have h1 : Static o'.stream (streamCopy innerFuel (Reader.read zl) nullWrite o'.size chunkSize o'.stream ()).1 :=
            copyLoop_static _ _ _ _ _ (by rw [hm]; rfl) (by rw [hm]; rfl)
          rcases hc : streamCopy innerFuel (Reader.read zl) nullWrite o'.size chunkSize o'.stream () with ⟨r1, u, e | n⟩
          · simp [hc] at h
          · rw [hc, hm] at h1
            simp only [hc] at h
            split at h
            · simp at h
            · have h2 := cbr_static (zl := zl) innerFuel r1 (by rw [h1.buf]; rfl) (by rw [h1.hasS]; rfl)
              rcases hb : r1.compressedBytesRead zl innerFuel with ⟨r2, e | k⟩
              · simp [hb] at h
              · rw [hb] at h2
                simp only [hb, seek_static (h1.trans h2)] at h
                simp only [Prod.mk.injEq, List.cons.injEq] at h
                obtain ⟨⟨ha, hb'⟩, hd⟩ := h
                have : o = o' := by rw [← ha, ← hm]
                subst this
                refine ⟨by rw [hoff]; omega, by rw [hoff]; exact ho, by rw [hoff]; omega, by omega, _, Prod.ext hb' hd⟩
    · simp at h

/-- Taking up an iteration at the offset of any object it yielded. -/
theorem iterObjects_resume (p : PackFile) (innerFuel : Nat) : ∀ (objs : List PackObj) (fuel : Nat) (cur : Int)
    (res : Res Unit), p.iterObjects zl innerFuel fuel cur = (objs, res) → ∀ (i : Nat) (hi : i < objs.length),
    p.iterObjects zl innerFuel (fuel - i) (objs[i].packOffset : Nat) = (objs.drop i, res) ∧
    packObjectAt p.data objs[i].packOffset = .ok objs[i] ∧ objs[i].packOffset + 20 < p.data.length ∧ i < fuel := by
  intro objs
  induction objs with
  | nil => intro fuel cur res _ i hi; exact absurd hi (Nat.not_lt_zero _)
  | cons o objs ih =>
    intro fuel cur res h i hi
    obtain ⟨h1, h2, h3, h4, next, h5⟩ := iterObjects_cons p innerFuel fuel cur o objs res h
    cases i with
    | zero => exact ⟨by simpa [h1] using h, h2, h3, by omega⟩
    | succ i =>
      have := ih (fuel - 1) next res h5 i (by simpa using hi)
      rw [List.getElem_cons_succ, List.drop_succ_cons]
      rw [show fuel - (i + 1) = fuel - 1 - i by omega]
      exact ⟨this.1, this.2.1, this.2.2.1, by omega⟩

/-- An iteration which ends does not depend on the fuel. -/
theorem iterObjects_fuel (p : PackFile) (innerFuel : Nat) : ∀ (fuel fuel' : Nat) (cur : Int) (objs : List PackObj)
    (res : Res Unit), p.iterObjects zl innerFuel fuel cur = (objs, res) → objs.length < fuel →
    fuel ≤ fuel' → p.iterObjects zl innerFuel fuel' cur = (objs, res) := by
  intro fuel
  induction fuel with
  | zero => intro fuel' cur objs res h hl; exact absurd hl (Nat.not_lt_zero _)
  | succ fuel ih =>
    intro fuel' cur objs res h hl hf
    obtain ⟨f', rfl⟩ : ∃ f', fuel' = f' + 1 := ⟨fuel' - 1, by omega⟩
    rw [PackFile.iterObjects] at h ⊢
    split at h
    · rename_i hlt
      rw [if_pos hlt]
      split at h
      · rename_i hn; rw [if_pos hn]; exact h
      · rename_i hn
        rw [if_neg hn]
        rcases ho : packObjectAt p.data cur.toNat with e | o'
        · simpa [ho] using h
        · simp only [ho] at h ⊢
          rcases hc : streamCopy innerFuel (Reader.read zl) nullWrite o'.size chunkSize o'.stream () with ⟨r1, u, e | n⟩
          · simpa [hc] using h
          · simp only [hc] at h ⊢
            split at h
            · rename_i hbr; rw [if_pos hbr]; exact h
            · rename_i hbr
              rw [if_neg hbr]
              rcases hb : r1.compressedBytesRead zl innerFuel with ⟨r2, e | k⟩
              · simpa [hb] using h
              · simp only [hb] at h ⊢
                rcases hs : r2.seek 0 0 with ⟨r3, e | _⟩
                · simpa [hs] using h
                · simp only [hs] at h ⊢
                  simp only [Prod.mk.injEq] at h
                  obtain ⟨ha, hb'⟩ := h
                  subst ha
                  rw [ih f' _ _ res (Prod.ext rfl hb') (by simpa using hl) (by omega)]
    · rename_i hlt; rw [if_neg hlt]; exact h

end GitDB
