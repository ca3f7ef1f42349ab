import Verif.Model.Pack
import Verif.Model.Loose
import Verif.Spec.SameOutput
import Verif.Spec.Lists
import Verif.Proofs.IndexWrite
/-!
# What is written depends only on what the streams deliver
-/
set_option autoImplicit false

namespace GitDB
open Spec

variable {σ₁ σ₂ ω₁ ω₂ ρ₁ ρ₂ : Type}

theorem flex_same {w₁ : ω₁ → Bytes → ω₁ × Res ρ₁} {w₂ : ω₂ → Bytes → ω₂ × Res ρ₂} {W : ω₁ → ω₂ → Prop}
    (hw : SameWrites w₁ w₂ W) :
    SameWrites (FlexibleSha1Writer.write w₁) (FlexibleSha1Writer.write w₂)
      (fun a b => a.sha1 = b.sha1 ∧ W a.inner b.inner) := by
  rintro a b d ⟨h1, h2⟩
  obtain ⟨k1, k2⟩ := hw a.inner b.inner d h2
  unfold FlexibleSha1Writer.write
  rcases hx : w₁ a.inner d with ⟨a1, r1⟩
  rcases hy : w₂ b.inner d with ⟨b1, r2⟩
  rw [hx, hy] at k1 k2
  cases k1 with
  | ok x y => exact ⟨.ok _ _, by simp only [h1], k2⟩
  | error e => exact ⟨.error e, by simp only [h1], k2⟩

/-- All but the checksum. -/
def dropCrc {ζ : Type} (x : Nat × Nat × Option Nat × ζ) : Nat × Nat × ζ := (x.1, x.2.1, x.2.2.2)

theorem packCopyLoop_same (zl : Zlib) {r₁ : σ₁ → Int → σ₁ × Res Bytes} {r₂ : σ₂ → Int → σ₂ × Res Bytes}
    {w₁ : ω₁ → Bytes → ω₁ × Res ρ₁} {w₂ : ω₂ → Bytes → ω₂ × Res ρ₂} {R : σ₁ → σ₂ → Prop} {W : ω₁ → ω₂ → Prop}
    (hr : SameReads (1 ≤ ·) r₁ r₂ R) (hw : SameWrites w₁ w₂ W) :
    ∀ (fuel : Nat) (s : σ₁) (t : σ₂) (a : ω₁) (b : ω₂) (z : zl.Comp) (br bw : Nat) (c d : Option Nat), R s t → W a b →
      W (packCopyLoop zl r₁ w₁ fuel s a z br bw c).2.1 (packCopyLoop zl r₂ w₂ fuel t b z br bw d).2.1 ∧
      (packCopyLoop zl r₁ w₁ fuel s a z br bw c).2.2.map dropCrc = (packCopyLoop zl r₂ w₂ fuel t b z br bw d).2.2.map dropCrc ∧
      (c = d → (packCopyLoop zl r₁ w₁ fuel s a z br bw c).2.2 = (packCopyLoop zl r₂ w₂ fuel t b z br bw d).2.2) := by
  intro fuel
  induction fuel with
  | zero => intro s t a b z br bw c d _ h; exact ⟨h, rfl, fun _ => rfl⟩
  | succ fuel ih =>
    intro s t a b z br bw c d hR hW
    obtain ⟨k1, k2⟩ := hr s t chunkSize hR (by decide)
    simp only [packCopyLoop]
    rcases hx : r₁ s chunkSize with ⟨s1, x⟩
    rcases hy : r₂ t chunkSize with ⟨t1, y⟩
    rw [hx, hy] at k1 k2
    simp only at k1 k2
    subst k1
    rcases x with e | chunk
    · exact ⟨hW, rfl, fun _ => rfl⟩
    · simp only
      obtain ⟨k3, k4⟩ := hw a b (zl.ccompress z chunk).2 hW
      rcases hx : w₁ a (zl.ccompress z chunk).2 with ⟨a1, p⟩
      rcases hy : w₂ b (zl.ccompress z chunk).2 with ⟨b1, q⟩
      rw [hx, hy] at k3 k4
      simp only at k3 k4
      cases k3 with
      | error e => exact ⟨k4, rfl, fun _ => rfl⟩
      | ok p q =>
        simp only
        split
        · exact ⟨k4, rfl, fun h => by rw [h]⟩
        · obtain ⟨m1, m2, m3⟩ := ih s1 t1 a1 b1 (zl.ccompress z chunk).1 (br + chunk.length)
            (bw + (zl.ccompress z chunk).2.length) (c.map (crc32 (zl.ccompress z chunk).2)) (d.map (crc32 (zl.ccompress z chunk).2)) k2 k4
          exact ⟨m1, m2, fun h => m3 (by rw [h])⟩

theorem writeStreamToPack_same (zl : Zlib) {r₁ : σ₁ → Int → σ₁ × Res Bytes} {r₂ : σ₂ → Int → σ₂ × Res Bytes}
    {w₁ : ω₁ → Bytes → ω₁ × Res ρ₁} {w₂ : ω₂ → Bytes → ω₂ × Res ρ₂} {R : σ₁ → σ₂ → Prop} {W : ω₁ → ω₂ → Prop}
    (hr : SameReads (1 ≤ ·) r₁ r₂ R) (hw : SameWrites w₁ w₂ W) (fuel : Nat) (s : σ₁) (t : σ₂) (a : ω₁) (b : ω₂)
    (z : zl.Comp) (c d : Option Nat) (hR : R s t) (hW : W a b) :
      W (writeStreamToPack zl fuel r₁ w₁ z c s a).2.1 (writeStreamToPack zl fuel r₂ w₂ z d t b).2.1 ∧
      (writeStreamToPack zl fuel r₁ w₁ z c s a).2.2.map (fun x => (x.1, x.2.1)) =
        (writeStreamToPack zl fuel r₂ w₂ z d t b).2.2.map (fun x => (x.1, x.2.1)) ∧
      (c = d → (writeStreamToPack zl fuel r₁ w₁ z c s a).2.2 = (writeStreamToPack zl fuel r₂ w₂ z d t b).2.2) := by
  obtain ⟨m1, m2, m3⟩ := packCopyLoop_same zl hr hw fuel s t a b z 0 0 c d hR hW
  unfold writeStreamToPack
  rcases hx : packCopyLoop zl r₁ w₁ fuel s a z 0 0 c with ⟨s1, a1, e1 | ⟨br1, bw1, c1, z1⟩⟩ <;>
    rcases hy : packCopyLoop zl r₂ w₂ fuel t b z 0 0 d with ⟨t1, b1, e2 | ⟨br2, bw2, c2, z2⟩⟩ <;>
    rw [hx, hy] at m1 m2 m3 <;> simp only [Except.map, dropCrc, Except.ok.injEq, Except.error.injEq, reduceCtorEq,
      Prod.mk.injEq] at m1 m2 m3
  · subst m2
    exact ⟨m1, rfl, fun _ => rfl⟩
  · obtain ⟨rfl, rfl, rfl⟩ := m2
    simp only
    obtain ⟨k3, k4⟩ := hw a1 b1 (zl.cflush z1) m1
    rcases hx : w₁ a1 (zl.cflush z1) with ⟨a2, p⟩
    rcases hy : w₂ b1 (zl.cflush z1) with ⟨b2, q⟩
    rw [hx, hy] at k3 k4
    simp only at k3 k4
    cases k3 with
    | error e => exact ⟨k4, rfl, fun _ => rfl⟩
    | ok p q =>
      refine ⟨k4, rfl, fun h => ?_⟩
      rw [(m3 h).2.2.1]

/-- The same object; the names may differ. -/
def SameObject (R : σ₁ → σ₂ → Prop) (a : PackIn σ₁) (b : PackIn σ₂) : Prop :=
  a.typeId = b.typeId ∧ a.size = b.size ∧ R a.strm b.strm

theorem packObjects_same (zl : Zlib) {r₁ : σ₁ → Int → σ₁ × Res Bytes} {r₂ : σ₂ → Int → σ₂ × Res Bytes}
    {w₁ : ω₁ → Bytes → ω₁ × Res ρ₁} {w₂ : ω₂ → Bytes → ω₂ × Res ρ₂} {R : σ₁ → σ₂ → Prop} {W : ω₁ → ω₂ → Prop}
    (hr : SameReads (1 ≤ ·) r₁ r₂ R) (hw : SameWrites w₁ w₂ W) (fuel : Nat) (level : Int) (i j : Bool) (count : Nat)
    (l : List (PackIn σ₁)) (m : List (PackIn σ₂)) (hl : All2 (SameObject R) l m) :
    ∀ (a : FlexibleSha1Writer ω₁) (b : FlexibleSha1Writer ω₂) (actual ofs : Nat) (x y : List IdxObj),
      a.sha1 = b.sha1 → W a.inner b.inner →
      (packObjects zl fuel r₁ w₁ level i count l a actual ofs x).1.sha1 =
        (packObjects zl fuel r₂ w₂ level j count m b actual ofs y).1.sha1 ∧
      W (packObjects zl fuel r₁ w₁ level i count l a actual ofs x).1.inner
        (packObjects zl fuel r₂ w₂ level j count m b actual ofs y).1.inner ∧
      (packObjects zl fuel r₁ w₁ level i count l a actual ofs x).2.map Prod.fst =
        (packObjects zl fuel r₂ w₂ level j count m b actual ofs y).2.map Prod.fst ∧
      (i = j → x = y → l.map PackIn.sha = m.map PackIn.sha →
        (packObjects zl fuel r₁ w₁ level i count l a actual ofs x).2 =
        (packObjects zl fuel r₂ w₂ level j count m b actual ofs y).2) := by
  induction hl with
  | nil =>
    intro a b actual ofs x y h1 h2
    exact ⟨h1, h2, rfl, fun _ h _ => by simp only [packObjects, h]⟩
  | @cons o p l m h t ih =>
    intro a b actual ofs x y h1 h2
    obtain ⟨ht, hs, hR⟩ := h
    simp only [packObjects, ht, hs]
    rcases createPackObjectHeader p.typeId p.size with e | hdr
    · exact ⟨h1, h2, rfl, fun _ _ _ => rfl⟩
    · simp only
      obtain ⟨k3, k4⟩ := flex_same hw a b hdr ⟨h1, h2⟩
      rcases hx : FlexibleSha1Writer.write w₁ a hdr with ⟨a1, u⟩
      rcases hy : FlexibleSha1Writer.write w₂ b hdr with ⟨b1, v⟩
      rw [hx, hy] at k3 k4
      simp only at k3 k4
      cases k3 with
      | error e => exact ⟨k4.1, k4.2, rfl, fun _ _ _ => rfl⟩
      | ok u v =>
        simp only
        obtain ⟨m1, m2, m3⟩ := writeStreamToPack_same zl hr (flex_same hw) fuel o.strm p.strm a1 b1 (zl.cinit level)
          (if i = true then some (crc32 hdr 0) else none) (if j = true then some (crc32 hdr 0) else none) hR k4
        rcases hx : writeStreamToPack zl fuel r₁ (FlexibleSha1Writer.write w₁) (zl.cinit level)
          (if i = true then some (crc32 hdr 0) else none) o.strm a1 with ⟨s2, a2, e1 | ⟨br1, bw1, c1⟩⟩ <;>
        rcases hy : writeStreamToPack zl fuel r₂ (FlexibleSha1Writer.write w₂) (zl.cinit level)
          (if j = true then some (crc32 hdr 0) else none) p.strm b1 with ⟨t2, b2, e2 | ⟨br2, bw2, c2⟩⟩ <;>
        rw [hx, hy] at m1 m2 m3 <;> simp only [Except.map, Except.ok.injEq, Except.error.injEq, reduceCtorEq,
          Prod.mk.injEq] at m1 m2 m3
        · subst m2
          exact ⟨m1.1, m1.2, rfl, fun _ _ _ => rfl⟩
        · obtain ⟨rfl, rfl⟩ := m2
          simp only
          split
          · exact ⟨m1.1, m1.2, rfl, fun _ _ _ => rfl⟩
          · split
            · refine ⟨m1.1, m1.2, rfl, fun hij hxy hn => ?_⟩
              simp only [List.map_cons, List.cons.injEq] at hn
              subst hij hxy
              rw [(m3 rfl).2.2, hn.1]
            · obtain ⟨q1, q2, q3, q4⟩ := ih a2 b2 (actual + 1) (ofs + hdr.length + bw1)
                (if i = true then x ++ [⟨o.sha, c1, ofs⟩] else x) (if j = true then y ++ [⟨p.sha, c2, ofs⟩] else y) m1.1 m1.2
              refine ⟨q1, q2, q3, fun hij hxy hn => ?_⟩
              simp only [List.map_cons, List.cons.injEq] at hn
              subst hij hxy
              exact q4 rfl (by rw [(m3 rfl).2.2, hn.1]) hn.2

theorem writeSteps_same {w₁ : ω₁ → Bytes → ω₁ × Res ρ₁} {w₂ : ω₂ → Bytes → ω₂ × Res ρ₂} {W : ω₁ → ω₂ → Prop}
    (hw : SameWrites w₁ w₂ W) (steps : List (Res Bytes)) : ∀ (a : ω₁) (b : ω₂), W a b →
      (writeSteps w₁ a steps).2 = (writeSteps w₂ b steps).2 ∧ W (writeSteps w₁ a steps).1 (writeSteps w₂ b steps).1 := by
  induction steps with
  | nil => intro a b h; exact ⟨rfl, h⟩
  | cons d ds ih =>
    intro a b h
    rcases d with e | d
    · exact ⟨rfl, h⟩
    · simp only [writeSteps]
      obtain ⟨k1, k2⟩ := hw a b d h
      rcases hx : w₁ a d with ⟨a1, u⟩
      rcases hy : w₂ b d with ⟨b1, v⟩
      rw [hx, hy] at k1 k2
      simp only at k1 k2
      cases k1 with
      | error e => exact ⟨rfl, k2⟩
      | ok u v => exact ih _ _ k2

theorem indexWrite_same (H : Hash) {w₁ : ω₁ → Bytes → ω₁ × Res ρ₁} {w₂ : ω₂ → Bytes → ω₂ × Res ρ₂} {W : ω₁ → ω₂ → Prop}
    (hw : SameWrites w₁ w₂ W) (objs : List IdxObj) (packSha : Bytes) (a : ω₁) (b : ω₂) (h : W a b) :
      (indexWrite H objs packSha w₁ a).2 = (indexWrite H objs packSha w₂ b).2 ∧
      W (indexWrite H objs packSha w₁ a).1 (indexWrite H objs packSha w₂ b).1 := by
  obtain ⟨k1, k2⟩ := writeSteps_same (flex_same hw) (indexSteps (sortObjs objs) packSha) { inner := a } { inner := b } ⟨rfl, h⟩
  unfold indexWrite
  rcases hx : writeSteps (FlexibleSha1Writer.write w₁) { inner := a } (indexSteps (sortObjs objs) packSha) with ⟨f, u⟩
  rcases hy : writeSteps (FlexibleSha1Writer.write w₂) { inner := b } (indexSteps (sortObjs objs) packSha) with ⟨g, v⟩
  rw [hx, hy] at k1 k2
  simp only at k1 k2
  subst k1
  rcases u with e | ⟨⟩
  · exact ⟨rfl, k2.2⟩
  · simp only [k2.1]
    obtain ⟨k3, k4⟩ := hw f.inner g.inner (g.sha1.sha H false) k2.2
    rcases hx : w₁ f.inner (g.sha1.sha H false) with ⟨a1, u⟩
    rcases hy : w₂ g.inner (g.sha1.sha H false) with ⟨b1, v⟩
    rw [hx, hy] at k3 k4
    simp only at k3 k4
    cases k3 with
    | error e => exact ⟨rfl, k4⟩
    | ok u v => exact ⟨rfl, k4⟩

theorem all2_length {α β : Type} {R : α → β → Prop} {l : List α} {m : List β} (h : All2 R l m) : l.length = m.length := by
  induction h with
  | nil => rfl
  | cons _ _ ih => simp [ih]

/-! ## The order of index entries -/

theorem leSha_trans (a b c : IdxObj) (h1 : decide (¬ b.sha < a.sha) = true) (h2 : decide (¬ c.sha < b.sha) = true) :
    decide (¬ c.sha < a.sha) = true := by
  simp only [decide_eq_true_eq, List.not_lt] at *
  exact List.le_trans h1 h2

theorem leSha_total (a b : IdxObj) : (decide (¬ b.sha < a.sha) || decide (¬ a.sha < b.sha)) = true := by
  simp only [List.not_lt, Bool.or_eq_true, decide_eq_true_eq]
  exact List.le_total _ _

theorem sortObjs_again (objs : List IdxObj) : sortObjs (sortObjs objs) = sortObjs objs :=
  List.mergeSort_of_pairwise (List.pairwise_mergeSort leSha_trans leSha_total objs)

theorem sortObjs_withName (objs : List IdxObj) (x : Bytes) :
    withName IdxObj.sha x (sortObjs objs) = withName IdxObj.sha x objs := by
  have hp : ((withName IdxObj.sha x objs).Pairwise fun a b => decide (¬ b.sha < a.sha) = true) := by
    rw [List.pairwise_iff_forall_sublist]
    intro a b hab
    have ha := hab.subset (List.mem_cons_self ..)
    have hb := hab.subset (List.mem_cons_of_mem _ (List.mem_cons_self ..))
    simp only [withName, List.mem_filter, decide_eq_true_eq] at ha hb
    simp only [ha.2, hb.2, decide_eq_true_eq]
    exact List.lt_irrefl x
  have h1 : (withName IdxObj.sha x objs).Sublist (sortObjs objs) :=
    List.sublist_mergeSort leSha_trans leSha_total hp (List.filter_sublist)
  have h2 := h1.filter (fun o => decide (o.sha = x))
  have h3 : (withName IdxObj.sha x objs).filter (fun o => decide (o.sha = x)) = withName IdxObj.sha x objs := by
    simp [withName, List.filter_filter]
  rw [h3] at h2
  refine (h2.eq_of_length ?_).symm
  exact (((sortObjs_perm objs).filter _).length_eq).symm

theorem sorted_unique : ∀ (l m : List IdxObj), (l.Pairwise fun a b => a.sha ≤ b.sha) →
    (m.Pairwise fun a b => a.sha ≤ b.sha) → (∀ x, withName IdxObj.sha x l = withName IdxObj.sha x m) → l = m := by
  intro l
  induction l with
  | nil =>
    intro m _ _ h
    cases m with
    | nil => rfl
    | cons b m => have := h b.sha; simp [withName] at this
  | cons a l ih =>
    intro m hl hm h
    cases m with
    | nil => have := h a.sha; simp [withName] at this
    | cons b m =>
      have ha : a ∈ b :: m := by
        have : a ∈ withName IdxObj.sha a.sha (b :: m) := by rw [← h]; simp [withName]
        exact (List.mem_filter.1 this).1
      have hb : b ∈ a :: l := by
        have : b ∈ withName IdxObj.sha b.sha (a :: l) := by rw [h]; simp [withName]
        exact (List.mem_filter.1 this).1
      have hba : b.sha ≤ a.sha := by
        rcases List.mem_cons.1 ha with rfl | ha
        · exact List.le_refl _
        · exact (List.pairwise_cons.1 hm).1 _ ha
      have hab : a.sha ≤ b.sha := by
        rcases List.mem_cons.1 hb with rfl | hb
        · exact List.le_refl _
        · exact (List.pairwise_cons.1 hl).1 _ hb
      have hs : a.sha = b.sha := List.le_antisymm hab hba
      have hh := h a.sha
      simp only [withName, List.filter_cons, hs, decide_true, if_true, List.cons.injEq] at hh
      obtain ⟨rfl, _⟩ := hh
      congr 1
      refine ih m (List.pairwise_cons.1 hl).2 (List.pairwise_cons.1 hm).2 fun x => ?_
      have hx := h x
      simp only [withName, List.filter_cons] at hx ⊢
      split at hx
      · exact (List.cons.inj hx).2
      · exact hx

theorem sortObjs_order (l m : List IdxObj) (h : ∀ x, withName IdxObj.sha x l = withName IdxObj.sha x m) :
    sortObjs l = sortObjs m := by
  have hs : ∀ l, (sortObjs l).Pairwise fun a b => a.sha ≤ b.sha := fun l =>
    (List.pairwise_mergeSort leSha_trans leSha_total l).imp fun h => by simpa using h
  exact sorted_unique _ _ (hs l) (hs m) fun x => by rw [sortObjs_withName, sortObjs_withName, h]

/-! ## Loose objects -/

theorem streamCopyLoop_same {r₁ : σ₁ → Int → σ₁ × Res Bytes} {r₂ : σ₂ → Int → σ₂ × Res Bytes}
    (w : ω₁ → Bytes → ω₁ × Res ρ₁) {R : σ₁ → σ₂ → Prop} (hr : SameReads (fun _ => True) r₁ r₂ R) (size cs : Int) :
    ∀ (fuel : Nat) (dbw : Int) (s : σ₁) (t : σ₂) (a : ω₁), R s t →
      (streamCopyLoop r₁ w size cs fuel dbw s a).2 = (streamCopyLoop r₂ w size cs fuel dbw t a).2 ∧
      R (streamCopyLoop r₁ w size cs fuel dbw s a).1 (streamCopyLoop r₂ w size cs fuel dbw t a).1 := by
  intro fuel
  induction fuel with
  | zero => intro dbw s t a h; exact ⟨rfl, h⟩
  | succ fuel ih =>
    intro dbw s t a h
    simp only [streamCopyLoop]
    obtain ⟨k1, k2⟩ := hr s t (min cs (size - dbw)) h trivial
    rcases hx : r₁ s (min cs (size - dbw)) with ⟨s1, u⟩
    rcases hy : r₂ t (min cs (size - dbw)) with ⟨t1, v⟩
    rw [hx, hy] at k1 k2
    simp only at k1 k2
    subst k1
    rcases u with e | data
    · exact ⟨rfl, k2⟩
    · simp only
      rcases w a data with ⟨a1, e | u⟩
      · exact ⟨rfl, k2⟩
      · simp only
        split
        · exact ⟨rfl, k2⟩
        · exact ih _ _ _ _ k2

theorem writeObject_same {r₁ : σ₁ → Int → σ₁ × Res Bytes} {r₂ : σ₂ → Int → σ₂ × Res Bytes}
    (w : ω₁ → Bytes → ω₁ × Res (Option Int)) {R : σ₁ → σ₂ → Prop} (hr : SameReads (fun _ => True) r₁ r₂ R)
    (fuel : Nat) (ty : Bytes) (size : Nat) (cs : Int) (s : σ₁) (t : σ₂) (a : ω₁) (h : R s t) :
      (writeObject fuel ty size r₁ w cs s a).2 = (writeObject fuel ty size r₂ w cs t a).2 ∧
      R (writeObject fuel ty size r₁ w cs s a).1 (writeObject fuel ty size r₂ w cs t a).1 := by
  unfold writeObject
  rcases looseObjectHeader ty size with e | hdr
  · exact ⟨rfl, h⟩
  · simp only
    rcases w a hdr with ⟨a1, e | _ | n⟩
    · exact ⟨rfl, h⟩
    · exact ⟨rfl, h⟩
    · simp only [streamCopy]
      obtain ⟨k1, k2⟩ := streamCopyLoop_same w hr size cs fuel 0 s t a1 h
      rcases hx : streamCopyLoop r₁ w size cs fuel 0 s a1 with ⟨s1, x1, u⟩
      rcases hy : streamCopyLoop r₂ w size cs fuel 0 t a1 with ⟨t1, y1, v⟩
      rw [hx, hy] at k1 k2
      simp only [Prod.mk.injEq] at k1 k2
      obtain ⟨rfl, rfl⟩ := k1
      rcases u with e | m
      · exact ⟨rfl, k2⟩
      · exact ⟨rfl, k2⟩

end GitDB
