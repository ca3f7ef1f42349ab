import Verif.Proofs.SameOutput
import Verif.Props.PackDup
import Verif.Props.GitStore
/-!
# C85: what is written depends only on the objects

No time, no order of a hash table and no property of the streams gets into the files: objects of the same type, size,
content and name give the same pack, the same index and the same loose object, byte for byte.
-/
set_option autoImplicit false

namespace GitDB.Props
open GitDB Spec

variable {σ₁ σ₂ ω₁ ω₂ υ₁ υ₂ ρ₁ ρ₂ π₁ π₂ : Type}

/-! ## Packs -/

section
variable {read₁ : σ₁ → Int → σ₁ × Res Bytes} {read₂ : σ₂ → Int → σ₂ × Res Bytes} {R : σ₁ → σ₂ → Prop}
  (hr : SameReads (1 ≤ ·) read₁ read₂ R)
  {write₁ : ω₁ → Bytes → ω₁ × Res ρ₁} {write₂ : ω₂ → Bytes → ω₂ × Res ρ₂} {W : ω₁ → ω₂ → Prop}
  (hw : SameWrites write₁ write₂ W)
  (H : Hash) (zl : Zlib) (fuel : Nat) (level : Int) (count : Option Nat)
  (l : List (PackIn σ₁)) (m : List (PackIn σ₂)) (hl : All2 (SameObject R) l m)

include hr hw hl in
/-- **C85** Streams that deliver the same - in whatever pieces, and even if they fail - give the same pack and the same
index, the same results and the same exceptions: after `write_pack` the writers have still received the same. -/
theorem C85_pack {iwrite₁ : υ₁ → Bytes → υ₁ × Res π₁} {iwrite₂ : υ₂ → Bytes → υ₂ × Res π₂} {V : υ₁ → υ₂ → Prop}
    (hi : SameWrites iwrite₁ iwrite₂ V) (hn : l.map PackIn.sha = m.map PackIn.sha) (w : ω₁) (v : ω₂) (hwv : W w v)
    (iw : υ₁) (iv : υ₂) (hiv : V iw iv) :
    (writePack H zl fuel read₁ write₁ (some iwrite₁) l count level w iw).2.2 =
      (writePack H zl fuel read₂ write₂ (some iwrite₂) m count level v iv).2.2 ∧
    W (writePack H zl fuel read₁ write₁ (some iwrite₁) l count level w iw).1
      (writePack H zl fuel read₂ write₂ (some iwrite₂) m count level v iv).1 ∧
    V (writePack H zl fuel read₁ write₁ (some iwrite₁) l count level w iw).2.1
      (writePack H zl fuel read₂ write₂ (some iwrite₂) m count level v iv).2.1 := by
  unfold writePack
  simp only [all2_length hl, Option.isSome_some]
  generalize packCount count m.length = cnt
  rcases packLLL packSignature 2 cnt with e | hdr
  · exact ⟨rfl, hwv, hiv⟩
  · simp only
    obtain ⟨k1, k2⟩ := flex_same hw { inner := w } { inner := v } hdr ⟨rfl, hwv⟩
    rcases hx : FlexibleSha1Writer.write write₁ { inner := w } hdr with ⟨f, a⟩
    rcases hy : FlexibleSha1Writer.write write₂ { inner := v } hdr with ⟨g, b⟩
    rw [hx, hy] at k1 k2
    simp only at k1 k2
    cases k1 with
    | error e => exact ⟨rfl, k2.2, hiv⟩
    | ok a b =>
      simp only
      obtain ⟨q1, q2, -, q4⟩ := packObjects_same zl hr hw fuel level true true cnt l m hl f g 0 12 [] [] k2.1 k2.2
      have q4 := q4 rfl rfl hn
      rcases hx : packObjects zl fuel read₁ write₁ level true cnt l f 0 12 [] with ⟨f', a⟩
      rcases hy : packObjects zl fuel read₂ write₂ level true cnt m g 0 12 [] with ⟨g', b⟩
      rw [hx, hy] at q1 q2 q4
      simp only at q1 q2 q4
      subst q4
      rcases a with e | ⟨n, idx⟩
      · exact ⟨rfl, q2, hiv⟩
      · simp only [q1]
        split
        · exact ⟨rfl, q2, hiv⟩
        · obtain ⟨k3, k4⟩ := hw f'.inner g'.inner (g'.sha1.sha H false) q2
          rcases hx : write₁ f'.inner (g'.sha1.sha H false) with ⟨w', a⟩
          rcases hy : write₂ g'.inner (g'.sha1.sha H false) with ⟨v', b⟩
          rw [hx, hy] at k3 k4
          simp only at k3 k4
          cases k3 with
          | error e => exact ⟨rfl, k4, hiv⟩
          | ok a b =>
            simp only
            obtain ⟨k5, k6⟩ := indexWrite_same H hi idx (g'.sha1.sha H false) iw iv hiv
            rcases hx : indexWrite H idx (g'.sha1.sha H false) iwrite₁ iw with ⟨iw', a⟩
            rcases hy : indexWrite H idx (g'.sha1.sha H false) iwrite₂ iv with ⟨iv', b⟩
            rw [hx, hy] at k5 k6
            simp only at k5 k6
            subst k5
            rcases a with e | s
            · exact ⟨rfl, k4, k6⟩
            · exact ⟨rfl, k4, k6⟩

include hr hw hl in
/-- **C85** The pack file does not depend on the names of the objects, and not on whether an index is written. -/
theorem C85_pack_alone (iwrite₁ : Option (υ₁ → Bytes → υ₁ × Res π₁)) (iwrite₂ : Option (υ₂ → Bytes → υ₂ × Res π₂))
    (w : ω₁) (v : ω₂) (hwv : W w v) (iw : υ₁) (iv : υ₂) :
    W (writePack H zl fuel read₁ write₁ iwrite₁ l count level w iw).1
      (writePack H zl fuel read₂ write₂ iwrite₂ m count level v iv).1 ∧
    ∀ p q, (writePack H zl fuel read₁ write₁ iwrite₁ l count level w iw).2.2 = .ok p →
      (writePack H zl fuel read₂ write₂ iwrite₂ m count level v iv).2.2 = .ok q → p.1 = q.1 := by
  unfold writePack
  simp only [all2_length hl]
  generalize packCount count m.length = cnt
  rcases packLLL packSignature 2 cnt with e | hdr
  · exact ⟨hwv, fun _ _ h => by simp at h⟩
  · simp only
    obtain ⟨k1, k2⟩ := flex_same hw { inner := w } { inner := v } hdr ⟨rfl, hwv⟩
    rcases hx : FlexibleSha1Writer.write write₁ { inner := w } hdr with ⟨f, a⟩
    rcases hy : FlexibleSha1Writer.write write₂ { inner := v } hdr with ⟨g, b⟩
    rw [hx, hy] at k1 k2
    simp only at k1 k2
    cases k1 with
    | error e => exact ⟨k2.2, fun _ _ h => by simp at h⟩
    | ok a b =>
      simp only
      obtain ⟨q1, q2, q3, -⟩ := packObjects_same zl hr hw fuel level iwrite₁.isSome iwrite₂.isSome cnt l m hl f g 0 12
        [] [] k2.1 k2.2
      rcases hx : packObjects zl fuel read₁ write₁ level iwrite₁.isSome cnt l f 0 12 [] with ⟨f', e | ⟨n, x⟩⟩ <;>
        rcases hy : packObjects zl fuel read₂ write₂ level iwrite₂.isSome cnt m g 0 12 [] with ⟨g', e' | ⟨n', y⟩⟩ <;>
        rw [hx, hy] at q1 q2 q3 <;>
        simp only [Except.map, Except.ok.injEq, Except.error.injEq, reduceCtorEq] at q1 q2 q3
      · exact ⟨q2, fun _ _ h => by simp at h⟩
      · subst q3
        simp only [q1]
        split
        · exact ⟨q2, fun _ _ h => by simp at h⟩
        · obtain ⟨k3, k4⟩ := hw f'.inner g'.inner (g'.sha1.sha H false) q2
          rcases hx : write₁ f'.inner (g'.sha1.sha H false) with ⟨w', a⟩
          rcases hy : write₂ g'.inner (g'.sha1.sha H false) with ⟨v', b⟩
          rw [hx, hy] at k3 k4
          simp only at k3 k4
          cases k3 with
          | error e => exact ⟨k4, fun _ _ h => by simp at h⟩
          | ok a b =>
            have hone : ∀ {υ π : Type} (o : Option (υ → Bytes → υ × Res π)) (u : υ) (i : List IdxObj) (ω : Type) (z : ω)
                (sha : Bytes),
                (match o with
                  | none => (z, u, (.ok (sha, none) : Res (Bytes × Option Bytes)))
                  | some iwr =>
                    match indexWrite H i sha iwr u with
                    | (iw, .error e) => (z, iw, .error e)
                    | (iw, .ok idxSha) => (z, iw, .ok (sha, some idxSha)) : ω × υ × Res (Bytes × Option Bytes)).1 = z ∧
                ∀ p, (match o with
                  | none => (z, u, (.ok (sha, none) : Res (Bytes × Option Bytes)))
                  | some iwr =>
                    match indexWrite H i sha iwr u with
                    | (iw, .error e) => (z, iw, .error e)
                    | (iw, .ok idxSha) => (z, iw, .ok (sha, some idxSha)) : ω × υ × Res (Bytes × Option Bytes)).2.2 = .ok p → p.1 = sha := by
              intro υ π o u i ω z sha
              rcases o with _ | iwr
              · exact ⟨rfl, fun p h => by cases h; rfl⟩
              · simp only
                rcases indexWrite H i sha iwr u with ⟨u', e | s⟩
                · exact ⟨rfl, fun p h => by simp at h⟩
                · exact ⟨rfl, fun p h => by cases h; rfl⟩
            obtain ⟨a1, a2⟩ := hone iwrite₁ iw x ω₁ w' (g'.sha1.sha H false)
            obtain ⟨b1, b2⟩ := hone iwrite₂ iv y ω₂ v' (g'.sha1.sha H false)
            refine ⟨?_, fun p q hp hq => (a2 p hp).trans (b2 q hq).symm⟩
            exact Eq.mpr (congr (congrArg W a1) b1) k4
end

/-- Streams of any two kinds with the same rest cannot be told apart. -/
theorem bounded_same {read₁ : σ₁ → Int → σ₁ × Res Bytes} {read₂ : σ₂ → Int → σ₂ × Res Bytes}
    {Rep₁ : σ₁ → Bytes → Prop} {Rep₂ : σ₂ → Bytes → Prop} (h₁ : BoundedReads read₁ Rep₁) (h₂ : BoundedReads read₂ Rep₂) :
    SameReads (1 ≤ ·) read₁ read₂ (fun a b => ∃ rem, Rep₁ a rem ∧ Rep₂ b rem) := by
  rintro a b n ⟨rem, ha, hb⟩ hn
  obtain ⟨a', e1, r1⟩ := h₁.read_pos a rem n ha hn
  obtain ⟨b', e2, r2⟩ := h₂.read_pos b rem n hb hn
  rw [e1, e2]
  exact ⟨rfl, _, r1, r2⟩

/-- **C85** Pack and index are determined by type, size, content and name of the objects: whatever kinds of streams deliver
the contents. -/
theorem C85_contents {read₁ : σ₁ → Int → σ₁ × Res Bytes} {read₂ : σ₂ → Int → σ₂ × Res Bytes}
    {Rep₁ : σ₁ → Bytes → Prop} {Rep₂ : σ₂ → Bytes → Prop} (h₁ : BoundedReads read₁ Rep₁) (h₂ : BoundedReads read₂ Rep₂)
    (write : ω₁ → Bytes → ω₁ × Res ρ₁) (iwrite : υ₁ → Bytes → υ₁ × Res π₁) (H : Hash) (zl : Zlib) (fuel : Nat) (level : Int)
    (count : Option Nat) (l : List (PackIn σ₁ × Bytes)) (m : List (PackIn σ₂ × Bytes))
    (hl : ∀ q ∈ l, Rep₁ q.1.strm q.2) (hm : ∀ q ∈ m, Rep₂ q.1.strm q.2)
    (hlm : l.map (fun q => (q.1.typeId, q.1.size, q.1.sha, q.2)) = m.map (fun q => (q.1.typeId, q.1.size, q.1.sha, q.2)))
    (w : ω₁) (iw : υ₁) :
    writePack H zl fuel read₁ write (some iwrite) (l.map Prod.fst) count level w iw =
      writePack H zl fuel read₂ write (some iwrite) (m.map Prod.fst) count level w iw := by
  have hall : All2 (SameObject fun a b => ∃ rem, Rep₁ a rem ∧ Rep₂ b rem) (l.map Prod.fst) (m.map Prod.fst) ∧
      (l.map Prod.fst).map PackIn.sha = (m.map Prod.fst).map PackIn.sha := by
    induction l generalizing m with
    | nil =>
      cases m with
      | nil => exact ⟨.nil, rfl⟩
      | cons q m => simp at hlm
    | cons p l ih =>
      cases m with
      | nil => simp at hlm
      | cons q m =>
        simp only [List.map_cons, List.cons.injEq, Prod.mk.injEq] at hlm
        obtain ⟨⟨e1, e2, e3, e4⟩, ht⟩ := hlm
        obtain ⟨i1, i2⟩ := ih m (fun x hx => hl x (List.mem_cons_of_mem _ hx)) (fun x hx => hm x (List.mem_cons_of_mem _ hx)) ht
        refine ⟨.cons ⟨e1, e2, p.2, hl p (List.mem_cons_self ..), ?_⟩ i1, ?_⟩
        · rw [e4]; exact hm q (List.mem_cons_self ..)
        · simp only [List.map_cons, e3, i2]
  have hsame : ∀ {ω ρ : Type} (f : ω → Bytes → ω × Res ρ), SameWrites f f (fun a b => a = b) := by
    rintro ω ρ f a b d rfl
    refine ⟨?_, rfl⟩
    rcases (f a d).2 with e | x
    · exact .error e
    · exact .ok x x
  obtain ⟨k1, k2, k3⟩ := C85_pack (bounded_same h₁ h₂) (hsame write) H zl fuel level count _ _ hall.1 (hsame iwrite) hall.2
    w w rfl iw iw rfl
  exact Prod.ext k2 (Prod.ext k3 k1)

/-! ## Index files -/

/-- **C85** The index does not depend on the order of `append`, but for entries with the same name. -/
theorem C85_index (H : Hash) (l m : List IdxObj)
    (h : ∀ x, withName IdxObj.sha x l = withName IdxObj.sha x m) (packSha : Bytes)
    (write : ω₁ → Bytes → ω₁ × Res ρ₁) (w : ω₁) :
    indexWrite H l packSha write w = indexWrite H m packSha write w := by
  unfold indexWrite
  rw [sortObjs_order l m h]

/-- **C85** Not at all if the names are distinct. -/
theorem C85_index_any_order (H : Hash) (l m : List IdxObj) (hp : l.Perm m) (hd : (l.map IdxObj.sha).Nodup)
    (packSha : Bytes) (write : ω₁ → Bytes → ω₁ × Res ρ₁) (w : ω₁) :
    indexWrite H l packSha write w = indexWrite H m packSha write w := by
  refine C85_index H l m (fun x => ?_) packSha write w
  have h1 : ((withName IdxObj.sha x l)).Perm (withName IdxObj.sha x m) := hp.filter _
  have h2 : (withName IdxObj.sha x l).length ≤ 1 := by
    have hs : ((withName IdxObj.sha x l).map IdxObj.sha).Nodup := (List.filter_sublist.map _).nodup hd
    have ha : ∀ o ∈ withName IdxObj.sha x l, o.sha = x := fun o ho => by simpa using (List.mem_filter.1 ho).2
    match withName IdxObj.sha x l, hs, ha with
    | [], _, _ => exact Nat.zero_le _
    | [a], _, _ => exact Nat.le_refl _
    | a :: b :: t, hs, ha =>
      exfalso
      simp only [List.map_cons, List.nodup_cons, List.mem_cons] at hs
      exact hs.1 (.inl ((ha a (by simp)).trans (ha b (by simp)).symm))
  match hx : withName IdxObj.sha x l, h1, h2 with
  | [], h1, _ => exact (List.nil_perm.1 h1).symm
  | [a], h1, _ => exact (List.singleton_perm.1 h1).symm ▸ rfl

/-- **C85** `write` sorts the entries in place; a second `write` of the same writer gives the same file. -/
theorem C85_index_again (H : Hash) (l : List IdxObj) (packSha : Bytes) (write : ω₁ → Bytes → ω₁ × Res ρ₁) (w : ω₁) :
    indexWrite H (sortObjs l) packSha write w = indexWrite H l packSha write w := by
  unfold indexWrite
  rw [sortObjs_again]

/-! ## Loose objects -/

/-- **C85** Storing objects with the same type, size, name and content makes the same system calls with the same data,
and ends in the same way. -/
theorem C85_loose (H : Hash) (zl : Zlib) (fuel : Nat) (env : StoreEnv)
    {read₁ : σ₁ → Int → σ₁ × Res Bytes} {read₂ : σ₂ → Int → σ₂ × Res Bytes} {R : σ₁ → σ₂ → Prop}
    (hr : SameReads (fun _ => True) read₁ read₂ R) (i : IStream σ₁) (j : IStream σ₂)
    (ht : i.type = j.type) (hs : i.size = j.size) (hb : i.binsha = j.binsha) (hR : R i.strm j.strm) :
    (looseStore H zl fuel env read₁ i).1 = (looseStore H zl fuel env read₂ j).1 ∧
    (looseStore H zl fuel env read₁ i).2.2 = (looseStore H zl fuel env read₂ j).2.2 ∧
    (looseStore H zl fuel env read₁ i).2.1.binsha = (looseStore H zl fuel env read₂ j).2.1.binsha := by
  have hnew : (writeNew H zl fuel env.plan read₁ i).1 = (writeNew H zl fuel env.plan read₂ j).1 ∧
      (writeNew H zl fuel env.plan read₁ i).2.2 = (writeNew H zl fuel env.plan read₂ j).2.2 := by
    have h := (writeObject_same (fdWrite (zl := zl)) hr fuel j.type j.size looseChunk i.strm j.strm
      (FDCompressedSha1Writer.new zl { plan := env.plan }) hR).1
    simp only [writeNew, ht, hs, h, and_self]
  have hraw : (writeRaw fuel env.plan read₁ i).1 = (writeRaw fuel env.plan read₂ j).1 ∧
      (writeRaw fuel env.plan read₁ i).2.2 = (writeRaw fuel env.plan read₂ j).2.2 := by
    have h := (streamCopyLoop_same FDStream.write hr maxsize looseChunk fuel 0 i.strm j.strm
      ({ fd := { plan := env.plan } } : FDStream) hR).1
    simp only [writeRaw, streamCopy, h, and_self]
  unfold looseStore
  rcases env.tmp with _ | rnd
  · exact ⟨rfl, rfl, hb⟩
  · simp only [hb]
    rcases hx : j.binsha with _ | b
    · simp only [hnew.1, hnew.2]
      rcases (writeNew H zl fuel env.plan read₂ j).2.2.1 with e | ⟨⟩
      · rcases env.cleanup with _ | _
        · exact ⟨rfl, rfl, rfl⟩
        · exact ⟨rfl, rfl, rfl⟩
      · simp only [storedName]
        rcases (publish env (tmpPath rnd) (objectPath (writeNew H zl fuel env.plan read₂ j).2.2.2)).2 with e | ⟨⟩
        · exact ⟨rfl, rfl, rfl⟩
        · simp only
          rcases hexToBin (writeNew H zl fuel env.plan read₂ j).2.2.2 with e | b
          · exact ⟨rfl, rfl, rfl⟩
          · exact ⟨rfl, rfl, rfl⟩
    · simp only [hraw.1, hraw.2]
      rcases (writeRaw fuel env.plan read₂ j).2.2 with e | ⟨⟩
      · rcases env.cleanup with _ | _
        · exact ⟨rfl, rfl, rfl⟩
        · exact ⟨rfl, rfl, rfl⟩
      · simp only
        rcases storedName (some b) [] with e | hex
        · exact ⟨rfl, rfl, rfl⟩
        · simp only
          rcases (publish env (tmpPath rnd) (objectPath hex)).2 with e | ⟨⟩
          · exact ⟨rfl, rfl, rfl⟩
          · simp only
            rcases hexToBin hex with e | b
            · exact ⟨rfl, rfl, rfl⟩
            · exact ⟨rfl, rfl, rfl⟩

/-- A stream that keeps what it has delivered. -/
def exRecorder (s : Bytes × Bytes) (n : Int) : (Bytes × Bytes) × Res Bytes :=
  ((s.1 ++ s.2.take n.toNat, s.2.drop n.toNat), .ok (s.2.take n.toNat))

theorem exRecorder_reads : BoundedReads exRecorder (fun s rem => s.2 = rem) := by
  constructor
  rintro s rem n rfl _
  exact ⟨_, rfl, rfl⟩

/-- The two blobs once more, from such streams. -/
def exRecorded (n : Nat) : List (PackIn (Bytes × Bytes) × Bytes) :=
  (twoBlobs n).map fun q => (⟨q.1.typeId, q.1.size, q.1.sha, ([7], q.2)⟩, q.2)

example (n : Nat) (hn : n < 2 ^ 59) := C85_contents bytesIO_reads.toBoundedReads exRecorder_reads sink sink lenHash
  toyZlib (n + 2) 1 none (twoBlobs n) (exRecorded n) (fun q hq => ((twoBlobs_packable n hn).good q hq).1)
  (by
    intro q hq
    obtain ⟨p, _, rfl⟩ := List.mem_map.1 hq
    rfl) (by simp [exRecorded, Function.comp_def]) {} {}
example := C85_pack_alone (υ₁ := Unit) (π₁ := Unit) (υ₂ := Bytes) (bounded_same bytesIO_reads.toBoundedReads exRecorder_reads)
  (W := fun a b => a = b) (write₁ := sink) (write₂ := sink)
  (by rintro a _ d rfl; exact ⟨.ok _ _, rfl⟩) lenHash toyZlib 4 1 none [⟨3, 2, [1], [5, 6]⟩] [⟨3, 2, [9], ([], [5, 6])⟩]
  (.cons ⟨rfl, rfl, _, rfl, rfl⟩ .nil) none (some fun o d => (o ++ d, .ok ()))
  {} {} rfl () []
example := C85_index_any_order lenHash [⟨[2], 5, 12⟩, ⟨[1], 6, 40⟩] [⟨[1], 6, 40⟩, ⟨[2], 5, 12⟩] (List.Perm.swap ..) (by decide)
  (List.replicate 20 0) (fun (o : Bytes) d => (o ++ d, .ok ())) []
example : ∀ x, withName IdxObj.sha x [⟨[2], 5, 12⟩, ⟨[1], 6, 40⟩, ⟨[2], 7, 60⟩] =
    withName IdxObj.sha x [⟨[2], 5, 12⟩, ⟨[2], 7, 60⟩, ⟨[1], 6, 40⟩] := by
  intro x
  by_cases h1 : x = [1]
  · subst h1; decide
  · by_cases h2 : x = [2]
    · subst h2; decide
    · simp [withName, Ne.symm h1, Ne.symm h2]
example : sortObjs [⟨[2], 5, 12⟩, ⟨[1], 6, 40⟩] ≠ [⟨[2], 5, 12⟩, ⟨[1], 6, 40⟩] := by
  intro h
  have := sortObjs_sorted [⟨[2], 5, 12⟩, ⟨[1], 6, 40⟩]
  rw [h] at this
  revert this
  unfold Ascending
  decide
example := C85_loose exHash toyZlib 10 { tmp := some [1], isfile := false } (read₁ := bytesIORead)
  (read₂ := fun (s : Bytes × Nat) n => (((bytesIORead s.1 n).1, s.2 + 1), (bytesIORead s.1 n).2))
  (R := fun a b => a = b.1) (by rintro _ b n rfl _; exact ⟨rfl, rfl⟩) smallStream
  ⟨smallStream.type, smallStream.size, smallStream.binsha, (smallStream.strm, 0)⟩ rfl rfl rfl rfl

end GitDB.Props
