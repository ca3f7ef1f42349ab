import Verif.Model.DeltaRetry
import Verif.Spec.Stream
import Verif.Proofs.FileMemory
import Verif.Proofs.Raises
/-!
# Delta streams after an exception
-/
set_option autoImplicit false

namespace GitDB

open Spec

variable {σ ω : Type}

/-! ## The first attempt is the one of the other model -/

/-- Does the next `mmap` succeed. -/
def usesMap : List Alloc → Bool
  | .heap :: _ => false
  | _ => true

theorem allocateNext_cases (as : List Alloc) (n : Int) :
    allocateNext as n = (as.tail, allocateIn (usesMap as) n) ∨
      ∃ e, as.head? = some (.fails e) ∧ allocateNext as n = (as.tail, .error e) := by
  rcases as with _ | ⟨_ | _ | e, as⟩
  · exact .inl rfl
  · exact .inl rfl
  · exact .inl rfl
  · exact .inr ⟨e, rfl, rfl⟩

theorem tryHead_link (read : σ → Int → σ × Res Bytes) (s : σ) (n : Nat) :
    (tryHead read s n).2 = readDeltaHead read s n ∧ ∀ d, (tryHead read s n).2 = .ok d → (tryHead read s n).1 = d.strm ∧ d.size = n := by
  unfold tryHead readDeltaHead
  rcases h : read s 512 with ⟨s', e | buf⟩
  · exact ⟨rfl, fun d h => nomatch h⟩
  · rcases h1 : msbSize buf 0 with e | ⟨o, v⟩
    · simp [h1, bind, Except.bind]
    · rcases h2 : msbSize buf o with e | ⟨o', v'⟩
      · simp [h1, h2, bind, Except.bind]
      · simp only [h1, h2, bind, Except.bind, pure, Except.pure]
        exact ⟨trivial, fun d hd => by cases hd; exact ⟨rfl, rfl⟩⟩

theorem tryHeads_link (read : σ → Int → σ × Res Bytes) : ∀ (l : List (σ × Nat)),
    (tryHeads read l).2 = readDeltaHeads read l ∧
      ∀ ds, (tryHeads read l).2 = .ok ds → (tryHeads read l).1 = ds.map fun d => (d.strm, d.size)
  | [] => ⟨rfl, fun ds h => by cases h; rfl⟩
  | (s, n) :: rest => by
    obtain ⟨h1, h2⟩ := tryHead_link read s n
    obtain ⟨h3, h4⟩ := tryHeads_link read rest
    unfold tryHeads readDeltaHeads
    rw [← h1, ← h3]
    rcases ha : tryHead read s n with ⟨s', e | d⟩
    · exact ⟨rfl, fun ds h => nomatch h⟩
    · rw [ha] at h2
      obtain ⟨hs, hn⟩ := h2 d rfl
      rcases hb : tryHeads read rest with ⟨l', e | ds⟩
      · exact ⟨rfl, fun ds h => nomatch h⟩
      · rw [hb] at h4
        refine ⟨rfl, fun x hx => ?_⟩
        cases hx
        have := h4 ds rfl
        simp only at this hs
        simp [this, hs, hn]

theorem tryOne_link (fuel : Nat) (read : σ → Int → σ × Res Bytes) (as : List Alloc) (b t : Buf) (d : DeltaInfo σ) :
    (tryOne fuel read as b t d).1 = as.tail ∧
      ((tryOne fuel read as b t d).2.2 = applyOneIn (usesMap as) fuel read b t d ∨
        ∃ e, as.head? = some (.fails e) ∧ (tryOne fuel read as b t d).2.2 = .error e) := by
  unfold tryOne applyOneIn
  rcases allocateNext_cases as ((d.size : Int) - d.offset) with h | ⟨e, h1, h2⟩
  · rw [h]
    rcases ha : allocateIn (usesMap as) ((d.size : Int) - d.offset) with e | dd
    · exact ⟨rfl, .inl rfl⟩
    · rcases hw : dd.write d.dbuf with ⟨dd1, e | ⟨⟩⟩
      · simp only [hw]; exact ⟨trivial, .inl (by simp only [bind, Except.bind, hw])⟩
      · rcases hc : streamCopy fuel read Buf.write d.size (256 * PAGESIZE : Nat) d.strm dd1 with ⟨s, dd2, e | m⟩
        · simp only [hw, hc]; exact ⟨trivial, .inl (by simp only [bind, Except.bind, hw, hc])⟩
        · rcases hp : applyDeltaData b.data d.srcSize dd2.data dd2.data.length Buf.write t with ⟨t', e | ⟨⟩⟩
          · simp only [hw, hc, hp]; exact ⟨trivial, .inl (by simp only [bind, Except.bind, hw, hc, hp])⟩
          · simp only [hw, hc, hp]; exact ⟨trivial, .inl (by simp only [bind, Except.bind, hw, hc, hp, pure, Except.pure])⟩
  · rw [h2]; exact ⟨rfl, .inr ⟨e, h1, rfl⟩⟩

theorem mem_of_drop_head {as : List Alloc} {j : Nat} {x : Alloc} (h : (as.drop j).head? = some x) : x ∈ as := by
  rw [List.head?_drop] at h
  exact List.mem_of_getElem? h

theorem tryAll_link (fuel : Nat) (read : σ → Int → σ × Res Bytes) (works : Nat → Bool) : ∀ (ds : List (DeltaInfo σ))
    (as : List Alloc) (i : Nat) (b t : Buf), (∀ j, works (i + j) = usesMap (as.drop j)) →
    (tryAll fuel read as ds b t).2.2 = applyAllIn works fuel read i ds b t ∨
      ∃ e, .fails e ∈ as ∧ (tryAll fuel read as ds b t).2.2 = .error e
  | [], as, i, b, t, _ => .inl rfl
  | d :: ds, as, i, b, t, h => by
    obtain ⟨h1, h2⟩ := tryOne_link fuel read as b t d
    have h0 := h 0
    simp only [Nat.add_zero, List.drop_zero] at h0
    unfold tryAll applyAllIn
    rcases ht : tryOne fuel read as b t d with ⟨as', s, e | ⟨b', t'⟩⟩
    · rw [ht] at h2
      rcases h2 with h2 | ⟨e', he, h2⟩
      · left
        rw [h0, ← h2]; rfl
      · cases h2
        exact .inr ⟨_, List.mem_of_mem_head? (by rw [he]; rfl), rfl⟩
    · rw [ht] at h1 h2
      simp only at h1; subst h1
      rcases h2 with h2 | ⟨e', he, h2⟩
      · rw [h0, ← h2]
        rcases tryAll_link fuel read works ds as.tail (i + 1) b' t' (fun j => by
          have := h (j + 1)
          rw [show i + 1 + j = i + (j + 1) by omega, this]; simp) with h3 | ⟨e, he, h3⟩
        · exact .inl h3
        · exact .inr ⟨e, List.mem_of_mem_tail he, h3⟩
      · cases h2

/-- The first attempt does what `setCacheBruteIn` says, or an allocation fails and its exception is raised. -/
theorem trySetCache_link (fuel : Nat) (read : σ → Int → σ × Res Bytes) (as : List Alloc) (r : LazyDelta σ) :
    (trySetCache fuel read as r).2.2 = setCacheBruteIn (fun j => usesMap (as.drop j)) fuel read r.dstreams r.bstream ∨
      ∃ e, .fails e ∈ as ∧ (trySetCache fuel read as r).2.2 = .error e := by
  unfold trySetCache setCacheBruteIn
  obtain ⟨hh, _⟩ := tryHeads_link read r.dstreams
  rw [← hh]
  rcases ha : tryHeads read r.dstreams with ⟨ds, e | infos⟩
  · exact .inl rfl
  · dsimp only [bind, Except.bind]
    generalize hsz : (if r.dstreams.length > 1 then
        (max r.bstream.2 (infos.foldl (fun m d => max m d.targetSize) 0), max r.bstream.2 (infos.foldl (fun m d => max m d.targetSize) 0))
      else (r.bstream.2, infos.foldl (fun m d => max m d.targetSize) 0)) = sizes
    rcases allocateNext_cases as sizes.1 with h | ⟨e, h1, h2⟩
    · rw [h]
      rw [List.drop_zero]
      rcases ha1 : allocateIn (usesMap as) sizes.1 with e | bb
      · exact .inl rfl
      · dsimp only
        rcases hc : streamCopy fuel read Buf.write sizes.1 (256 * PAGESIZE : Nat) r.bstream.1 bb with ⟨s, bb1, e | m⟩
        · exact .inl rfl
        · dsimp only
          have ht : as.drop 1 = as.tail := List.drop_one
          rw [ht]
          rcases allocateNext_cases as.tail sizes.2 with h' | ⟨e, h1, h2⟩
          · rw [h']
            rcases ha2 : allocateIn (usesMap as.tail) sizes.2 with e | tb
            · exact .inl rfl
            · dsimp only
              rcases tryAll_link fuel read (fun j => usesMap (as.drop j)) infos.reverse as.tail.tail 2 bb1 tb (fun j => by
                rw [show as.tail.tail = as.drop 2 by rw [← List.drop_one, ← List.drop_one, List.drop_drop], List.drop_drop]) with h3 | ⟨e, he, h3⟩
              · rw [← h3]
                rcases htr : tryAll fuel read as.tail.tail infos.reverse bb1 tb with ⟨as', ds', e | ⟨b, t⟩⟩
                · exact .inl rfl
                · rcases infos with _ | ⟨d, infos⟩
                  · exact .inl rfl
                  · exact .inl rfl
              · right
                refine ⟨e, List.mem_of_mem_tail (List.mem_of_mem_tail he), ?_⟩
                rcases htr : tryAll fuel read as.tail.tail infos.reverse bb1 tb with ⟨as', ds', e' | ⟨b, t⟩⟩
                · rw [htr] at h3; cases h3; rfl
                · rw [htr] at h3; cases h3
          · rw [h2]
            exact .inr ⟨e, List.mem_of_mem_tail (List.mem_of_mem_head? (by rw [h1]; rfl)), rfl⟩
    · rw [h2]
      exact .inr ⟨e, List.mem_of_mem_head? (by rw [h1]; rfl), rfl⟩

/-! ## A delta that ends in zeros is refused -/

theorem optByte_step {db : Bytes} {c bit shift : Nat} {st st' : Nat × Nat}
    (h : optByte db c bit shift st = .ok st') : st'.2 ≤ st.2 + 1 := by
  unfold optByte at h
  split at h
  · split at h
    · injection h with h; subst h; simp
    · cases h
  · injection h with h; subst h; simp

theorem decodeCopy_step {db : Bytes} {c i off size i' : Nat}
    (h : decodeCopy db c i = .ok (off, size, i')) : i' ≤ i + 7 := by
  unfold decodeCopy at h
  simp only [bind, Except.bind, pure, Except.pure] at h
  repeat' split at h
  all_goals cases h
  all_goals
    rename_i h1 _ _ h2 _ _ h3 _ _ h4 _ _ h5 _ _ h6 _ _ h7 _
    have a1 := optByte_step h1
    have a2 := optByte_step h2
    have a3 := optByte_step h3
    have a4 := optByte_step h4
    have a5 := optByte_step h5
    have a6 := optByte_step h6
    have a7 := optByte_step h7
    simp only at a1 a5
    omega

/-- The last 128 bytes (and possibly more) of the delta are zeros: it is not accepted. -/
theorem applyLoop_zeros (src : Bytes) (srcSize : Nat) (db : Bytes) (p : Nat) (hp : p + 128 ≤ db.length)
    (hz : ∀ j, p ≤ j → j < db.length → db[j]? = some 0) (write : ω → Bytes → ω × Res Unit) : ∀ (k i : Nat) (w : ω),
    db.length - i ≤ k → i < db.length → (applyLoop src srcSize db db.length write i w).2 ≠ .ok ()
  | 0, i, w, hk, hi => absurd hk (by omega)
  | k + 1, i, w, hk, hi => by
    unfold applyLoop
    rw [dif_pos hi]
    by_cases hpi : p ≤ i
    · have : pyIndex db i = .ok 0 := by
        unfold pyIndex
        rw [hz i hpi hi]; rfl
      rw [this]
      simp
    · obtain ⟨b, hb⟩ : ∃ b, db[i]? = some b := ⟨db[i], by rw [List.getElem?_eq_getElem hi]⟩
      have : pyIndex db i = .ok b.toNat := by unfold pyIndex; rw [hb]
      have hlt := b.toNat_lt
      rw [this]
      dsimp only
      split
      · split
        · exact fun h => nomatch h
        · rename_i cpOff cpSize i2 hd
          have := decodeCopy_step hd
          have := decodeCopy_mono hd
          split
          · unfold pyAssert
            rw [if_neg (by simp; omega)]
            exact fun h => nomatch h
          · split
            · exact fun h => nomatch h
            · exact applyLoop_zeros src srcSize db p hp hz write k i2 _ (by omega) (by omega)
      · rename_i hc
        have hc' : b.toNat < 128 := by
          rcases Nat.lt_or_ge b.toNat 128 with h | h
          · exact h
          · exfalso
            apply hc
            intro h0
            have : Nat.testBit (b.toNat &&& 0x80) 7 = false := by rw [h0]; rfl
            rw [Nat.testBit_and] at this
            have h7 : Nat.testBit b.toNat 7 = true := by
              rw [Nat.testBit_eq_decide_div_mod_eq]
              simp; omega
            rw [h7] at this
            exact absurd this (by decide)
        split
        · split
          · exact fun h => nomatch h
          · exact applyLoop_zeros src srcSize db p hp hz write k _ _ (by omega) (by omega)
        · exact fun h => nomatch h

/-! ## Copying less than there is room for -/

/-- From the position on there are zeros, and `g` more of them than the `k` bytes that are to come. -/
def ZeroTail (b : Buf) (k g : Nat) : Prop :=
  b.pos + k + g ≤ b.data.length ∧ ∀ j, b.pos ≤ j → j < b.data.length → b.data[j]? = some 0

theorem zero_write (b : Buf) (d : Bytes) (k g : Nat) (h : ZeroTail b (d.length + k) g) :
    ∃ b', b.write d = (b', .ok ()) ∧ ZeroTail b' k g := by
  obtain ⟨h1, h2⟩ := h
  unfold Buf.write
  rw [if_neg (by rintro ⟨_, hc⟩; omega)]
  refine ⟨_, rfl, ?_, ?_⟩
  · simp only [List.length_append, List.length_take, List.length_drop]; omega
  · intro j hj1 hj2
    simp only at hj1 hj2
    simp only [List.length_append, List.length_take, List.length_drop] at hj2
    rw [List.getElem?_append_right (by simp only [List.length_append, List.length_take]; omega), List.getElem?_drop]
    simp only [List.length_append, List.length_take]
    have := h2 j (by omega) (by omega)
    rw [← this]
    congr 1; omega

theorem zero_alloc (as : List Alloc) (n k g : Nat) (as' : List Alloc) (b : Buf) (h : allocateNext as (n : Int) = (as', .ok b))
    (hk : k + g ≤ n) : ZeroTail b k g := by
  rcases allocateNext_cases as (n : Int) with h' | ⟨e, _, h'⟩
  · rw [h] at h'
    have h2 : allocateIn (usesMap as) (n : Int) = .ok b := by
      have := congrArg Prod.snd h'
      exact this.symm
    unfold allocateIn at h2
    split at h2
    · cases h2; exact ⟨by simp; omega, fun j _ hj => by simp at hj⟩
    · rw [if_neg (by omega)] at h2
      split at h2 <;> cases h2 <;> exact ⟨by simp; omega, fun j _ hj => by
        simp only [List.length_replicate] at hj
        simp only [List.getElem?_replicate, if_pos hj]⟩
  · rw [h] at h'; cases h'

section
variable {read : σ → Int → σ × Res Bytes} {Rep : σ → Bytes → Prop}

theorem copy_zero (hr : ObjectReadsFrom 512 read Rep) (size chunk : Int) (hc : 512 ≤ chunk) (g : Nat) :
    ∀ (fuel : Nat) (dbw : Int) (s : σ) (w : Buf) (rem : Bytes), Rep s rem → (rem.length : Int) + dbw ≤ size → ZeroTail w rem.length g →
    (∃ rem', Rep (streamCopyLoop read Buf.write size chunk fuel dbw s w).1 rem' ∧ rem'.length ≤ rem.length) ∧
      ∀ m, (streamCopyLoop read Buf.write size chunk fuel dbw s w).2.2 = .ok m →
        ZeroTail (streamCopyLoop read Buf.write size chunk fuel dbw s w).2.1 0 g
  | 0, dbw, s, w, rem, h, _, _ => ⟨⟨rem, h, Nat.le_refl _⟩, fun m hm => nomatch hm⟩
  | fuel + 1, dbw, s, w, rem, h, hd, hw => by
    obtain ⟨s', d, rem', e, h1, h2⟩ : ∃ s' d rem', read s (min chunk (size - dbw)) = (s', .ok d) ∧ Rep s' rem' ∧
        d.length + rem'.length = rem.length := by
      by_cases h1 : 1 ≤ min chunk (size - dbw)
      · obtain ⟨s', e, h2⟩ := hr.read_pos s rem (min chunk (size - dbw)) h h1 (by omega)
        exact ⟨s', _, _, e, h2, by simp only [List.length_take, List.length_drop]; omega⟩
      · obtain ⟨s', e, h2⟩ := hr.read_all s rem (min chunk (size - dbw)) h (by omega)
        exact ⟨s', rem, [], e, h2, by simp⟩
    obtain ⟨w', hw1, hw2⟩ := zero_write w d rem'.length g (by rw [h2]; exact hw)
    unfold streamCopyLoop
    dsimp only
    rw [e]
    dsimp only
    rw [hw1]
    dsimp only
    split
    · exact ⟨⟨rem', h1, by omega⟩, fun m _ => ⟨by have := hw2.1; dsimp only; omega, hw2.2⟩⟩
    · obtain ⟨⟨r2, h3, h4⟩, h5⟩ := copy_zero hr size chunk hc g fuel (dbw + d.length) s' w' rem' h1 (by omega) hw2
      exact ⟨⟨r2, h3, by omega⟩, h5⟩

/-! ## The topmost delta stream -/

/-- A delta stream of announced size `n` of which the first 512 bytes, or all, have been read. -/
def Spent (Rep : σ → Bytes → Prop) (n : Nat) (s : σ) : Prop :=
  ∃ rem, Rep s rem ∧ (rem = [] ∨ rem.length + 512 ≤ n)

/-- A delta stream of announced size `n` that has not been read. -/
def Unread (Rep : σ → Bytes → Prop) (n : Nat) (s : σ) : Prop := ∃ d, Rep s d ∧ d.length ≤ n

/-- What is known about the head of the topmost delta; `g` bytes of the announced size are missing. -/
def Short (Rep : σ → Bytes → Prop) (g : Nat) (i : DeltaInfo σ) : Prop :=
  ∃ rem, Rep i.strm rem ∧ i.dbuf.length + rem.length + i.offset + g ≤ i.size ∧ (rem = [] ∨ rem.length + 512 ≤ i.size)

theorem head_short (hr : ObjectReadsFrom 512 read Rep) (s : σ) (n g : Nat) (rem : Bytes) (h : Rep s rem) (hg : rem.length + g ≤ n) :
    Rep (tryHead read s n).1 (rem.drop 512) ∧ ∀ d, (tryHead read s n).2 = .ok d → Short Rep g d ∧ d.size = n := by
  obtain ⟨s', e, h1⟩ := hr.read_pos s rem 512 h (by omega) (.inl (by omega))
  have e512 : (512 : Int).toNat = 512 := rfl
  rw [e512] at e h1
  unfold tryHead
  rw [e]
  dsimp only
  rcases m1 : msbSize (rem.take 512) 0 with e | ⟨o, v⟩
  · exact ⟨h1, fun d hd => nomatch hd⟩
  · dsimp only
    rcases m2 : msbSize (rem.take 512) o with e | ⟨o', v'⟩
    · exact ⟨h1, fun d hd => nomatch hd⟩
    · refine ⟨h1, fun d hd => ?_⟩
      cases hd
      have := (msbSize_end m2).2
      refine ⟨⟨_, h1, ?_, ?_⟩, rfl⟩
      · simp only [List.length_drop, List.length_take] at this ⊢
        omega
      · by_cases hl : rem.length ≤ 512
        · exact .inl (List.drop_eq_nil_of_le hl)
        · right; simp only [List.length_drop]; omega

theorem Spent.of_drop {n : Nat} {s : σ} {rem : Bytes} (h : Rep s (rem.drop 512)) (hn : rem.length ≤ n) : Spent Rep n s := by
  refine ⟨_, h, ?_⟩
  by_cases hl : rem.length ≤ 512
  · exact .inl (List.drop_eq_nil_of_le hl)
  · right; simp only [List.length_drop]; omega

theorem Spent.shrink {n : Nat} {s' : σ} {rem rem' : Bytes} (h : rem = [] ∨ rem.length + 512 ≤ n)
    (h' : Rep s' rem') (hl : rem'.length ≤ rem.length) : Spent Rep n s' := by
  refine ⟨rem', h', ?_⟩
  rcases h with rfl | h
  · left; exact List.length_eq_zero_iff.mp (by simpa using hl)
  · right; omega

theorem one_short (hr : ObjectReadsFrom 512 read Rep) (fuel : Nat) (as : List Alloc) (b t : Buf) (d : DeltaInfo σ) (g : Nat)
    (h : Short Rep g d) :
    Spent Rep d.size (tryOne fuel read as b t d).2.1 ∧ (128 ≤ g → ∀ x, (tryOne fuel read as b t d).2.2 ≠ .ok x) := by
  obtain ⟨rem, h1, h2, hsp⟩ := h
  have hs : Spent Rep d.size d.strm := ⟨rem, h1, hsp⟩
  unfold tryOne
  have hn : (d.size : Int) - d.offset = ((d.size - d.offset : Nat) : Int) := by omega
  rw [hn]
  rcases ha : allocateNext as ((d.size - d.offset : Nat) : Int) with ⟨as', e | dd⟩
  · exact ⟨hs, fun _ x hx => nomatch hx⟩
  · have hz := zero_alloc as _ (d.dbuf.length + rem.length) g as' dd ha (by omega)
    obtain ⟨dd1, hw, hz1⟩ := zero_write dd d.dbuf rem.length g hz
    dsimp only
    rw [hw]
    dsimp only
    have hc := copy_zero hr (d.size : Int) (256 * PAGESIZE : Nat) (by simp [PAGESIZE]) g fuel 0 d.strm dd1 rem h1 (by omega) hz1
    unfold streamCopy
    rcases hcc : streamCopyLoop read Buf.write (d.size : Int) (256 * PAGESIZE : Nat) fuel 0 d.strm dd1 with ⟨s, dd2, e | m⟩
    · rw [hcc] at hc
      obtain ⟨⟨r2, h5, h6⟩, _⟩ := hc
      exact ⟨Spent.shrink hsp h5 h6, fun _ x hx => nomatch hx⟩
    · rw [hcc] at hc
      obtain ⟨⟨r2, h5, h6⟩, h7⟩ := hc
      have hz2 := h7 m rfl
      dsimp only at hz2 ⊢
      rcases hp : applyDeltaData b.data d.srcSize dd2.data dd2.data.length Buf.write t with ⟨t', e | ⟨⟩⟩
      · exact ⟨Spent.shrink hsp h5 h6, fun _ x hx => nomatch hx⟩
      · refine ⟨Spent.shrink hsp h5 h6, fun hg => ?_⟩
        exfalso
        obtain ⟨z1, z2⟩ := hz2
        have := applyLoop_zeros b.data d.srcSize dd2.data dd2.pos (by omega) z2 Buf.write _ 0 t (Nat.le_refl _) (by omega)
        unfold applyDeltaData at hp
        rw [hp] at this
        exact this rfl

theorem Short.spent {g : Nat} {i : DeltaInfo σ} (h : Short Rep g i) : Spent Rep i.size i.strm := by
  obtain ⟨rem, h1, _, h3⟩ := h
  exact ⟨rem, h1, h3⟩

/-- The topmost delta is applied last. -/
theorem all_short (hr : ObjectReadsFrom 512 read Rep) (fuel : Nat) (i : DeltaInfo σ) (g : Nat) (h : Short Rep g i) :
    ∀ (l : List (DeltaInfo σ)) (as : List Alloc) (b t : Buf),
    (∃ l' s, (tryAll fuel read as (l ++ [i]) b t).2.1 = l' ++ [(s, i.size)] ∧ Spent Rep i.size s) ∧
      (128 ≤ g → ∀ x, (tryAll fuel read as (l ++ [i]) b t).2.2 ≠ .ok x)
  | [], as, b, t => by
    obtain ⟨h1, h2⟩ := one_short hr fuel as b t i g h
    unfold tryAll
    simp only [List.nil_append]
    rcases ho : tryOne fuel read as b t i with ⟨as', s, e | ⟨b', t'⟩⟩
    · rw [ho] at h1
      exact ⟨⟨[], s, rfl, h1⟩, fun _ x hx => nomatch hx⟩
    · rw [ho] at h1 h2
      exact ⟨⟨[], s, rfl, h1⟩, fun hg => absurd rfl (h2 hg _)⟩
  | d :: l, as, b, t => by
    unfold tryAll
    simp only [List.cons_append]
    rcases ho : tryOne fuel read as b t d with ⟨as', s, e | ⟨b', t'⟩⟩
    · exact ⟨⟨(s, d.size) :: l.map (fun x => (x.strm, x.size)), i.strm, by simp, h.spent⟩, fun _ x hx => nomatch hx⟩
    · obtain ⟨⟨l', s', h1, h2⟩, h3⟩ := all_short hr fuel i g h l as' b' t'
      exact ⟨⟨(s, d.size) :: l', s', by simp [h1], h2⟩, h3⟩

/-- An attempt: the topmost delta stream has been read afterwards, and if it was not complete before, then the attempt
fails. -/
theorem attempt_short (hr : ObjectReadsFrom 512 read Rep) (fuel : Nat) (as : List Alloc) (r : LazyDelta σ) (s : σ) (n g : Nat)
    (rest : List (σ × Nat)) (hd : r.dstreams = (s, n) :: rest) (rem : Bytes) (h : Rep s rem) (hg : rem.length + g ≤ n) :
    (∃ s' rest', (trySetCache fuel read as r).2.1.dstreams = (s', n) :: rest' ∧ Spent Rep n s') ∧
      (128 ≤ g → ∀ x, (trySetCache fuel read as r).2.2 ≠ .ok x) ∧
      (trySetCache fuel read as r).2.1.cache = (match (trySetCache fuel read as r).2.2 with | .ok c => some c | .error _ => r.cache) := by
  obtain ⟨h1, h2⟩ := head_short hr s n g rem h hg
  have hsp : Spent Rep n (tryHead read s n).1 := Spent.of_drop h1 (by omega)
  unfold trySetCache
  rw [hd]
  rcases ha : tryHeads read ((s, n) :: rest) with ⟨ds, e | infos⟩
  · refine ⟨?_, (fun _ x hx => nomatch hx), rfl⟩
    unfold tryHeads at ha
    rcases hb : tryHead read s n with ⟨s', e' | d⟩
    · rw [hb] at ha hsp
      cases ha
      exact ⟨s', rest, rfl, hsp⟩
    · rw [hb] at ha hsp
      rcases hc : tryHeads read rest with ⟨l', e' | ds'⟩
      · simp only [hc] at ha
        cases ha
        exact ⟨s', l', rfl, hsp⟩
      · simp only [hc] at ha
        cases ha
  · obtain ⟨i, tl, rfl, hi, rest', rfl⟩ : ∃ i tl, infos = i :: tl ∧ (Short Rep g i ∧ i.size = n) ∧ ∃ rest', ds = ((tryHead read s n).1, n) :: rest' := by
      unfold tryHeads at ha
      rcases hb : tryHead read s n with ⟨s', e' | d⟩
      · rw [hb] at ha
        cases ha
      · rw [hb] at ha h2
        rcases hc : tryHeads read rest with ⟨l', e' | ds'⟩
        · simp only [hc] at ha
          cases ha
        · simp only [hc] at ha
          cases ha
          exact ⟨d, ds', rfl, h2 d rfl, l', rfl⟩
    obtain ⟨hi, rfl⟩ := hi
    dsimp only
    generalize (if ((s, i.size) :: rest).length > 1 then
        (max r.bstream.2 ((i :: tl).foldl (fun m d => max m d.targetSize) 0), max r.bstream.2 ((i :: tl).foldl (fun m d => max m d.targetSize) 0))
      else (r.bstream.2, (i :: tl).foldl (fun m d => max m d.targetSize) 0)) = sizes
    rcases allocateNext as sizes.1 with ⟨as1, e | bb⟩
    · exact ⟨⟨_, _, rfl, hsp⟩, (fun _ x hx => nomatch hx), rfl⟩
    · dsimp only
      rcases streamCopy fuel read Buf.write sizes.1 (256 * PAGESIZE : Nat) r.bstream.1 bb with ⟨s2, bb1, e | m⟩
      · exact ⟨⟨_, _, rfl, hsp⟩, (fun _ x hx => nomatch hx), rfl⟩
      · dsimp only
        rcases allocateNext as1 sizes.2 with ⟨as2, e | tb⟩
        · exact ⟨⟨_, _, rfl, hsp⟩, (fun _ x hx => nomatch hx), rfl⟩
        · dsimp only
          obtain ⟨⟨l', s', h3, h4⟩, h5⟩ := all_short hr fuel i g hi tl.reverse as2 bb1 tb
          rw [List.reverse_cons]
          rcases ht : tryAll fuel read as2 (tl.reverse ++ [i]) bb1 tb with ⟨as3, ds3, e | ⟨b, t⟩⟩
          · rw [ht] at h3
            simp only at h3
            subst h3
            exact ⟨⟨s', l'.reverse, by simp, h4⟩, (fun _ x hx => nomatch hx), rfl⟩
          · rw [ht] at h3 h5
            simp only at h3
            subst h3
            exact ⟨⟨s', l'.reverse, by simp, h4⟩, fun hg => absurd rfl (h5 hg _), rfl⟩

/-! ## The reader -/

/-- No cache, and the topmost delta stream has not been read. -/
def FreshReader (Rep : σ → Bytes → Prop) (r : LazyDelta σ) : Prop :=
  r.cache = none ∧ ∃ s n rest, r.dstreams = (s, n) :: rest ∧ Unread Rep n s

/-- No cache, and the topmost delta stream has been read. -/
def FailedReader (Rep : σ → Bytes → Prop) (r : LazyDelta σ) : Prop :=
  r.cache = none ∧ ∃ s n rest, r.dstreams = (s, n) :: rest ∧ Spent Rep n s

theorem failed_attempt (hr : ObjectReadsFrom 512 read Rep) (fuel : Nat) (as : List Alloc) (r : LazyDelta σ) (h : FailedReader Rep r) :
    ∃ e, (trySetCache fuel read as r).2.2 = .error e ∧ FailedReader Rep (trySetCache fuel read as r).2.1 := by
  obtain ⟨h0, s, n, rest, hd, rem, h1, h2⟩ := h
  rcases h2 with rfl | h2
  · obtain ⟨s', e, h3⟩ := hr.read_pos s [] 512 h1 (by omega) (.inl (by omega))
    have h4 : tryHead read s n = (s', .error .assertionError) := by
      unfold tryHead; rw [e]; rfl
    refine ⟨.assertionError, ?_, ?_⟩
    · unfold trySetCache; rw [hd]; unfold tryHeads; rw [h4]
    · unfold trySetCache; rw [hd]; unfold tryHeads; rw [h4]
      exact ⟨h0, s', n, rest, rfl, [], by simpa using h3, .inl rfl⟩
  · obtain ⟨⟨s', rest', h3, h4⟩, h5, h6⟩ := attempt_short hr fuel as r s n 512 rest hd rem h1 h2
    rcases hx : (trySetCache fuel read as r).2.2 with e | x
    · rw [hx] at h6
      exact ⟨e, rfl, by rw [h6, h0], s', n, rest', h3, h4⟩
    · exact absurd hx (h5 (by omega) x)

theorem fresh_attempt (hr : ObjectReadsFrom 512 read Rep) (fuel : Nat) (as : List Alloc) (r : LazyDelta σ) (h : FreshReader Rep r) :
    (∃ e, (trySetCache fuel read as r).2.2 = .error e ∧ FailedReader Rep (trySetCache fuel read as r).2.1) ∨
      ∃ c, (trySetCache fuel read as r).2.2 = .ok c ∧ (trySetCache fuel read as r).2.1.cache = some c := by
  obtain ⟨h0, s, n, rest, hd, rem, h1, h2⟩ := h
  obtain ⟨⟨s', rest', h3, h4⟩, _, h6⟩ := attempt_short hr fuel as r s n 0 rest hd rem h1 (by omega)
  rcases hx : (trySetCache fuel read as r).2.2 with e | x
  · rw [hx] at h6
    exact .inl ⟨e, rfl, by rw [h6, h0], s', n, rest', h3, h4⟩
  · rw [hx] at h6
    exact .inr ⟨x, rfl, h6⟩

/-- Calls that need the object: all except `seek` to somewhere else. -/
def DeltaCall.Needs : DeltaCall → Prop
  | .seek o w => o = 0 ∧ w = 0
  | _ => True

theorem call_failed (hr : ObjectReadsFrom 512 read Rep) (fuel : Nat) (as : List Alloc) (r : LazyDelta σ) (h : FailedReader Rep r) (c : DeltaCall) :
    (∃ e, (r.call fuel read as c).2.2 = .error e) ∧ FailedReader Rep (r.call fuel read as c).2.1 := by
  have key : ∀ r' : LazyDelta σ, FailedReader Rep r' → ∃ as' r'' e, r'.need fuel read as = (as', r'', .error e) ∧ FailedReader Rep r'' := by
    intro r' h'
    obtain ⟨e, h1, h2⟩ := failed_attempt hr fuel as r' h'
    unfold LazyDelta.need
    rw [h'.1]
    dsimp only
    rcases ht : trySetCache fuel read as r' with ⟨as', r'', x⟩
    rw [ht] at h1 h2
    simp only at h1 h2
    subst h1
    exact ⟨as', r'', e, rfl, h2⟩
  rcases c with n | ⟨o, w⟩ | _
  · obtain ⟨as', r'', e, h1, h2⟩ := key r h
    unfold LazyDelta.call; rw [h1]; exact ⟨⟨e, rfl⟩, h2⟩
  · unfold LazyDelta.call
    dsimp only
    split
    · exact ⟨⟨_, rfl⟩, h⟩
    · obtain ⟨as', r'', e, h1, h2⟩ := key { r with br := 0 } h
      rw [h1]; exact ⟨⟨e, rfl⟩, h2⟩
  · obtain ⟨as', r'', e, h1, h2⟩ := key r h
    unfold LazyDelta.call; rw [h1]; exact ⟨⟨e, rfl⟩, h2⟩

theorem call_loaded (fuel : Nat) (as : List Alloc) (r : LazyDelta σ) (x : Buf × Nat) (h : r.cache = some x) (c : DeltaCall) :
    (∃ x', (r.call fuel read as c).2.1.cache = some x') ∧ (c.Needs → ∃ o, (r.call fuel read as c).2.2 = .ok o) := by
  rcases c with n | ⟨o, w⟩ | _
  · unfold LazyDelta.call LazyDelta.need; rw [h]; exact ⟨⟨_, rfl⟩, fun _ => ⟨_, rfl⟩⟩
  · unfold LazyDelta.call LazyDelta.need
    dsimp only
    split
    · rename_i hc
      exact ⟨⟨x, h⟩, fun hn => by obtain ⟨h1, h2⟩ := hn; omega⟩
    · rw [h]; exact ⟨⟨_, rfl⟩, fun _ => ⟨_, rfl⟩⟩
  · unfold LazyDelta.call LazyDelta.need; rw [h]; exact ⟨⟨x, h⟩, fun _ => ⟨_, rfl⟩⟩

theorem call_fresh (hr : ObjectReadsFrom 512 read Rep) (fuel : Nat) (as : List Alloc) (r : LazyDelta σ) (h : FreshReader Rep r) (c : DeltaCall) :
    (¬ c.Needs ∧ (r.call fuel read as c).2.2 = .error .valueError ∧ FreshReader Rep (r.call fuel read as c).2.1) ∨
    ((∃ e, (r.call fuel read as c).2.2 = .error e) ∧ FailedReader Rep (r.call fuel read as c).2.1) ∨
    ((∃ o, (r.call fuel read as c).2.2 = .ok o) ∧ ∃ x, (r.call fuel read as c).2.1.cache = some x) := by
  have key : ∀ r' : LazyDelta σ, FreshReader Rep r' →
      (∃ as' r'' e, r'.need fuel read as = (as', r'', .error e) ∧ FailedReader Rep r'') ∨
      ∃ as' r'' x, r'.need fuel read as = (as', r'', .ok x) ∧ r''.cache = some x := by
    intro r' h'
    unfold LazyDelta.need
    rw [h'.1]
    dsimp only
    rcases ht : trySetCache fuel read as r' with ⟨as', r'', x⟩
    rcases fresh_attempt hr fuel as r' h' with ⟨e, h1, h2⟩ | ⟨c, h1, h2⟩
    · rw [ht] at h1 h2
      simp only at h1 h2
      subst h1
      exact .inl ⟨as', r'', e, rfl, h2⟩
    · rw [ht] at h1 h2
      simp only at h1 h2
      subst h1
      exact .inr ⟨as', r'', c, rfl, h2⟩
  rcases c with n | ⟨o, w⟩ | _
  · unfold LazyDelta.call
    rcases key r h with ⟨as', r'', e, h1, h2⟩ | ⟨as', r'', x, h1, h2⟩
    · rw [h1]; exact .inr (.inl ⟨⟨e, rfl⟩, h2⟩)
    · rw [h1]; exact .inr (.inr ⟨⟨_, rfl⟩, _, rfl⟩)
  · unfold LazyDelta.call
    dsimp only
    split
    · rename_i hc
      refine .inl ⟨fun hn => ?_, rfl, h⟩
      obtain ⟨h1, h2⟩ := hn; omega
    · rcases key { r with br := 0 } h with ⟨as', r'', e, h1, h2⟩ | ⟨as', r'', x, h1, h2⟩
      · rw [h1]; exact .inr (.inl ⟨⟨e, rfl⟩, h2⟩)
      · rw [h1]; exact .inr (.inr ⟨⟨_, rfl⟩, _, rfl⟩)
  · unfold LazyDelta.call
    rcases key r h with ⟨as', r'', e, h1, h2⟩ | ⟨as', r'', x, h1, h2⟩
    · rw [h1]; exact .inr (.inl ⟨⟨e, rfl⟩, h2⟩)
    · rw [h1]; exact .inr (.inr ⟨⟨_, rfl⟩, _, h2⟩)

/-- After a failed attempt every call raises. -/
theorem calls_failed (hr : ObjectReadsFrom 512 read Rep) (fuel : Nat) : ∀ (cs : List DeltaCall) (as : List Alloc) (r : LazyDelta σ),
    FailedReader Rep r → ∀ o ∈ (r.calls fuel read as cs).2, ∃ e, o = .error e
  | [], _, _, _, o, ho => nomatch ho
  | c :: cs, as, r, h, o, ho => by
    obtain ⟨h1, h2⟩ := call_failed hr fuel as r h c
    unfold LazyDelta.calls at ho
    rcases List.mem_cons.mp ho with rfl | ho
    · exact h1
    · exact calls_failed hr fuel cs _ _ h2 o ho

/-- With the object loaded only `seek` to somewhere else raises. -/
theorem calls_loaded (fuel : Nat) : ∀ (cs : List DeltaCall) (as : List Alloc) (r : LazyDelta σ) (x : Buf × Nat), r.cache = some x →
    ∀ (i : Nat) (c : DeltaCall), cs[i]? = some c → c.Needs → ∃ o, (r.calls fuel read as cs).2[i]? = some (.ok o)
  | [], _, _, _, _, i, c, hc, _ => by simp at hc
  | c0 :: cs, as, r, x, h, i, c, hc, hn => by
    obtain ⟨⟨x', h1⟩, h2⟩ := call_loaded (read := read) fuel as r x h c0
    unfold LazyDelta.calls
    cases i with
    | zero =>
      simp only [List.getElem?_cons_zero, Option.some.injEq] at hc
      subst hc
      obtain ⟨o, ho⟩ := h2 hn
      exact ⟨o, by simp [ho]⟩
    | succ i =>
      obtain ⟨o, ho⟩ := calls_loaded fuel cs (r.call fuel read as c0).1 _ x' h1 i c hc hn
      exact ⟨o, by simpa using ho⟩

end
end GitDB
