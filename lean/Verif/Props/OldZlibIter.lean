import Verif.Props.AnyPackIter
import Verif.Props.OldZlib
/-!
# C113: iterating packs with zlib 1.2.5 or 1.2.7
-/
set_option autoImplicit false

namespace GitDB
open Spec

variable {zl : Zlib}

/-! ### the number of compressed bytes is never negative -/

/-- The decompressor has not stopped silently. -/
def ZDec.Fresh (zl : Zlib) (z : ZDec) : Prop := z.eof = false → zl.stop z.fed = none

theorem stop_behind (L : ZlibLaws zl) {fed w : Bytes} {k : Nat} (h : zl.stop fed = none) (hs : zl.stop (fed ++ w) = some k) : fed.length ≤ k := by
  refine Classical.byContradiction fun hlt => ?_
  have h1 := L.stop_take _ _ hs
  have h2 := L.stop_append _ (fed.drop k) _ h1
  rw [List.take_append_of_le_length (by omega), List.take_append_drop, h] at h2
  cases h2

theorem decompress_fresh (L : ZlibLaws zl) (z : ZDec) (w : Bytes) (n : Int) (h : z.Fresh zl) :
    (z.decompress zl w n).1.Fresh zl ∧ (∀ d, (z.decompress zl w n).2 = .ok d → (z.decompress zl w n).1.tail.length ≤ w.length) := by
  unfold ZDec.decompress
  split
  · exact ⟨h, nofun⟩
  split
  · rename_i h'
    refine ⟨fun h2 => absurd (h'.symm.trans h2) (by decide), fun _ _ => ?_⟩
    dsimp only
    split
    · exact Nat.zero_le _
    · exact Nat.le_refl _
  rename_i h'
  have h' : z.eof = false := by simpa using h'
  split
  · exact ⟨h, nofun⟩
  simp only
  split
  · rename_i hl
    exact ⟨fun _ => L.taken_stop _ _ _ hl.2 (h h'), fun _ _ => by rw [List.length_drop]; omega⟩
  split
  · exact ⟨h, nofun⟩
  split
  · rename_i k hk
    refine ⟨nofun, fun _ _ => ?_⟩
    have := stop_behind L (h h') hk
    dsimp only
    split
    · exact Nat.zero_le _
    · rw [List.length_drop, List.length_append]; omega
  · rename_i hk
    exact ⟨fun _ => hk, fun _ _ => Nat.zero_le _⟩

/-- A reader of an object of known size that has counted no less than nothing. -/
structure Upward (zl : Zlib) (r : Reader) : Prop where
  fresh : r.zip.Fresh zl
  cbr : 0 ≤ r.cbr
  hasS : r.hasS = true

theorem upward_zip (L : ZlibLaws zl) {r : Reader} (h : Upward zl r) (n : Int) : Upward zl (r.readZipOld zl n).1 := by
  unfold Reader.readZipOld
  simp only
  generalize pySlice r.m _ _ = w
  obtain ⟨h1, h2⟩ := decompress_fresh L r.zip w n h.fresh
  rcases hd : r.zip.decompress zl w n with ⟨z, e | d⟩ <;> rw [hd] at h1 h2
  · exact ⟨h1, h.cbr, h.hasS⟩
  · have h3 := h2 d rfl
    have h4 := h.cbr
    exact ⟨h1, by dsimp only at h3 ⊢; omega, h.hasS⟩

theorem upward_core (L : ZlibLaws zl) : ∀ (fuel : Nat) (r : Reader) (n : Int), Upward zl r → Upward zl (r.readCoreOld zl fuel n).1 := by
  intro fuel
  induction fuel with
  | zero => intro r n h; exact h
  | succ fuel ih =>
    have hc : ∀ (r : Reader) (b : Bytes) (n : Int), Upward zl r → Upward zl (Reader.contOld zl fuel r b n).1 := by
      intro r b n h
      unfold Reader.contOld
      have h1 := upward_zip L h n
      rcases hz : r.readZipOld zl n with ⟨q, e | d⟩ <;> rw [hz] at h1
      · exact h1
      · dsimp only at h1 ⊢
        split
        · have h2 := ih q (n - (b ++ d).length) h1
          rcases hq : q.readCoreOld zl fuel (n - (b ++ d).length) with ⟨q', e | d'⟩ <;> rw [hq] at h2 <;> exact h2
        · exact h1
    intro r n h
    rw [readCoreOld_succ]
    split
    · exact h
    split
    · split
      · exact ⟨h.fresh, h.cbr, h.hasS⟩
      · exact hc _ _ _ ⟨h.fresh, h.cbr, h.hasS⟩
    · exact hc _ _ _ h

theorem upward_read (L : ZlibLaws zl) (r : Reader) (n : Int) (h : Upward zl r) : Upward zl (r.readOld zl n).1 := by
  unfold Reader.readOld Reader.needSOld
  rw [if_pos h.hasS]
  exact upward_core L _ _ _ h

theorem upward_scrub (L : ZlibLaws zl) : ∀ (fuel : Nat) (r : Reader), Upward zl r → Upward zl (r.scrubOld zl fuel).1
  | 0, _, h => h
  | fuel + 1, r, h => by
    rw [Reader.scrubOld]
    split
    · have h1 := upward_core L r.fuel r PAGESIZE h
      rcases hc : r.readCoreOld zl r.fuel PAGESIZE with ⟨q, e | d⟩ <;> rw [hc] at h1
      · exact h1
      · exact upward_scrub L fuel q h1
    · exact h

theorem upward_count (L : ZlibLaws zl) (fuel : Nat) (r : Reader) (h : Upward zl r) (k : Int)
    (e : (r.compressedBytesReadOld zl fuel).2 = .ok k) : 0 ≤ k := by
  unfold Reader.compressedBytesReadOld Reader.needSOld at e
  rw [if_pos h.hasS] at e
  dsimp only at e
  split at e
  · have h1 := upward_scrub L fuel { r with br := 0 } ⟨h.fresh, h.cbr, h.hasS⟩
    rcases hc : ({ r with br := 0 } : Reader).scrubOld zl fuel with ⟨q, x | ⟨⟩⟩ <;> rw [hc] at h1 e
    · cases e
    · cases e; exact h1.cbr
  · cases e; exact h.cbr

theorem upward_copy (L : ZlibLaws zl) (size chunk : Int) : ∀ (fuel : Nat) (d : Int) (r : Reader), Upward zl r →
    Upward zl (streamCopyLoop (Reader.readOld zl) nullWrite size chunk fuel d r ()).1
  | 0, _, _, h => h
  | fuel + 1, d, r, h => by
    rw [streamCopyLoop]
    have h1 := upward_read L r (min chunk (size - d)) h
    rcases hr : r.readOld zl (min chunk (size - d)) with ⟨q, e | b⟩ <;> rw [hr] at h1
    · exact h1
    · simp only [nullWrite]
      split
      · exact h1
      · exact upward_copy L size chunk fuel _ q h1

theorem upward_ofSize (L : ZlibLaws zl) (m : Bytes) (size : Int) : Upward zl (Reader.ofSize m size) := ⟨fun _ => L.stop_nil, Int.le_refl _, rfl⟩

theorem packObjectAt_place {pack : Bytes} {off : Nat} {o : PackObj} (h : packObjectAt pack off = .ok o) :
    o.packOffset = off ∧ off ≤ o.dataOff ∧ ∃ m, o.stream = Reader.ofSize m o.size := by
  unfold packObjectAt at h
  simp only at h
  rcases h1 : packObjectHeaderInfo (pack.drop off) with e | ⟨t, n, i⟩ <;> rw [h1] at h
  · cases h
  dsimp only at h
  split at h
  · rcases h2 : ofsDecode (pack.drop off) i with e | ⟨d, j⟩ <;> rw [h2] at h
    · cases h
    · cases h; exact ⟨rfl, Nat.le_add_right _ _, _, rfl⟩
  · split at h
    · cases h; exact ⟨rfl, Nat.le_add_right _ _, _, rfl⟩
    · cases h; exact ⟨rfl, Nat.le_add_right _ _, _, rfl⟩

/-- The iteration does not go back. -/
theorem iterOld_upward (L : ZlibLaws zl) (p : PackFile) (innerFuel : Nat) : ∀ (fuel : Nat) (cur : Int),
    ∀ o ∈ (p.iterObjectsOld zl innerFuel fuel cur).1, cur ≤ o.packOffset
  | 0, _, o, h => by cases h
  | fuel + 1, cur, o, h => by
    rw [PackFile.iterObjectsOld] at h
    by_cases hc : cur < (p.data.length : Int) - 20
    · rw [if_pos hc] at h
      by_cases h0 : cur < 0
      · rw [if_pos h0] at h; cases h
      rw [if_neg h0] at h
      rcases h1 : packObjectAt p.data cur.toNat with e | o1 <;> rw [h1] at h
      · cases h
      obtain ⟨p1, p2, m, p3⟩ := packObjectAt_place h1
      dsimp only at h
      have u1 : Upward zl (streamCopy innerFuel (Reader.readOld zl) nullWrite o1.size chunkSize o1.stream ()).1 := by
        rw [p3]
        exact upward_copy L _ _ _ _ _ (upward_ofSize L _ _)
      rcases h2 : streamCopy innerFuel (Reader.readOld zl) nullWrite o1.size chunkSize o1.stream () with ⟨r, w, e | n⟩ <;> rw [h2] at h u1
      · cases h
      dsimp only at h
      split at h
      · cases h
      have u2 := upward_count L innerFuel r u1
      rcases h3 : r.compressedBytesReadOld zl innerFuel with ⟨q, e | k⟩ <;> rw [h3] at h u2
      · cases h
      have u3 := u2 k rfl
      dsimp only at h
      rcases h4 : q.seek 0 0 with ⟨q', e | ⟨⟩⟩ <;> rw [h4] at h
      · cases h
      dsimp only at h
      rcases List.mem_cons.1 h with rfl | h
      · dsimp only; omega
      · have := iterOld_upward L p innerFuel fuel _ o h
        omega
    · rw [if_neg hc] at h; cases h

/-! ### one round -/

/-- One round of the iteration: it goes on behind the right offset. -/
theorem iterOld_step (L : ZlibLaws zl) (p : PackFile) (innerFuel fuel off : Nat) (e : Packed)
    (h : EntryAt zl p.data off e) (hi : Iterable zl e) (hend : off + e.bytes.length + 20 ≤ p.data.length)
    (hf : p.data.length + 3 ≤ innerFuel) : ∃ u : Nat, 0 < u ∧
    p.iterObjectsOld zl innerFuel (fuel + 1) off =
      (entryObj p.data off e :: (p.iterObjectsOld zl innerFuel fuel (off + e.bytes.length + u : Nat)).1,
        (p.iterObjectsOld zl innerFuel fuel (off + e.bytes.length + u : Nat)).2) := by
  obtain ⟨rest, hd⟩ := entryAt_data h
  have hpos : 1 ≤ e.content.length := List.length_pos_iff.mpr hi.ne
  have hz := hi.valid.zip
  have hm := isZip_append L hz rest
  have hbl : e.bytes.length = (e.hdr ++ e.ext).length + e.zip.length := by simp only [Packed.bytes, List.length_append]
  have hcp := zip_clen_pos L hm
  have hrest : off + e.bytes.length + rest.length = p.data.length := by
    have := congrArg List.length hd
    rw [List.length_drop, List.length_append (as := e.zip)] at this
    omega
  have hml : (e.zip ++ rest).length = e.zip.length + rest.length := List.length_append
  obtain ⟨r, hr⟩ := smooth_read L hz hi.smooth rest e.content.length (Or.inr (Int.le_refl _))
  have hmany : readMany (Reader.read zl) (Reader.ofSize (e.zip ++ rest) e.content.length) [(e.content.length : Int)] = (r, .ok [e.content]) := by
    simp only [readMany, hr]
  obtain ⟨r0, ps0, k1, k2, k3, k4, k5, k6, -⟩ := readMany_reader L hm 0 [(e.content.length : Int)] (Reader.ofSize (e.zip ++ rest) e.content.length)
    (rinv_ofSize L hm _ (by omega)) rfl
  rw [hmany] at k1
  cases k1
  have hs : r.s = e.content.length := k5
  have hb : r.br = e.content.length := by rw [k4]; simp [Reader.ofSize]
  have hst : Static (Reader.ofSize (e.zip ++ rest) e.content.length) r := by
    have h0 := readCore_static (zl := zl) (Reader.ofSize (e.zip ++ rest) e.content.length).fuel (Reader.ofSize (e.zip ++ rest) e.content.length) e.content.length rfl
    have hr' : (Reader.ofSize (e.zip ++ rest) e.content.length).readCore zl
      (Reader.ofSize (e.zip ++ rest) e.content.length).fuel e.content.length = (r, .ok e.content) := hr
    rw [hr'] at h0
    exact h0
  obtain ⟨q, e1⟩ := Props.C15_compressed_size_partial zl L _ _ _ hm hi.ne [(e.content.length : Int)] (by simp) r [e.content] hmany (by simp) innerFuel (by omega)
  obtain ⟨e4, e5⟩ := unused_count L hm 0 r q _ k2 k6 (by rw [hs]; simp) (by rw [hb, hs]) innerFuel e1
  have e6 := unused_many L hm 0 _ _ _ _ (rinv_ofSize L hm _ (Int.natCast_nonneg _)) (by simp [Reader.ofSize]) rfl hmany
  have hq : q.zip.unused ≠ [] := by
    rcases e5 with e5 | e5
    · exact e5
    · omega
  have hold : (Reader.ofSize (e.zip ++ rest) e.content.length).readOld zl e.content.length = (r.plus r.zip.unused.length, .ok e.content) := by
    have : readMany (Reader.readOld zl) (Reader.ofSize (e.zip ++ rest) e.content.length) [(e.content.length : Int)] = (r.plus r.zip.unused.length, .ok [e.content]) := e6
    simp only [readMany] at this
    rcases hx : (Reader.ofSize (e.zip ++ rest) e.content.length).readOld zl e.content.length with ⟨x, y | y⟩ <;> rw [hx] at this <;> simp at this
    rw [this.1, this.2]
  refine ⟨q.zip.unused.length, List.length_pos_iff.mpr hq, ?_⟩
  rw [PackFile.iterObjectsOld, if_pos (by omega), if_neg (by omega), Int.toNat_natCast, packObjectAt_spec h]
  have hcopy : streamCopy innerFuel (Reader.readOld zl) nullWrite (entryObj p.data off e).size chunkSize
      (entryObj p.data off e).stream () = (r.plus r.zip.unused.length, (), .ok (e.content.length : Int)) := by
    obtain ⟨f, rfl⟩ : ∃ f, innerFuel = f + 1 := ⟨innerFuel - 1, by omega⟩
    have hsm := hi.small
    have hmin : min (chunkSize : Int) ((e.content.length : Int) - 0) = e.content.length := by omega
    unfold streamCopy
    rw [streamCopyLoop]
    simp only [entryObj, hmin, hd, hold, nullWrite]
    rw [if_pos (by omega)]
    simp
  have hst' := cbr_static (zl := zl) innerFuel r hst.buf hst.hasS
  rw [e1] at hst'
  have hst2 : Static (Reader.ofSize (e.zip ++ rest) e.content.length) (q.plus q.zip.unused.length) := by
    obtain ⟨a, b, c, d, f, g⟩ := hst.trans hst'
    exact ⟨a, b, c, d, f, g⟩
  simp only [hcopy]
  rw [if_neg (by rw [show (r.plus (r.zip.unused.length : Nat)).br = r.br from rfl, hb]; simp [entryObj])]
  simp only [e4, seek_static hst2]
  rw [show (off : Int) + (((entryObj p.data off e).dataOff : Int) - (entryObj p.data off e).packOffset +
      ((e.zip.length : Int) + (q.zip.unused.length : Nat))) = ((off + e.bytes.length + q.zip.unused.length : Nat) : Int) by
    simp only [entryObj]; omega]
  simp only [← hd]
  rfl

end GitDB

namespace GitDB.Props
open GitDB Spec Deflate

variable {zl : Zlib}

/-- **C113** with zlib 1.2.5 and 1.2.7 the iteration of a pack, from its beginning or from the offset of an object on, yields that object and then none at the offset of
the next one, but only what seems to be an object further on, if the object has 1 byte to 512 KiB (and, if it is longer compressed, no stalls).  If it is the last one the
iteration ends there, as it should. -/
theorem C113_skips (L : ZlibLaws zl) (es : List Packed) (hv : ∀ e ∈ es, e.Valid zl) (sha : Bytes) (hsha : sha.length = 20) (p : PackFile)
    (hp : p.data = packFile es sha) (i : Nat) (hi : i < es.length) (hne : es[i].content ≠ []) (hsm : es[i].content.length ≤ chunkSize)
    (hns : es[i].zip.length ≤ es[i].content.length ∨ NoStall zl es[i].zip) (start : Nat) (hstart : start = offsetOf es i ∨ start = 0 ∧ i = 0)
    (innerFuel fuel : Nat) (hf : p.data.length + 3 ≤ innerFuel) (hf' : 2 ≤ fuel) :
    ∃ o rest res, p.streamIterOld zl innerFuel fuel start = (o :: rest, res) ∧ p.stream (offsetOf es i) = .ok o ∧
      (∀ o' ∈ rest, offsetOf es (i + 1) < o'.packOffset) ∧ (i + 1 = es.length → rest = [] ∧ res = .ok ()) := by
  obtain ⟨f, rfl⟩ : ∃ f, fuel = f + 1 + 1 := ⟨fuel - 2, by omega⟩
  have hat : EntryAt zl p.data (offsetOf es i) es[i] := by rw [hp]; exact packFile_entryAt hv sha i hi
  have hend := offsetOf_length es sha
  have hlen : 20 ≤ (packFile es sha).length := by unfold packFile; rw [List.length_append]; omega
  have hnext := offsetOf_succ es i hi
  have hle : offsetOf es (i + 1) ≤ offsetOf es es.length := by
    rcases Nat.lt_or_ge (i + 1) es.length with h | h
    · exact Nat.le_of_lt (offsetOf_lt hv _ _ h (Nat.le_refl _))
    · rw [show i + 1 = es.length by omega]; exact Nat.le_refl _
  have hstart' : (if start = 0 then 12 else (start : Int)) = (offsetOf es i : Nat) := by
    have h12 : 12 ≤ offsetOf es i := by unfold offsetOf; omega
    rcases hstart with rfl | ⟨rfl, rfl⟩
    · rw [if_neg (by omega)]
    · simp [offsetOf]
  obtain ⟨u, hu, e1⟩ := iterOld_step L p innerFuel (f + 1) (offsetOf es i) es[i] hat ⟨hv _ (List.getElem_mem hi), hne, hsm, hns⟩
    (by rw [← hnext, hp]; omega) hf
  rw [← hnext] at e1
  refine ⟨entryObj p.data (offsetOf es i) es[i], (p.iterObjectsOld zl innerFuel (f + 1) (offsetOf es (i + 1) + u : Nat)).1,
    (p.iterObjectsOld zl innerFuel (f + 1) (offsetOf es (i + 1) + u : Nat)).2, ?_, ?_, ?_, ?_⟩
  · unfold PackFile.streamIterOld
    rw [hstart']
    exact e1
  · unfold PackFile.stream
    rw [if_neg (by unfold offsetOf; omega)]
    exact packObjectAt_spec hat
  · intro o' ho'
    have := iterOld_upward L p innerFuel _ _ o' ho'
    omega
  · intro hlast
    have : ¬ ((offsetOf es (i + 1) + u : Nat) : Int) < (p.data.length : Int) - 20 := by rw [hlast, hp]; omega
    rw [PackFile.iterObjectsOld, if_neg this]
    exact ⟨rfl, rfl⟩

/-- **C113** so a pack of one such object is iterated as with other versions, -/
theorem C113_one_object (L : ZlibLaws zl) (e : Packed) (hv : e.Valid zl) (sha : Bytes) (hsha : sha.length = 20) (p : PackFile)
    (hp : p.data = packFile [e] sha) (hne : e.content ≠ []) (hsm : e.content.length ≤ chunkSize)
    (hns : e.zip.length ≤ e.content.length ∨ NoStall zl e.zip) (innerFuel fuel : Nat) (hf : p.data.length + 3 ≤ innerFuel) (hf' : 2 ≤ fuel) :
    ∃ o, p.streamIterOld zl innerFuel fuel 0 = ([o], .ok ()) ∧ p.streamIter zl innerFuel fuel 0 = ([o], .ok ()) := by
  have hv' : ∀ e' ∈ [e], e'.Valid zl := by simpa using hv
  obtain ⟨o, rest, res, e1, e2, -, e4⟩ := C113_skips L [e] hv' sha hsha p hp 0 (by simp) hne hsm hns 0 (.inr ⟨rfl, rfl⟩) innerFuel fuel hf hf'
  obtain ⟨rfl, rfl⟩ := e4 rfl
  refine ⟨o, e1, ?_⟩
  obtain ⟨d, v, n⟩ := p
  dsimp only at hp
  subst hp
  have h := iterObjects_spec L [e] (by simpa using ⟨hv, hne, hsm, hns⟩) sha hsha v n innerFuel hf 1 0 fuel rfl (by omega)
  have h2 := packObjectAt_spec (packFile_entryAt hv' sha 0 (by simp))
  unfold PackFile.stream at e2
  rw [if_neg (by unfold offsetOf; omega), h2] at e2
  cases e2
  have h12 : (12 : Int) = (offsetOf [e] 0 : Nat) := by simp [offsetOf]
  unfold PackFile.streamIter
  rw [if_pos rfl, h12]
  exact h

/-- **C113** and of a pack of at least two objects, the first of which is such an object, the second one is never yielded. -/
theorem C113_second_missing (L : ZlibLaws zl) (a b : Packed) (es : List Packed) (hv : ∀ e ∈ a :: b :: es, e.Valid zl) (sha : Bytes) (hsha : sha.length = 20) (p : PackFile)
    (hp : p.data = packFile (a :: b :: es) sha) (hne : a.content ≠ []) (hsm : a.content.length ≤ chunkSize)
    (hns : a.zip.length ≤ a.content.length ∨ NoStall zl a.zip) (innerFuel fuel : Nat) (hf : p.data.length + 3 ≤ innerFuel) (hf' : 2 ≤ fuel) :
    ∃ o, p.stream (12 + a.bytes.length) = .ok o ∧ o ∉ (p.streamIterOld zl innerFuel fuel 0).1 := by
  have hat : EntryAt zl p.data (offsetOf (a :: b :: es) 1) b := by rw [hp]; exact packFile_entryAt hv sha 1 (by simp)
  have h1 : offsetOf (a :: b :: es) 1 = 12 + a.bytes.length := by simp [offsetOf]
  have h0 : offsetOf (a :: b :: es) 0 = 12 := by simp [offsetOf]
  obtain ⟨o, rest, res, e1, e2, e3, -⟩ := C113_skips L _ hv sha hsha p hp 0 (by simp) hne hsm hns 0 (.inr ⟨rfl, rfl⟩) innerFuel fuel hf hf'
  have e4 := packObjectAt_spec hat
  refine ⟨entryObj p.data (offsetOf (a :: b :: es) 1) b, ?_, ?_⟩
  · unfold PackFile.stream
    rw [if_neg (by omega), ← h1]
    exact e4
  · rw [e1]
    intro hm
    rcases List.mem_cons.1 hm with rfl | hm
    · unfold PackFile.stream at e2
      rw [if_neg (by omega)] at e2
      have := (packObjectAt_place e2).1
      have h2 : offsetOf (a :: b :: es) 1 = offsetOf (a :: b :: es) 0 := this
      have : 0 < a.bytes.length := by
        have := offsetOf_lt hv 0 1 (by omega) (by simp)
        omega
      omega
    · exact absurd (show offsetOf (a :: b :: es) 1 < offsetOf (a :: b :: es) 1 from e3 _ hm) (Nat.lt_irrefl _)

/-- Blob and delta, each of one stored block. -/
example := C113_skips storedZlib_laws oneBlockPack (onePack_valid _) (List.replicate 20 0) rfl ⟨_, 2, 2⟩ rfl 1 (by decide) (by decide +kernel) (by decide +kernel)
  (.inr (oneBlock_noStall _ _ _ rfl (by decide))) _ (.inl rfl) 500 9 (by decide +kernel) (by decide)
example := C113_second_missing storedZlib_laws oneBase oneCopy [] (onePack_valid _) (List.replicate 20 0) rfl ⟨_, 2, 2⟩ rfl (by decide +kernel) (by decide +kernel)
  (.inl (by decide +kernel)) 500 9 (by decide +kernel) (by decide)
example := C113_one_object storedZlib_laws oneBase (onePack_valid _ _ (List.mem_cons_self ..)) (List.replicate 20 0) rfl ⟨_, 2, 1⟩ rfl (by decide +kernel) (by decide +kernel)
  (.inl (by decide +kernel)) 500 9 (by decide +kernel) (by decide)

end GitDB.Props
