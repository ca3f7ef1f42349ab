import Verif.Proofs.PackRead
/-!
# Iterating packs and verifying crcs
-/
set_option autoImplicit false

namespace GitDB
open Spec

variable {zl : Zlib}

/-- What reading does not change if there is no header buffer. -/
structure Static (r r' : Reader) : Prop where
  m : r'.m = r.m
  s : r'.s = r.s
  hasS : r'.hasS = r.hasS
  phi : r'.phi = r.phi
  buf : r'.buf = r.buf
  buflen : r'.buflen = r.buflen

theorem Static.refl (r : Reader) : Static r r := ⟨rfl, rfl, rfl, rfl, rfl, rfl⟩

theorem Static.trans {a b c : Reader} (h : Static a b) (k : Static b c) : Static a c :=
  ⟨k.m.trans h.m, k.s.trans h.s, k.hasS.trans h.hasS, k.phi.trans h.phi, k.buf.trans h.buf,
    k.buflen.trans h.buflen⟩

theorem readZip_static (r : Reader) (n : Int) : Static r (r.readZip zl n).1 := by
  unfold Reader.readZip
  simp only
  split <;> exact ⟨rfl, rfl, rfl, rfl, rfl, rfl⟩

theorem readCore_static : ∀ (fuel : Nat) (r : Reader) (n : Int), r.buf = none →
    Static r (r.readCore zl fuel n).1 := by
  intro fuel
  induction fuel with
  | zero => intro r n _; exact Static.refl r
  | succ fuel ih =>
    intro r n hb
    rw [readCore_succ]
    split
    · exact Static.refl r
    · simp only [hb]
      unfold Reader.cont
      have h1 := readZip_static (zl := zl) r (r.want n)
      rcases hz : r.readZip zl (r.want n) with ⟨r1, e | d⟩
      · rw [hz] at h1; exact h1
      · rw [hz] at h1
        simp only at h1 ⊢
        split
        · have h2 := ih r1 (r.want n - ([] ++ d).length) (by rw [h1.buf, hb])
          rcases hc : r1.readCore zl fuel (r.want n - ([] ++ d).length) with ⟨r2, e | d2⟩ <;>
            (rw [hc] at h2; simp only [hc]; exact h1.trans h2)
        · exact h1

theorem scrub_static : ∀ (fuel : Nat) (r : Reader), r.buf = none → Static r (r.scrub zl fuel).1 := by
  intro fuel
  induction fuel with
  | zero => intro r _; exact Static.refl r
  | succ fuel ih =>
    intro r hb
    rw [Reader.scrub]
    split
    · have h1 := readCore_static (zl := zl) r.fuel r PAGESIZE hb
      rcases hc : r.readCore zl r.fuel PAGESIZE with ⟨r1, e | d⟩
      · rw [hc] at h1; exact h1
      · rw [hc] at h1
        exact h1.trans (ih r1 (by rw [h1.buf, hb]))
    · exact Static.refl r

theorem cbr_static (fuel : Nat) (r : Reader) (hb : r.buf = none) (hS : r.hasS = true) :
    Static r (r.compressedBytesRead zl fuel).1 := by
  unfold Reader.compressedBytesRead Reader.needS
  rw [if_pos hS]
  simp only
  split
  · have h1 := scrub_static (zl := zl) fuel { r with br := 0 } hb
    rcases hc : ({ r with br := 0 } : Reader).scrub zl fuel with ⟨r1, e | d⟩ <;>
      (rw [hc] at h1; exact ⟨h1.m, h1.s, h1.hasS, h1.phi, h1.buf, h1.buflen⟩)
  · exact Static.refl r

theorem seek_static {m : Bytes} {size : Int} {r : Reader} (h : Static (Reader.ofSize m size) r) :
    r.seek 0 0 = (Reader.ofSize m size, .ok ()) := by
  have hphi : r.phi = false := h.phi
  unfold Reader.seek
  rw [if_neg (by simp)]
  simp only [hphi, Bool.false_eq_true, if_false]
  have h1 := h.m; have h2 := h.s; have h3 := h.hasS; have h4 := h.buf; have h5 := h.buflen
  simp only [Reader.ofSize] at h1 h2 h3 h4 h5
  simp [Reader.ofSize, h1, h2, h3, h4, h5]

/-- Entries the iteration can deal with. -/
structure Iterable (zl : Zlib) (e : Packed) : Prop where
  valid : e.Valid zl
  ne : e.content ≠ []
  small : e.content.length ≤ chunkSize
  smooth : Smooth zl e.zip e.content

/-- One round of the iteration. -/
theorem iterObjects_step (L : ZlibLaws zl) (p : PackFile) (innerFuel fuel off : Nat) (e : Packed)
    (h : EntryAt zl p.data off e) (hi : Iterable zl e) (hoff : off + 20 < p.data.length)
    (hf : p.data.length + 3 ≤ innerFuel) :
    p.iterObjects zl innerFuel (fuel + 1) off =
      (entryObj p.data off e :: (p.iterObjects zl innerFuel fuel (off + e.bytes.length : Nat)).1,
        (p.iterObjects zl innerFuel fuel (off + e.bytes.length : Nat)).2) := by
  obtain ⟨rest, hd⟩ := entryAt_data h
  have hpos : 1 ≤ e.content.length := List.length_pos_iff.mpr hi.ne
  have hz := hi.valid.zip
  have hm := isZip_append L hz rest
  rw [PackFile.iterObjects, if_pos (by omega), if_neg (by omega), Int.toNat_natCast, packObjectAt_spec h]
  simp only
  -- the copy
  obtain ⟨r, hr⟩ := smooth_read L hz hi.smooth rest e.content.length (Or.inr (Int.le_refl _))
  rw [← hd] at hr
  have hst : Static (Reader.ofSize (p.data.drop (off + (e.hdr ++ e.ext).length)) e.content.length) r := by
    have h0 := readCore_static (zl := zl)
      (Reader.ofSize (p.data.drop (off + (e.hdr ++ e.ext).length)) e.content.length).fuel
      (Reader.ofSize (p.data.drop (off + (e.hdr ++ e.ext).length)) e.content.length) e.content.length rfl
    have hr' : (Reader.ofSize (p.data.drop (off + (e.hdr ++ e.ext).length)) e.content.length).readCore zl
      (Reader.ofSize (p.data.drop (off + (e.hdr ++ e.ext).length)) e.content.length).fuel
        e.content.length = (r, .ok e.content) := hr
    rw [hr'] at h0
    exact h0
  have hcopy : streamCopy innerFuel (Reader.read zl) nullWrite (entryObj p.data off e).size chunkSize
      (entryObj p.data off e).stream () = (r, (), .ok (e.content.length : Int)) := by
    obtain ⟨f, rfl⟩ : ∃ f, innerFuel = f + 1 := ⟨innerFuel - 1, by omega⟩
    have hsm := hi.small
    have hmin : min (chunkSize : Int) ((e.content.length : Int) - 0) = e.content.length := by omega
    unfold streamCopy
    rw [streamCopyLoop]
    simp only [entryObj, hmin, hr, nullWrite]
    rw [if_pos (by omega)]
    simp
  simp only [hcopy]
  -- state after the read
  obtain ⟨r0, d0, k0, st⟩ := read_spec L hm 0 (Reader.ofSize (e.zip ++ rest) e.content.length) e.content.length
    (rinv_ofSize L hm _ (by omega)) rfl
  rw [← hd, hr] at k0
  simp only [Prod.mk.injEq, Except.ok.injEq] at k0
  obtain ⟨rfl, rfl⟩ := k0
  have hbr : r.br = e.content.length := by rw [st.br]; simp [Reader.ofSize]
  have hs : r.s = e.content.length := hst.s
  have hbuf : r.buf = none := hst.buf
  have hS : r.hasS = true := hst.hasS
  have hcl := st.clean rfl (by simp [Reader.ofSize]) (by
    unfold Reader.want Reader.ofSize
    simp only
    split <;> omega) (clean_ofSize _ _ _)
  rw [if_neg (by simp [hbr, entryObj])]
  have hlen : (e.zip ++ rest).length ≤ p.data.length := by
    rw [← hd, List.length_drop]; omega
  obtain ⟨r', hc⟩ := compressedBytesRead_spec L hm r st.inv hS hs hi.ne (by rw [hbr, hs]) hbuf hcl innerFuel
    (by omega)
  have hst' := cbr_static (zl := zl) innerFuel r hbuf hS
  rw [hc] at hst'
  simp only [hc, seek_static (hst.trans hst')]
  have hnext : (off : Int) + (((entryObj p.data off e).dataOff : Int) - (entryObj p.data off e).packOffset +
      e.zip.length) = ((off + e.bytes.length : Nat) : Int) := by
    simp only [entryObj, Packed.bytes, List.length_append]
    omega
  rw [hnext]
  rfl

theorem iterObjects_spec (L : ZlibLaws zl) (es : List Packed) (hv : ∀ e ∈ es, Iterable zl e) (sha : Bytes)
    (hsha : sha.length = 20) (version size innerFuel : Nat)
    (hf : (packFile es sha).length + 3 ≤ innerFuel) : ∀ (k i : Nat) (fuel : Nat), i + k = es.length →
    k < fuel →
    PackFile.iterObjects zl ⟨packFile es sha, version, size⟩ innerFuel fuel (offsetOf es i : Nat) =
      ((List.range' i k).map fun j => entryObj (packFile es sha) (offsetOf es j) (es.getD j ⟨[], .whole 0, [], [], [], []⟩),
        .ok ()) := by
  intro k
  have hval : ∀ e ∈ es, e.Valid zl := fun e he => (hv e he).valid
  have hend := offsetOf_length es sha
  have hlen : 20 ≤ (packFile es sha).length := by unfold packFile; rw [List.length_append]; omega
  induction k with
  | zero =>
    intro i fuel hi hf0
    obtain ⟨f, rfl⟩ : ∃ f, fuel = f + 1 := ⟨fuel - 1, by omega⟩
    have : i = es.length := by omega
    subst this
    rw [PackFile.iterObjects, if_neg (by simp only; omega)]
    simp
  | succ k ih =>
    intro i fuel hi hf0
    obtain ⟨f, rfl⟩ : ∃ f, fuel = f + 1 := ⟨fuel - 1, by omega⟩
    have hil : i < es.length := by omega
    have h1 := offsetOf_lt hval i es.length hil (Nat.le_refl _)
    rw [iterObjects_step L ⟨packFile es sha, version, size⟩ innerFuel f (offsetOf es i) es[i]
      (packFile_entryAt hval sha i hil) (hv _ (List.getElem_mem hil)) (by simp only; omega) hf,
      ← offsetOf_succ es i hil, ih (i + 1) f (by omega) (by omega), List.range'_succ, List.map_cons,
      List.getD_eq_getElem?_getD, List.getElem?_eq_getElem hil, Option.getD_some]

/-- An empty object: the iteration never gets past it. -/
theorem iterObjects_empty (p : PackFile) (off : Nat) (e : Packed) (h : EntryAt zl p.data off e)
    (he : e.content = []) (hz : e.zip ≠ []) (hoff : off + 20 < p.data.length) (innerFuel fuel : Nat) :
    p.iterObjects zl innerFuel fuel off = ([], .error .diverge) := by
  rcases fuel with _ | fuel
  · rfl
  obtain ⟨rest, hd⟩ := entryAt_data h
  rw [PackFile.iterObjects, if_pos (by omega), if_neg (by omega), Int.toNat_natCast, packObjectAt_spec h]
  simp only
  generalize hM : p.data.drop (off + (e.hdr ++ e.ext).length) = M at hd
  have hMne : M ≠ [] := by rw [hd]; simp [hz]
  have hread : ∀ n, (Reader.ofSize M 0).readCore zl 3 n = (Reader.ofSize M 0, .ok []) := by
    intro n
    rw [readCore_succ, if_pos (by unfold Reader.want Reader.ofSize; simp only; split <;> omega)]
  rcases innerFuel with _ | f
  · rfl
  have hcopy : streamCopy (f + 1) (Reader.read zl) nullWrite (entryObj p.data off e).size chunkSize
      (entryObj p.data off e).stream () = (Reader.ofSize M 0, (), .ok 0) := by
    unfold streamCopy
    rw [streamCopyLoop]
    have h0 : min (chunkSize : Int) (0 - 0) = 0 := by omega
    have hr0 : (Reader.ofSize M 0).read zl 0 = (Reader.ofSize M 0, .ok []) := hread 0
    simp only [entryObj, he, hM, List.length_nil, Int.natCast_zero, h0, hr0, nullWrite]
    rw [if_pos (by simp)]
    simp
  simp only [hcopy]
  have hbr0 : (Reader.ofSize M 0).br = ((entryObj p.data off e).size : Int) := by
    simp [Reader.ofSize, entryObj, he]
  rw [if_neg (by simp [hbr0])]
  have hscrub : ∀ fuel, (Reader.ofSize M 0).scrub zl fuel = (Reader.ofSize M 0, .error .diverge) := by
    intro fuel
    induction fuel with
    | zero => rfl
    | succ fuel ih =>
      rw [Reader.scrub, if_pos ⟨rfl, by
        have : 0 < M.length := List.length_pos_iff.mpr hMne
        show (0 : Int) ≠ (M.length : Int)
        omega⟩]
      have hr : (Reader.ofSize M 0).readCore zl (Reader.ofSize M 0).fuel (PAGESIZE : Nat) =
          (Reader.ofSize M 0, .ok []) := hread _
      rw [hr]
      exact ih
  have hcbr : (Reader.ofSize M 0).compressedBytesRead zl (f + 1) = (Reader.ofSize M 0, .error .diverge) := by
    unfold Reader.compressedBytesRead Reader.needS
    rw [if_pos (show (Reader.ofSize M 0).hasS = true from rfl)]
    simp only
    rw [if_pos ⟨rfl, rfl⟩]
    have : ({ Reader.ofSize M 0 with br := 0 } : Reader) = Reader.ofSize M 0 := rfl
    rw [this, hscrub]
  simp only [hcbr]

/-! ### crc verification -/

theorem crcLoop_spec (data : Bytes) (chunk next : Nat) (hc : 1 ≤ chunk) : ∀ (fuel cur crc : Nat),
    next - cur < fuel → crcLoop data chunk next fuel cur crc = .ok (crc32 (pySlice data cur next) crc) := by
  intro fuel
  induction fuel with
  | zero => intros; omega
  | succ fuel ih =>
    intro cur crc hf
    rw [crcLoop]
    by_cases h : cur < next
    · rw [if_pos h]
      simp only
      have hb : cur + (min (cur + chunk) next - cur) = min (cur + chunk) next := by omega
      rw [hb, ih _ _ (by omega), ← crc32_append]
      congr 2
      unfold pySlice
      have h1 : data.drop (min (cur + chunk) next) = (data.drop cur).drop (min (cur + chunk) next - cur) := by
        rw [List.drop_drop, hb]
      rw [h1, show next - cur = (min (cur + chunk) next - cur) + (next - min (cur + chunk) next) by omega,
        List.take_add]
    · rw [if_neg h]
      have : pySlice data cur next = [] := by
        unfold pySlice
        rw [show next - cur = 0 by omega, List.take_zero]
      rw [this, crc32_nil]

theorem dictGet_cons (q : Nat × Nat) (ps : List (Nat × Nat)) (k : Nat) :
    dictGet (q :: ps) k = match dictGet ps k with
      | .ok v => .ok v
      | .error _ => if q.1 = k then .ok q.2 else .error .keyError := by
  unfold dictGet
  rw [List.reverse_cons, List.find?_append]
  cases h : ps.reverse.find? (fun p => p.1 == k) with
  | some v => simp
  | none =>
    by_cases hq : q.1 = k
    · simp [List.find?, hq]
    · have : (q.1 == k) = false := by simpa using hq
      simp [List.find?, hq, this]

theorem dictGet_missing (ps : List (Nat × Nat)) (k : Nat) (h : ∀ p ∈ ps, p.1 ≠ k) :
    dictGet ps k = .error .keyError := by
  unfold dictGet
  have : ps.reverse.find? (fun p => p.1 == k) = none := by
    rw [List.find?_eq_none]
    intro x hx
    simpa using h x (by simpa using hx)
  rw [this]

theorem offsetPairs_cons (x y : Nat) (t : List Nat) (last : Nat) :
    offsetPairs (x :: y :: t) last = (x, y) :: offsetPairs (y :: t) last := by
  simp [offsetPairs]

theorem offsetPairs_keys (last : Nat) : ∀ (l : List Nat), ∀ p ∈ offsetPairs l last, p.1 ∈ l
  | [], p, h => by simp [offsetPairs] at h
  | [x], p, h => by simp [offsetPairs] at h; simp [h]
  | x :: y :: t, p, h => by
    rw [offsetPairs_cons] at h
    rcases List.mem_cons.1 h with rfl | h
    · simp
    · exact List.mem_cons_of_mem _ (offsetPairs_keys last (y :: t) p h)

/-- The next greater offset, or the end. -/
def IsNext (offs : List Nat) (last k v : Nat) : Prop :=
  (v ∈ offs ∧ k < v ∧ ∀ o ∈ offs, k < o → v ≤ o) ∨ (v = last ∧ ∀ o ∈ offs, o ≤ k)

theorem offsetPairs_spec (last : Nat) : ∀ (l : List Nat), l.Pairwise (· ≤ ·) → ∀ k ∈ l,
    ∃ v, dictGet (offsetPairs l last) k = .ok v ∧ IsNext l last k v
  | [], _, k, h => absurd h (by simp)
  | [x], _, k, h => by
    have : k = x := by simpa using h
    subst this
    exact ⟨last, by simp [offsetPairs, dictGet], Or.inr ⟨rfl, by simp⟩⟩
  | x :: y :: t, hs, k, h => by
    have hs' := List.pairwise_cons.1 hs
    rw [offsetPairs_cons, dictGet_cons]
    by_cases hk : k ∈ y :: t
    · obtain ⟨v, e, hv⟩ := offsetPairs_spec last (y :: t) hs'.2 k hk
      rw [e]
      have hxk : x ≤ k := hs'.1 k hk
      refine ⟨v, rfl, ?_⟩
      rcases hv with ⟨h1, h2, h3⟩ | ⟨h1, h2⟩
      · refine Or.inl ⟨List.mem_cons_of_mem _ h1, h2, fun o ho hko => ?_⟩
        rcases List.mem_cons.1 ho with rfl | ho
        · omega
        · exact h3 o ho hko
      · refine Or.inr ⟨h1, fun o ho => ?_⟩
        rcases List.mem_cons.1 ho with rfl | ho
        · exact hxk
        · exact h2 o ho
    · have hx : x = k := by
        rcases List.mem_cons.1 h with h | h
        · exact h.symm
        · exact absurd h hk
      subst hx
      rw [dictGet_missing _ _ (fun p hp hpk => hk (by
        have := offsetPairs_keys last (y :: t) p hp
        rwa [hpk] at this))]
      have hxy : x ≤ y := hs'.1 y (by simp)
      have hne : x ≠ y := fun he => hk (by simp [he])
      refine ⟨y, by simp, Or.inl ⟨by simp, by omega, fun o ho hxo => ?_⟩⟩
      rcases List.mem_cons.1 ho with rfl | ho
      · omega
      · rcases List.mem_cons.1 ho with rfl | ho
        · omega
        · exact (List.pairwise_cons.1 hs'.2).1 o ho

theorem sortNats_perm (l : List Nat) : (sortNats l).Perm l := List.mergeSort_perm _ _

theorem sortNats_sorted (l : List Nat) : (sortNats l).Pairwise (· ≤ ·) := by
  have := List.pairwise_mergeSort (le := fun a b : Nat => decide (a ≤ b))
    (by intro a b c h1 h2; simp at *; omega) (by intro a b; simp; omega) l
  exact this.imp (by intro a b h; simpa using h)

theorem nextOffset_spec (p : PackEntity) (offs : List Nat) (h : p.index.offsets = .ok offs) (k : Nat)
    (hk : k ∈ offs) : ∃ v, p.nextOffset k = .ok v ∧ IsNext offs (p.pack.data.length - 20) k v := by
  obtain ⟨v, e, hv⟩ := offsetPairs_spec (p.pack.data.length - 20) (sortNats offs) (sortNats_sorted offs) k
    ((sortNats_perm offs).mem_iff.2 hk)
  refine ⟨v, ?_, ?_⟩
  · unfold PackEntity.nextOffset
    rw [h]
    simp only
    rw [if_neg (by rintro rfl; simp at hk), e]
  · rcases hv with ⟨h1, h2, h3⟩ | ⟨h1, h2⟩
    · exact Or.inl ⟨(sortNats_perm offs).mem_iff.1 h1, h2,
        fun o ho => h3 o ((sortNats_perm offs).mem_iff.2 ho)⟩
    · exact Or.inr ⟨h1, fun o ho => h2 o ((sortNats_perm offs).mem_iff.2 ho)⟩

theorem and_ffffffff (n : Nat) (h : n < 2 ^ 32) : n &&& 0xffffffff = n := by
  have : (0xffffffff : Nat) = 2 ^ 32 - 1 := by decide
  rw [this, Nat.and_two_pow_sub_one_eq_mod, Nat.mod_eq_of_lt h]

theorem isValidCrc_spec (p : PackEntity) (sha : Bytes) (i o c : Nat) (offs : List Nat)
    (hv : 2 ≤ p.index.version) (hi : p.index.shaToIndex sha = .ok (some i)) (ho : p.index.offset i = .ok o)
    (hc : p.index.crc i = .ok c) (hof : p.index.offsets = .ok offs) (hm : o ∈ offs) (fuel : Nat)
    (hf : p.pack.data.length < fuel ∧ ∀ x ∈ offs, x < fuel) :
    ∃ next, IsNext offs (p.pack.data.length - 20) o next ∧
      p.isValidCrc fuel sha = .ok (decide (crc32 (pySlice p.pack.data o next) 0 = c)) := by
  obtain ⟨next, e, hn⟩ := nextOffset_spec p offs hof o hm
  refine ⟨next, hn, ?_⟩
  have hlt : next - o < fuel := by
    rcases hn with ⟨h1, _⟩ | ⟨h1, _⟩
    · have := hf.2 next h1; omega
    · omega
  unfold PackEntity.isValidCrc PackEntity.shaToIndex
  rw [if_neg (by omega), hi]
  simp only [ho, e, hc, crcLoop_spec p.pack.data chunkSize next chunkSize_pos fuel o 0 hlt]
  rw [and_ffffffff _ (crc32_lt _ _ (by decide))]
  rfl

end GitDB
