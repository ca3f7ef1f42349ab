import Verif.Props.Count
import Verif.Props.LargeIter
import Verif.Props.OneBlock
import Verif.Props.Window
/-!
# C27: iteration over any pack

The packs here are those of the format, whoever wrote them: with deltas, with large, empty and badly compressed objects.
-/
set_option autoImplicit false

namespace GitDB.Props
open GitDB Spec Deflate

variable {zl : Zlib}

/-- The copy loop of the iteration is a sequence of reads. -/
theorem copy_readMany (L : ZlibLaws zl) {m : Bytes} {clen : Nat} {content : Bytes} (hm : IsZip zl m clen content) (chunk : Nat)
    (hch : 0 < chunk) : ∀ (fuel : Nat) (r : Reader) (p : Nat), RInv zl m clen content 0 r → r.hasS = true → r.buf = none →
    r.br = p → r.s = content.length → p ≤ content.length → content.length - p < fuel →
    ∃ r' ns ps, streamCopyLoop (Reader.read zl) nullWrite content.length chunk fuel p r () = (r', (), .ok ((p + ps.flatten.length : Nat) : Int)) ∧
      readMany (Reader.read zl) r ns = (r', .ok ps) ∧ Static r r' := by
  intro fuel
  induction fuel with
  | zero => intro r p _ _ _ _ _ _ hf; omega
  | succ fuel ih =>
    intro r p hr hS hb hbr hs hp hf
    obtain ⟨r1, d, e1, st⟩ := read_spec L hm 0 r (min (chunk : Int) (content.length - p)) hr hS
    have hst : Static r r1 := by
      have h0 := readCore_static (zl := zl) r.fuel r (min (chunk : Int) (content.length - p)) hb
      unfold Reader.read Reader.needS at e1
      rw [if_pos hS] at e1
      simp only at e1
      rw [e1] at h0
      exact h0
    have hd : p + d.length ≤ content.length := by
      have := st.inv.br_le
      rw [st.br, st.s, hs, hbr] at this
      omega
    rw [streamCopyLoop]
    simp only [e1, nullWrite]
    by_cases hend : (d.length : Int) < min (chunk : Int) (content.length - p) ∨ (p : Int) + d.length = content.length
    · rw [if_pos hend]
      refine ⟨r1, [min (chunk : Int) (content.length - p)], [d], ?_, ?_, hst⟩
      · simp
      · simp only [readMany, e1]
    · rw [if_neg hend]
      have hpos : 0 < d.length := by omega
      obtain ⟨r2, ns, ps, e2, e3, e4⟩ := ih r1 (p + d.length) st.inv (st.hasS.trans hS) (st.nobuf hb) (by rw [st.br, hbr]; omega)
        (st.s.trans hs) hd (by omega)
      rw [show (p : Int) + d.length = ((p + d.length : Nat) : Int) by omega, e2]
      refine ⟨r2, min (chunk : Int) (content.length - p) :: ns, d :: ps, ?_, ?_, hst.trans e4⟩
      · rw [List.flatten_cons, List.length_append, Nat.add_assoc]
      · simp only [readMany, e1, e3]

/-- One round of the iteration, for any entry that is not empty: its stream may stall; otherwise the iteration goes on at its end or
some bytes before it. -/
theorem iterObjects_any (L : ZlibLaws zl) (p : PackFile) (innerFuel fuel off : Nat) (e : Packed) (h : EntryAt zl p.data off e)
    (hne : e.content ≠ []) (hoff : off + 20 < p.data.length) (hf : p.data.length + e.content.length + 3 ≤ innerFuel) :
    p.iterObjects zl innerFuel (fuel + 1) off = ([], .error .assertionError) ∨
    ∃ t : Nat, off + e.bytes.length + t ≤ p.data.length ∧ p.iterObjects zl innerFuel (fuel + 1) off =
      (entryObj p.data off e :: (p.iterObjects zl innerFuel fuel ((off + e.bytes.length : Nat) - (t : Nat) : Int)).1,
        (p.iterObjects zl innerFuel fuel ((off + e.bytes.length : Nat) - (t : Nat) : Int)).2) := by
  obtain ⟨rest, hd⟩ := entryAt_data h
  have hm := isZip_append L h.1.zip rest
  have hbl : e.bytes.length = (e.hdr ++ e.ext).length + e.zip.length := by
    simp only [Packed.bytes, List.length_append]
  have hcp := zip_clen_pos L hm
  have hrest : off + e.bytes.length + rest.length = p.data.length := by
    have := congrArg List.length hd
    rw [List.length_drop, List.length_append (as := e.zip)] at this
    omega
  have hml : (e.zip ++ rest).length = e.zip.length + rest.length := List.length_append
  obtain ⟨r, ns, ps, c1, c2, c3⟩ := copy_readMany L hm chunkSize (by decide) innerFuel (Reader.ofSize (e.zip ++ rest) e.content.length) 0
    (rinv_ofSize L hm _ (by omega)) rfl rfl rfl rfl (by omega) (by omega)
  obtain ⟨r0, ps0, k1, k2, k3, k4, k5, k6, -⟩ := readMany_reader L hm 0 ns (Reader.ofSize (e.zip ++ rest) e.content.length)
    (rinv_ofSize L hm _ (by omega)) rfl
  rw [c2] at k1
  cases k1
  have hbr : r.br = ps.flatten.length := by rw [k4]; simp [Reader.ofSize]
  have hcopy : streamCopy innerFuel (Reader.read zl) nullWrite (entryObj p.data off e).size chunkSize
      (entryObj p.data off e).stream () = (r, (), .ok ((0 + ps.flatten.length : Nat) : Int)) := by
    simp only [entryObj, hd]
    exact c1
  rw [PackFile.iterObjects, if_pos (by omega), if_neg (by omega), Int.toNat_natCast, packObjectAt_spec h]
  simp only [hcopy]
  by_cases hall : ps.flatten = e.content
  · right
    obtain ⟨r', d1, d2, d3⟩ := C15_exact zl L _ _ _ hm hne ns r ps c2 hall innerFuel (by omega)
    have hst' := cbr_static (zl := zl) innerFuel r c3.buf c3.hasS
    rw [d1] at hst'
    refine ⟨r'.zip.tail.length, ?_, ?_⟩
    · rcases d2 with d2 | d2 <;> rw [d2]
      · simp only [List.length_nil]; omega
      · omega
    · rw [if_neg (by rw [hbr, hall]; simp [entryObj])]
      simp only [d1, seek_static (c3.trans hst')]
      rw [show (off : Int) + (((entryObj p.data off e).dataOff : Int) - (entryObj p.data off e).packOffset +
          ((e.zip.length : Int) - r'.zip.tail.length)) = ((off + e.bytes.length : Nat) : Int) - (r'.zip.tail.length : Nat) by
        simp only [entryObj]; omega]
      simp only [← hd]
      rfl
  · left
    rw [if_pos]
    intro h'
    apply hall
    rw [hbr] at h'
    simp only [entryObj] at h'
    rw [k3]
    simp only [Reader.ofSize, Int.toNat_zero, Nat.add_zero, List.drop_zero]
    exact List.take_of_length_le (by omega)

/-- The iteration from the entry at position `i` on. -/
theorem iterObjects_entries (L : ZlibLaws zl) (es : List Packed) (hv : ∀ e ∈ es, e.Valid zl) (sha : Bytes) (hsha : sha.length = 20)
    (p : PackFile) (hp : p.data = packFile es sha) (innerFuel : Nat)
    (hf : ∀ e ∈ es, p.data.length + e.content.length + 3 ≤ innerFuel) : ∀ (j i fuel : Nat), i + j = es.length → j < fuel →
    ∃ objs rest res, p.iterObjects zl innerFuel fuel (offsetOf es i : Nat) = (objs ++ rest, res) ∧ i + objs.length ≤ es.length ∧
      (∀ k (h : k < objs.length), p.stream (offsetOf es (i + k)) = .ok objs[k]) ∧
      ((i + objs.length = es.length ∧ rest = [] ∧ res = .ok ()) ∨
       (∃ h : i + objs.length < es.length, rest = [] ∧ (res = .error .assertionError ∨ es[i + objs.length].content = [] ∧ res = .error .diverge)) ∨
       (∃ t : Nat, 0 < t ∧ 0 < objs.length ∧ offsetOf es (i + objs.length) + t ≤ p.data.length ∧
         ((rest = [] ∧ ∃ e, res = .error e) ∨
           ∃ o rest', rest = o :: rest' ∧ (o.packOffset : Int) + t = offsetOf es (i + objs.length)))) := by
  have hend := offsetOf_length es sha
  have hlen : 20 ≤ (packFile es sha).length := by unfold packFile; rw [List.length_append]; omega
  intro j
  induction j with
  | zero =>
    intro i fuel hi hfu
    obtain ⟨f, rfl⟩ : ∃ f, fuel = f + 1 := ⟨fuel - 1, by omega⟩
    have : i = es.length := by omega
    subst this
    refine ⟨[], [], .ok (), ?_, by simp, fun k h => absurd h (Nat.not_lt_zero _), .inl ⟨by simp, rfl, rfl⟩⟩
    rw [PackFile.iterObjects, if_neg (by rw [hp]; omega)]
    rfl
  | succ j ih =>
    intro i fuel hi hfu
    obtain ⟨f, rfl⟩ : ∃ f, fuel = f + 1 := ⟨fuel - 1, by omega⟩
    have hil : i < es.length := by omega
    have h1 := offsetOf_lt hv i es.length hil (Nat.le_refl _)
    have hat : EntryAt zl p.data (offsetOf es i) es[i] := by rw [hp]; exact packFile_entryAt hv sha i hil
    have hstream : p.stream (offsetOf es i) = .ok (entryObj p.data (offsetOf es i) es[i]) := by
      unfold PackFile.stream
      rw [if_neg (by unfold offsetOf; omega)]
      exact packObjectAt_spec hat
    by_cases hne : es[i].content = []
    · have hz : es[i].zip ≠ [] := by
        intro h0
        have := hat.1.zip.stop
        rw [h0, L.stop_nil] at this
        cases this
      refine ⟨[], [], .error .diverge, ?_, by simp; omega, fun k h => absurd h (Nat.not_lt_zero _),
        .inr (.inl ⟨by simpa using hil, rfl, .inr ⟨by simpa using hne, rfl⟩⟩)⟩
      rw [iterObjects_empty p (offsetOf es i) es[i] hat hne hz (by rw [hp]; omega)]
      rfl
    · rcases iterObjects_any L p innerFuel f (offsetOf es i) es[i] hat hne (by rw [hp]; omega) (hf _ (List.getElem_mem hil)) with
        hs | ⟨t, ht, hs⟩
      · exact ⟨[], [], .error .assertionError, hs, by simp; omega, fun k h => absurd h (Nat.not_lt_zero _),
          .inr (.inl ⟨by simpa using hil, rfl, .inl rfl⟩)⟩
      · have hsucc := offsetOf_succ es i hil
        rcases Nat.eq_zero_or_pos t with rfl | htp
        · obtain ⟨objs, rest, res, r1, r2, r3, r4⟩ := ih (i + 1) f (by omega) (by omega)
          rw [Int.natCast_zero, Int.sub_zero, ← hsucc, r1] at hs
          have hl : i + (entryObj p.data (offsetOf es i) es[i] :: objs).length = i + 1 + objs.length := by
            rw [List.length_cons]; omega
          refine ⟨entryObj p.data (offsetOf es i) es[i] :: objs, rest, res, hs, by omega, ?_, ?_⟩
          · intro k hk
            cases k with
            | zero => exact hstream
            | succ k =>
              rw [show i + (k + 1) = i + 1 + k by omega]
              exact r3 k (by rw [List.length_cons] at hk; omega)
          · simp only [hl]
            rcases r4 with r4 | r4 | ⟨t, t1, t2, t3⟩
            · exact .inl r4
            · exact .inr (.inl r4)
            · exact .inr (.inr ⟨t, t1, by simp, t3⟩)
        · have hfirst := iterObjects_first (zl := zl) p innerFuel f ((offsetOf es i + es[i].bytes.length : Nat) - (t : Nat) : Int) (by
            have : offsetOf es (i + 1) ≤ offsetOf es es.length := by
              rcases Nat.lt_or_ge (i + 1) es.length with h | h
              · exact Nat.le_of_lt (offsetOf_lt hv _ _ h (Nat.le_refl _))
              · rw [show i + 1 = es.length by omega]; exact Nat.le_refl _
            rw [hp]; omega)
          generalize p.iterObjects zl innerFuel f ((offsetOf es i + es[i].bytes.length : Nat) - (t : Nat) : Int) = q at hs hfirst
          refine ⟨[entryObj p.data (offsetOf es i) es[i]], q.1, q.2, hs, by simp; omega, ?_, .inr (.inr ⟨t, htp, by simp, ?_, ?_⟩)⟩
          · intro k hk
            have : k = 0 := by simpa using hk
            subst this
            exact hstream
          · simp only [List.length_singleton]; omega
          · simp only [List.length_singleton]
            rcases hfirst with ⟨e, rfl⟩ | ⟨o, objs, f1, f2⟩
            · exact .inl ⟨rfl, e, rfl⟩
            · exact .inr ⟨o, objs, f1, by omega⟩

/-- **C27** for every pack of the format, whoever wrote it: `stream_iter` yields entries of the pack in their order and none is left out
before the first trouble.  It then ends with the last entry; or it raises `AssertionError` at an entry whose stream stalls; or it never
returns, at an empty entry; or it goes on within the entry it has yielded last, or even before it, and never beyond its end. -/
theorem C27_any_pack (L : ZlibLaws zl) (es : List Packed) (hv : ∀ e ∈ es, e.Valid zl) (hn : es.length < 2 ^ 32) (sha : Bytes)
    (hsha : sha.length = 20) : ∃ p, PackFile.load (packFile es sha) = .ok p ∧
    ∀ innerFuel fuel, (∀ e ∈ es, (packFile es sha).length + e.content.length + 3 ≤ innerFuel) → es.length < fuel →
    ∃ objs rest res, p.streamIter zl innerFuel fuel 0 = (objs ++ rest, res) ∧ objs.length ≤ es.length ∧
      (∀ k (h : k < objs.length), p.stream (offsetOf es k) = .ok objs[k]) ∧
      ((objs.length = es.length ∧ rest = [] ∧ res = .ok ()) ∨
       (∃ h : objs.length < es.length, rest = [] ∧ (res = .error .assertionError ∨ es[objs.length].content = [] ∧ res = .error .diverge)) ∨
       (∃ t : Nat, 0 < t ∧ 0 < objs.length ∧ offsetOf es objs.length + t ≤ (packFile es sha).length ∧
         ((rest = [] ∧ ∃ e, res = .error e) ∨
           ∃ o rest', rest = o :: rest' ∧ (o.packOffset : Int) + t = offsetOf es objs.length))) := by
  refine ⟨_, packFile_load es sha hn, fun innerFuel fuel hf hfu => ?_⟩
  obtain ⟨objs, rest, res, h1, h2, h3, h4⟩ := iterObjects_entries L es hv sha hsha ⟨packFile es sha, 2, es.length⟩ rfl innerFuel hf
    es.length 0 fuel (by omega) hfu
  simp only [Nat.zero_add] at h2 h3 h4
  exact ⟨objs, rest, res, h1, h2, h3, h4⟩

/-- **C27** for every pack of the format, whoever wrote it, whose entries (deltas included) are neither empty nor longer than the copy
chunk, with streams that come out in one go: `stream_iter` yields exactly the entries and ends.  Missing for the full statement
(`C27_full`, there for packs written by `write_pack`): empty entries, large entries and stalling streams; see `C27_any_pack`. -/
theorem C27_pack_partial (L : ZlibLaws zl) (es : List Packed) (hv : ∀ e ∈ es, e.Valid zl) (hn : es.length < 2 ^ 32) (sha : Bytes)
    (hsha : sha.length = 20)
    (hc : ∀ e ∈ es, e.content ≠ [] ∧ e.content.length ≤ chunkSize ∧ (e.zip.length ≤ e.content.length ∨ NoStall zl e.zip)) :
    ∃ p objs, PackFile.load (packFile es sha) = .ok p ∧ objs.length = es.length ∧
    (∀ innerFuel fuel, (packFile es sha).length + 3 ≤ innerFuel → es.length < fuel → p.streamIter zl innerFuel fuel 0 = (objs, .ok ())) ∧
    ∀ k (h : k < objs.length) (h' : k < es.length), p.stream (offsetOf es k) = .ok objs[k] ∧ objs[k].packOffset = offsetOf es k ∧
      objs[k].typeId = es[k].kind.typeId ∧ objs[k].size = es[k].content.length ∧ (objs[k].stream.read zl (-1)).2 = .ok es[k].content := by
  refine ⟨_, (List.range' 0 es.length).map fun j => entryObj (packFile es sha) (offsetOf es j) (es.getD j ⟨[], .whole 0, [], [], [], []⟩),
    packFile_load es sha hn, by simp, fun innerFuel fuel hf hfu => ?_, fun k h h' => ?_⟩
  · exact iterObjects_spec L es (fun e he => ⟨hv e he, (hc e he).1, (hc e he).2.1, (hc e he).2.2⟩) sha hsha 2 es.length innerFuel hf
      es.length 0 fuel (by omega) hfu
  · have hat := packFile_entryAt hv sha k h'
    have hg : ((List.range' 0 es.length).map fun j => entryObj (packFile es sha) (offsetOf es j)
        (es.getD j ⟨[], .whole 0, [], [], [], []⟩))[k] = entryObj (packFile es sha) (offsetOf es k) es[k] := by
      rw [List.getElem_map, List.getElem_range', List.getD_eq_getElem?_getD]
      simp [List.getElem?_eq_getElem h']
    rw [hg]
    refine ⟨?_, rfl, rfl, rfl, ?_⟩
    · unfold PackFile.stream
      rw [if_neg (by unfold offsetOf; omega)]
      exact packObjectAt_spec hat
    · obtain ⟨rest, hd⟩ := entryAt_data hat
      obtain ⟨r, hr⟩ := smooth_read L hat.1.zip (hc _ (List.getElem_mem h')).2.2 rest (-1) (.inl (by omega))
      simp only [entryObj, hd, hr]

/-- An object and a delta against it, in the real format. -/
example := C27_pack_partial storedZlib_laws oneBlockPack (onePack_valid _) (by decide) (List.replicate 20 0) rfl (by
  simp only [oneBlockPack, List.mem_cons, List.not_mem_nil, or_false, forall_eq_or_imp, forall_eq]
  exact ⟨⟨by decide +kernel, by decide +kernel, .inl (by decide +kernel)⟩, ⟨by decide +kernel, by decide +kernel,
    .inr (oneBlock_noStall _ _ _ rfl (by decide))⟩⟩)
example := C27_any_pack storedZlib_laws oneBlockPack (onePack_valid _) (by decide) (List.replicate 20 0) rfl
/-- The same entries, with an empty one in between: it hangs there. -/
example : (PackFile.streamIter storedZlib ⟨packFile [oneBase, ⟨[], .whole 3, [], [0x30], [], [120, 1, 3, 0, 0, 0, 0, 1]⟩, oneCopy] (List.replicate 20 0), 2, 3⟩
    200 9 0).2 = .error .diverge := by decide +kernel

end GitDB.Props
