import Verif.Proofs.CrcBurst
import Verif.Props.Pack
/-!
# C76: damage that the crc check finds
-/
set_option autoImplicit false

namespace GitDB.Props
open GitDB Spec

variable {σ ω ρ ω₂ ρ₂ : Type}

/-- **C76** the crc of damaged data differs, whatever value it starts from. -/
theorem C76_crc (a b : Bytes) (v : Nat) (h : Burst a b) : crc32 b v ≠ crc32 a v := crc32_burst a b v h

/-- **C76** changing up to four consecutive bytes is such a damage. -/
theorem C76_four_bytes (pre x y post : Bytes) (hl : y.length = x.length) (h4 : x.length ≤ 4) (hne : x ≠ y) :
    Burst (pre ++ (x ++ post)) (pre ++ (y ++ post)) := by
  refine ⟨by simp [hl], fun h => hne ?_, 8 * pre.length, fun i hi => ?_⟩
  · have := List.append_cancel_left h
    exact (List.append_inj this hl.symm).1
  · refine Classical.byContradiction fun hn => hi ?_
    unfold bitAt
    congr 2
    simp only [List.getD_eq_getElem?_getD]
    congr 1
    by_cases h1 : i < 8 * pre.length
    · rw [List.getElem?_append_left (by omega), List.getElem?_append_left (by omega)]
    · have h2 : pre.length + x.length ≤ i / 8 := by omega
      rw [List.getElem?_append_right (by omega), List.getElem?_append_right (by omega),
        List.getElem?_append_right (by omega), List.getElem?_append_right (by omega), hl]

/-- **C76** 33 bits are too many: the generator polynomial itself goes unnoticed. -/
theorem C76_limit (pre post : Bytes) (v : Nat) :
    crc32 (pre ++ ([0x41, 0x06, 0x71, 0xDB, 0x01] ++ post)) v = crc32 (pre ++ ([0, 0, 0, 0, 0] ++ post)) v := by
  rw [crc32_append, crc32_append pre, crc32_append _ post, crc32_append _ post]
  congr 1
  generalize crc32 pre v = c
  unfold crc32
  rw [foldl_crcByte, foldl_crcByte, crcIter_xor, crcIter_xor _ (c ^^^ 0xffffffff)]
  congr 2

section
variable {read : σ → Int → σ × Res Bytes} {write : ω → Bytes → ω × Res ρ} {iwrite : ω₂ → Bytes → ω₂ × Res ρ₂}
  {Rep : σ → Bytes → Prop} {WRep : ω → Bytes → Prop} {IRep : ω₂ → Bytes → Prop} (zl : Zlib) (L : ZlibLaws zl)
  (hr : BoundedReads read Rep) (hw : ∀ cap, Stores write WRep cap) (hi : ∀ cap, Stores iwrite IRep cap) (H : Hash)
  (fuel : Nat) (level : Int) (l : List (PackIn σ × Bytes)) (hl : Packable Rep zl level fuel l)
  (w : ω) (ho : WRep w []) (iw : ω₂) (hio : IRep iw [])

include L hr hw hi hl ho hio in
/-- **C76** after a written pack of at most 2 GiB has been damaged, the crc check rejects exactly the objects whose
entries have changed. -/
theorem C76_each : ∃ w' iw' psha isha pk ix x es,
    writePack H zl fuel read write (some iwrite) (l.map Prod.fst) none level w iw =
      (w', iw', .ok (psha, some isha)) ∧ WRep w' pk ∧ IRep iw' ix ∧ IndexFile.load ix = .ok x ∧
    pk = packFile es psha ∧ es.map Packed.name = l.map (fun q => q.1.sha) ∧
    (pk.length ≤ 2 ^ 31 → ∀ pk', Burst pk pk' → ∀ p : PackFile, p.data = pk' → ∀ i (hil : i < es.length) fuel',
      pk.length < fuel' →
      PackEntity.isValidCrc ⟨x, p⟩ fuel' es[i].name =
        .ok (decide (pySlice pk' (offsetOf es i) (offsetOf es (i + 1)) = es[i].bytes))) := by
  obtain ⟨w', iw', es, isha, h1, e1, e2, h2, h3, hix, hv, hd, h32⟩ :=
    written_spec zl L hr hw hi H fuel level l hl w ho iw hio
  refine ⟨w', iw', _, isha, _, _, _, es, e1, h2, h3, v2_load _ _ _ (hix.perm (sortObjs_perm _)).valid, rfl, all2_names h1, ?_⟩
  intro hs pk' hb p hp i hil fuel' hf
  rw [written_crc_of es hv _ isha _ (H.len _) hix hd hs ⟨v2File _ _ _, p⟩ rfl (by rw [hp]; exact hb.len) fuel' hf i hil]
  congr 1
  apply decide_eq_decide.2
  simp only [hp]
  constructor
  · intro hc
    refine Classical.byContradiction fun hn => ?_
    have hsl := packFile_slice es (H.digest (packBody es)) i hil
    refine crc32_burst _ _ 0 (burst_slice _ _ hb (offsetOf es i) (offsetOf es (i + 1) - offsetOf es i) ?_) ?_
    · intro he
      apply hn
      rw [← hsl]
      exact he.symm
    · show crc32 (pySlice pk' _ _) 0 = crc32 (pySlice (packFile es _) _ _) 0
      rw [hsl, hc]
  · intro h; rw [h]

/-- The entries of a pack fill the space between header and checksum. -/
theorem entry_at (es : List Packed) (o : Nat) (h1 : 12 ≤ o) (h2 : o < offsetOf es es.length) :
    ∃ i, i < es.length ∧ offsetOf es i ≤ o ∧ o < offsetOf es (i + 1) := by
  have key : ∀ n, n ≤ es.length → o < offsetOf es n → ∃ i, i < n ∧ offsetOf es i ≤ o ∧ o < offsetOf es (i + 1) := by
    intro n
    induction n with
    | zero => intro _ h; simp [offsetOf] at h; omega
    | succ n ih =>
      intro hn h
      by_cases hc : o < offsetOf es n
      · obtain ⟨i, a, b, c⟩ := ih (by omega) hc
        exact ⟨i, by omega, b, c⟩
      · exact ⟨n, by omega, by omega, h⟩
  exact key es.length (Nat.le_refl _) h2

include L hr hw hi hl ho hio in
/-- **C76** every damage between the header of the pack and its checksum is found with some object. -/
theorem C76_found : ∃ w' iw' psha isha pk ix x,
    writePack H zl fuel read write (some iwrite) (l.map Prod.fst) none level w iw =
      (w', iw', .ok (psha, some isha)) ∧ WRep w' pk ∧ IRep iw' ix ∧ IndexFile.load ix = .ok x ∧
    (pk.length ≤ 2 ^ 31 → ∀ pk', Burst pk pk' → pk'.take 12 = pk.take 12 →
      pk'.drop (pk.length - 20) = pk.drop (pk.length - 20) →
      ∃ p, PackFile.load pk' = .ok p ∧ ∃ q ∈ l, ∀ fuel', pk.length < fuel' →
        PackEntity.isValidCrc ⟨x, p⟩ fuel' q.1.sha = .ok false) := by
  obtain ⟨w', iw', es, isha, h1, e1, e2, h2, h3, hix, hv, hd, h32⟩ :=
    written_spec zl L hr hw hi H fuel level l hl w ho iw hio
  refine ⟨w', iw', _, isha, _, _, _, e1, h2, h3, v2_load _ _ _ (hix.perm (sortObjs_perm _)).valid, ?_⟩
  intro hs pk' hb hhead htail
  have hpk := packFile_load es (H.digest (packBody es)) h32
  have hend := offsetOf_length es (H.digest (packBody es))
  have hdl := H.len (packBody es)
  generalize hd' : H.digest (packBody es) = dg at *
  -- the damage shows in one of the entries
  have hex : ∃ o : Nat, (packFile es dg)[o]? ≠ pk'[o]? := by
    refine Classical.byContradiction fun hn => hb.ne (List.ext_getElem? fun o => ?_)
    exact Classical.byContradiction fun h => hn ⟨o, h⟩
  obtain ⟨o, hne⟩ := hex
  have ho12 : 12 ≤ o := by
    refine Classical.byContradiction fun hn => hne ?_
    have := congrArg (·[o]?) hhead
    simp only [List.getElem?_take] at this
    rw [if_pos (by omega), if_pos (by omega)] at this
    exact this.symm
  have hoend : o < offsetOf es es.length := by
    refine Classical.byContradiction fun hn => hne ?_
    have := congrArg (·[o - ((packFile es dg).length - 20)]?) htail
    simp only [List.getElem?_drop] at this
    rw [show (packFile es dg).length - 20 + (o - ((packFile es dg).length - 20)) = o by omega] at this
    exact this.symm
  obtain ⟨i, hil, hlo, hhi⟩ := entry_at es o ho12 hoend
  have hload : ∃ p, PackFile.load pk' = .ok p ∧ p.data = pk' := by
    have hu : ∀ off, off + 4 ≤ 12 → unpackL pk' off = unpackL (packFile es dg) off := by
      intro off hoff
      have hlen := hb.len
      have e : (pk'.drop off).take 4 = ((packFile es dg).drop off).take 4 := by
        have := congrArg (fun d => (d.drop off).take 4) hhead
        simp only [List.drop_take, List.take_take] at this
        rw [Nat.min_eq_left (by omega)] at this
        exact this
      unfold unpackL pySlice
      rw [Nat.add_sub_cancel_left, e, hlen]
    unfold PackFile.load at hpk ⊢
    rw [hu 0 (by omega), hu 4 (by omega), hu 8 (by omega)]
    revert hpk
    rcases unpackL (packFile es dg) 0 with _ | t <;> rcases unpackL (packFile es dg) 4 with _ | v <;>
      rcases unpackL (packFile es dg) 8 with _ | n <;> simp only <;> intro hpk
    all_goals first
      | (cases hpk; done)
      | skip
    split at hpk
    · cases hpk
    · rename_i ht
      rw [if_neg ht]
      exact ⟨_, rfl, rfl⟩
  obtain ⟨p, hp, hpd⟩ := hload
  refine ⟨p, hp, ?_⟩
  obtain ⟨q, hq, hqe⟩ := all2_mem_right h1 es[i] (List.getElem_mem hil)
  refine ⟨q, hq, fun fuel' hf => ?_⟩
  rw [← hqe.1]
  refine (written_crc_of es hv _ isha dg hdl hix hd hs ⟨v2File _ _ _, p⟩ rfl (by rw [hpd]; exact hb.len) fuel' hf i hil).trans
    (congrArg Except.ok (decide_eq_false ?_))
  simp only [hpd]
  intro hc
  have hsl := packFile_slice es dg i hil
  refine crc32_burst _ _ 0 (burst_slice _ _ hb (offsetOf es i) (offsetOf es (i + 1) - offsetOf es i) ?_) ?_
  · intro he
    apply hne
    have := congrArg (·[o - offsetOf es i]?) he
    simp only [List.getElem?_take, List.getElem?_drop] at this
    rw [if_pos (by omega), if_pos (by omega), show offsetOf es i + (o - offsetOf es i) = o by omega] at this
    exact this
  · show crc32 (pySlice pk' _ _) 0 = crc32 (pySlice (packFile es _) _ _) 0
    rw [hsl, hc]

end

/-! ### concrete cases -/

/-- One changed bit. -/
example : Burst [1, 2, 3, 4, 5, 6, 7] [1, 2, 3, 4, 5, 4, 7] :=
  C76_four_bytes [1, 2, 3, 4, 5] [6] [4] [7] rfl (by decide) (by decide)
example : crc32 [1, 2, 3, 4, 5, 6, 7] 0 ≠ crc32 [1, 2, 3, 4, 5, 4, 7] 0 := by decide +kernel
/-- A burst across five bytes. -/
example : Burst [0, 0xf0, 0, 0, 0, 0x0f] [0, 0, 0, 0, 0, 0] := ⟨rfl, by decide, 12, by
  have small : ∀ i < 48, ¬ (12 ≤ i ∧ i < 12 + 32) →
      bitAt [0, 0xf0, 0, 0, 0, 0x0f] i = bitAt [0, 0, 0, 0, 0, 0] i := by decide +kernel
  intro i hi
  refine Classical.byContradiction fun hn => hi ?_
  by_cases h : i < 48
  · exact small i h hn
  · rw [bitAt_beyond _ _ (by simp; omega), bitAt_beyond _ _ (by simp; omega)]⟩
/-- The two blobs of C28 in a pack, damaged. -/
example := C76_found toyZlib toyZlib_laws bytesIO_reads.toBoundedReads
  sink_stores sink_stores lenHash 5 1 (twoBlobs 3) (twoBlobs_packable 3 (by omega)) {} ⟨rfl, rfl⟩ {} ⟨rfl, rfl⟩
example := C76_each toyZlib toyZlib_laws bytesIO_reads.toBoundedReads
  sink_stores sink_stores lenHash 5 1 (twoBlobs 3) (twoBlobs_packable 3 (by omega)) {} ⟨rfl, rfl⟩ {} ⟨rfl, rfl⟩

end GitDB.Props
