import Verif.Proofs.LargeIter
import Verif.Proofs.RealZeros
import Verif.Props.Inflate
/-!
# C27: iteration over packs with large objects
-/
set_option autoImplicit false

namespace GitDB.Props
open GitDB Spec Deflate

/-- An iteration that is not at the end of the pack fails at once or yields what it finds there. -/
theorem iterObjects_first {zl : Zlib} (p : PackFile) (innerFuel fuel : Nat) (cur : Int) (hc : cur < (p.data.length : Int) - 20) :
    (∃ e, p.iterObjects zl innerFuel fuel cur = ([], .error e)) ∨
    ∃ o objs, (p.iterObjects zl innerFuel fuel cur).1 = o :: objs ∧ (o.packOffset : Int) = cur := by
  cases fuel with
  | zero => exact .inl ⟨_, rfl⟩
  | succ fuel =>
    rw [PackFile.iterObjects, if_pos hc]
    split
    · exact .inl ⟨_, rfl⟩
    rename_i h0
    split
    · exact .inl ⟨_, rfl⟩
    rename_i o ho
    have := packObjectAt_offset ho
    repeat' split
    all_goals first
      | exact .inl ⟨_, rfl⟩
      | exact .inr ⟨_, _, rfl, by simp only [this]; omega⟩

/-- **C27** a pack with one object larger than `chunk_size` that compresses well: having yielded the object, `stream_iter` goes on
40 bytes before the end of the file, 20 bytes before the end of the object.  It fails there, or takes what it finds for a second object. -/
theorem C27_large (zl : Zlib) (L : ZlibLaws zl) (H : Hash) (fuel : Nat) (level : Int) (i : PackIn Bytes) (data : Bytes) (k b : Nat)
    (hp : Packable (fun s rem => s = rem) zl level fuel [(i, data)]) (hk : (k + 1) * chunkSize + b = data.length) (hb : b ≤ chunkSize)
    (hz : HoweverFed zl level data (fun z => z.length + 20 ≤ b)) : ∃ w' iw' shas p,
    writePack H zl fuel bytesIORead sink (some sink) [i] none level {} {} = (w', iw', .ok shas) ∧ PackFile.load w'.data = .ok p ∧
    ∀ innerFuel fuel', k + 1 < innerFuel → ∃ o rest res, p.streamIter zl innerFuel (fuel' + 1) 0 = (o :: rest, res) ∧
      o.size = data.length ∧
      ((rest = [] ∧ ∃ e, res = .error e) ∨ ∃ o' rest', rest = o' :: rest' ∧ (o'.packOffset : Int) = (w'.data.length : Int) - 40) := by
  obtain ⟨w', iw', es, isha, h1, e1, e2, h2, h3, hix, hv, hd, h32⟩ :=
    written_spec zl L bytesIO_reads.toBoundedReads sink_stores sink_stores H fuel level [(i, data)] hp {} ⟨rfl, rfl⟩ {} ⟨rfl, rfl⟩
  refine ⟨w', iw', _, _, e1, by rw [h2.1]; exact packFile_load es _ h32, ?_⟩
  intro innerFuel fuel' hf
  cases h1 with
  | cons ha t =>
    cases t
    rename_i e
    obtain ⟨a1, a2, a3, a4, a7, pieces, a5, a6⟩ := ha
    have hat := packFile_entryAt hv (H.digest (packBody [e])) 0 (by simp)
    have h12 : offsetOf [e] 0 = 12 := rfl
    have hend := offsetOf_length [e] (H.digest (packBody [e]))
    have h12' : offsetOf [e] [e].length = 12 + e.bytes.length := by
      simp [offsetOf]
    rw [h12', H.len] at hend
    rw [h12] at hat
    simp only [List.getElem_cons_zero] at hat
    simp only at a3
    obtain ⟨l, l1, l2, l3⟩ := iterObjects_large L ⟨packFile [e] (H.digest (packBody [e])), 2, 1⟩ innerFuel fuel' 12 k b e hat
      (by simp only; omega) (by rw [a3]; exact hk) hb (by rw [a6]; exact hz pieces a5) hf
    have hl : l = 20 := l2 (by simp only; omega)
    subst hl
    refine ⟨_, _, _, l3, by simp [entryObj, a3], ?_⟩
    rw [h2.1]
    have hlen : ((12 + e.bytes.length : Nat) : Int) - (20 : Nat) = ((packFile [e] (H.digest (packBody [e]))).length : Int) - 40 := by omega
    rw [hlen]
    rcases iterObjects_first (zl := zl) ⟨packFile [e] (H.digest (packBody [e])), 2, 1⟩ innerFuel fuel'
      (((packFile [e] (H.digest (packBody [e]))).length : Int) - 40) (by simp only; omega) with ⟨x, hx⟩ | ⟨o, objs, ho, hoff⟩
    · exact .inl ⟨by rw [hx], x, by rw [hx]⟩
    · exact .inr ⟨o, objs, ho, hoff⟩

/-! ## An instance in the real format -/

/-- Stored blocks, except for one object. -/
def zerosEncode (data : Bytes) : Bytes := if data = zerosContent then zerosZip else storedZlib.emit (storedZlib.cinit 0) [data]

theorem zerosEncode_laws : ZlibLaws (zlib (buffering zerosEncode)) := by
  apply C67_any_encoding
  intro data
  unfold zerosEncode
  split
  · rename_i h
    rw [h]
    exact ⟨by rw [zerosZip_stop, zerosZip_length], by rw [feed_zeros, List.reverse_reverse]⟩
  · have h1 := storedZlib_laws.emit_stop 0 [data]
    have h2 := storedZlib_laws.emit_out 0 [data]
    unfold storedZlib at h1 h2 ⊢
    rw [zlib_stop] at h1
    rw [zlib_out] at h2
    exact ⟨h1, by simpa using h2⟩

theorem zeros_emit (level : Int) (pieces : List Bytes) (h : pieces.flatten = zerosContent) :
    (zlib (buffering zerosEncode)).emit ((zlib (buffering zerosEncode)).cinit level) pieces = zerosZip := by
  show (zlib (buffering zerosEncode)).emit [] pieces = _
  rw [buffering_emit, List.nil_append, h, zerosEncode, if_pos rfl]

/-- **C27** in the real format: a pack with one object of 4560001 zero bytes, whose compressed form has 80009 bytes.  However long it
is run, `stream_iter` does not yield just this object and end. -/
theorem C27_large_real (H : Hash) : ∃ (c : Compressor) (i : PackIn Bytes) (data : Bytes) (fuel : Nat) (w' iw' : BytesIO) (shas : Bytes × Option Bytes)
    (p : PackFile), ZlibLaws (zlib c) ∧ data = List.replicate 4560001 0 ∧
    Packable (fun s rem => s = rem) (zlib c) 1 fuel [(i, data)] ∧
    writePack H (zlib c) fuel bytesIORead sink (some sink) [i] none 1 {} {} = (w', iw', .ok shas) ∧ PackFile.load w'.data = .ok p ∧
    ∀ innerFuel fuel' o, 1 < innerFuel → p.streamIter (zlib c) innerFuel fuel' 0 ≠ ([o], .ok ()) := by
  have L := zerosEncode_laws
  have hem := zeros_emit
  generalize hc : buffering zerosEncode = cc at L hem
  have hlen := zerosContent_length
  obtain ⟨data, hdata⟩ : ∃ d, d = zerosContent := ⟨_, rfl⟩
  obtain ⟨fuel, hfuel⟩ : ∃ n, 4560001 < n := ⟨_, Nat.lt_succ_self _⟩
  rw [← hdata] at hlen hem
  obtain ⟨i, hi⟩ : ∃ i : PackIn Bytes, i = ⟨3, data.length, List.replicate 20 7, data⟩ := ⟨_, rfl⟩
  have hp : Packable (fun s rem => s = rem) (zlib cc) 1 fuel [(i, data)] := by
    refine ⟨⟨?_, ?_, ?_, ?_, ?_⟩, by simp⟩
    · intro q hq
      simp only [List.mem_singleton] at hq
      subst hq
      exact ⟨by rw [hi], by rw [hi], by rw [hlen]; exact hfuel⟩
    · intro q hq
      simp only [List.mem_singleton] at hq
      subst hq
      rw [hi]; rfl
    · intro q hq
      simp only [List.mem_singleton] at hq
      subst hq
      rw [hi]; rfl
    · simp
    · intro es h
      cases h with
      | cons h t =>
        cases t
        rename_i e
        obtain ⟨a1, a2, a3, a4, a7, pieces, a5, a6⟩ := h
        simp only at a3 a5
        have hh := a7 8 (by rw [a3, hlen]; decide)
        have he : e.ext = [] := by
          have := a4.ext
          rw [a2] at this
          exact this.2.2
        have hzl : e.zip.length = 80009 := by rw [a6, hem 1 pieces a5, zerosZip_length]
        simp only [List.flatMap_cons, List.flatMap_nil, List.append_nil, Packed.bytes, List.length_append, hzl, he]
        exact Nat.lt_of_le_of_lt (Nat.add_le_add_left (Nat.add_le_add_right hh _) _) (by decide)
  obtain ⟨w', iw', shas, p, h1, h2, h3⟩ := C27_large (zlib cc) L H fuel 1 i data 0 464001 hp
    (by rw [hlen]; decide) (by decide) (by intro pieces hpc; rw [hem 1 pieces hpc, zerosZip_length]; decide)
  refine ⟨cc, i, data, fuel, w', iw', shas, p, L, by rw [hdata, zerosContent_eq], hp, h1, h2, ?_⟩
  intro innerFuel fuel' o hin heq
  cases fuel' with
  | zero => simp [PackFile.streamIter, PackFile.iterObjects] at heq
  | succ fuel' =>
    obtain ⟨o1, rest, res, k1, _, k2⟩ := h3 innerFuel fuel' hin
    rw [k1] at heq
    simp only [Prod.mk.injEq, List.cons.injEq] at heq
    obtain ⟨⟨_, rfl⟩, rfl⟩ := heq
    rcases k2 with ⟨_, e, he⟩ | ⟨_, _, he, _⟩
    · simp at he
    · simp at he

end GitDB.Props
