import Verif.Props.Pack
import Verif.Proofs.PadZlib
/-!
# C26 with a compressor that stalls
-/
set_option autoImplicit false

namespace GitDB.Props
open GitDB Spec

/-- The full statement of **C26**: every read of every object gives the content. -/
def C26_full : Prop :=
  ∀ (zl : Zlib), ZlibLaws zl → ∀ (H : Hash) (fuel : Nat) (level : Int) (l : List (PackIn Bytes × Bytes)),
    Packable (fun s rem => s = rem) zl level fuel l → ∀ (w' iw' : BytesIO) (shas : Bytes × Option Bytes)
      (p : PackFile) (x : IndexFile),
    writePack H zl fuel bytesIORead sink (some sink) (l.map Prod.fst) none level {} {} = (w', iw', .ok shas) →
    PackFile.load w'.data = .ok p → IndexFile.load iw'.data = .ok x →
    ∀ q ∈ l, ∃ o, PackEntity.stream ⟨x, p⟩ (l.length + 2) q.1.sha = .ok o ∧
      (o.stream.read zl fuel (-1)).2 = .ok q.2

/-- One blob with one byte. -/
def oneByte : List (PackIn Bytes × Bytes) := [(⟨3, 1, List.replicate 20 7, [65]⟩, [65])]

theorem padZlib_one (ps : List Bytes) (h : ps.flatten = [65]) :
    padZlib.emit () ps = padding ++ [254, 65, 255] := by
  have emit_flat : ∀ ps : List Bytes, padZlib.emit () ps = (ps.flatten.flatMap fun b => padding ++ [254, b]) ++ [255] := by
    intro ps
    induction ps with
    | nil => rfl
    | cons d ds ih =>
      have : padZlib.emit () (d :: ds) = (d.flatMap fun b => padding ++ [254, b]) ++ padZlib.emit () ds := rfl
      rw [this, ih]
      simp
  rw [emit_flat, h]
  rfl

theorem oneByte_packable : Packable (fun s rem => s = rem) padZlib 1 9 oneByte where
  good := by simp [oneByte]
  type := by simp [oneByte, typeName]
  names := by simp [oneByte]
  distinct := by simp [oneByte]
  count := by decide
  size := by
    intro es h
    cases h with
    | cons h t =>
      cases t
      rename_i e
      obtain ⟨a1, a2, a3, a4, a7, pieces, a5, a6⟩ := h
      have hz : e.zip = padding ++ [254, 65, 255] := by rw [a6]; exact padZlib_one pieces a5
      have hh : e.hdr.length ≤ 0 + 1 := a7 0 (by rw [a3]; decide)
      have he : e.ext = [] := by
        have := a4.ext
        rw [a2] at this
        exact this.2.2
      simp only [List.flatMap_cons, List.flatMap_nil, Packed.bytes, hz, he, List.append_nil, List.length_append]
      have : (padding : Bytes).length = 16 := rfl
      simp only [List.length_cons, List.length_nil]
      omega

/-- Reading from the compressed form, with the checksum of the pack after it. -/
theorem pad_read_empty (rest : Bytes) (h : rest.length = 20) :
    ((Reader.ofSize (padding ++ [254, 65, 255] ++ rest) 1).read padZlib (-1)).2 = .ok [] := by
  iterate 20 (rcases rest with _ | ⟨_, rest⟩; · simp at h)
  rcases rest with _ | ⟨_, rest⟩
  · rfl
  · simp at h

/-- **C26** fails: the compressor emits more than eight bytes before any output is determined, and the content
`"A"` is read as the empty string. -/
theorem C26_not_full : ¬ C26_full := by
  intro h
  obtain ⟨w', iw', es, isha, h1, e1, e2, h2, h3, hix, hv, hd, h32⟩ := written_spec padZlib padZlib_laws
    bytesIO_reads.toBoundedReads sink_stores sink_stores lenHash 9 1 oneByte oneByte_packable {} ⟨rfl, rfl⟩ {} ⟨rfl, rfl⟩
  obtain ⟨o, ho, hrd⟩ := h padZlib padZlib_laws lenHash 9 1 oneByte oneByte_packable w' iw' _ _ _ e1
    (by rw [h2.1]; exact packFile_load es _ h32) (by rw [h3.1]; exact v2_load _ _ _ (hix.perm (sortObjs_perm _)).valid)
    _ (List.mem_singleton.2 rfl)
  cases h1 with
  | cons hq ht =>
    cases ht
    rename_i e
    obtain ⟨a1, a2, a3, a4, a7, pieces, a5, a6⟩ := hq
    have hz : e.zip = padding ++ [254, 65, 255] := by rw [a6]; exact padZlib_one pieces a5
    obtain ⟨j, b1, b2, b3⟩ := (lists_written [e] (lenHash.digest (packBody [e])) isha hix hd).find 0 (by simp)
    rw [show [e][0].name = List.replicate 20 7 from a1] at b1
    have hat := packFile_entryAt hv (lenHash.digest (packBody [e])) 0 (by simp)
    obtain ⟨s1, -⟩ := stream_whole (zl := padZlib) ⟨v2File ((sortObjs (idxOf 12 [e])).map IdxObj.toEntry)
        (lenHash.digest (packBody [e])) isha, ⟨packFile [e] (lenHash.digest (packBody [e])), 2, 1⟩⟩ (List.replicate 20 7) 12
      ⟨by decide, j, b1, b2⟩ e hat 3 a2 _ rfl 3
    have hos := ho.symm.trans s1
    rw [Except.ok.injEq] at hos
    rw [hos] at hrd
    have hdat : (packFile [e] (lenHash.digest (packBody [e]))).drop (12 + (e.hdr ++ e.ext).length) =
        padding ++ [254, 65, 255] ++ lenHash.digest (packBody [e]) := by
      rw [← hz, ← List.drop_drop]
      have : (packFile [e] (lenHash.digest (packBody [e]))).drop 12 =
          (e.hdr ++ e.ext) ++ (e.zip ++ lenHash.digest (packBody [e])) := by
        simp [packFile, packBody, Packed.bytes, u32]
      rw [this, List.drop_left]
    simp only [PStream.read, PStream.open, entryObj] at hrd
    rw [hdat, a3] at hrd
    have := pad_read_empty _ (lenHash.len (packBody [e]))
    have := this.symm.trans hrd
    simp at this

end GitDB.Props
