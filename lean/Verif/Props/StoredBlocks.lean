import Verif.Proofs.StoredStall
import Verif.Props.OneBlock
import Verif.Props.Pack
/-!
# C74: objects in stored blocks

With `zlib_compression=0` a compressor emits stored blocks, and an object of more than 65535 bytes needs several.  Unlike other
streams of several blocks these are read exactly.
-/
set_option autoImplicit false

namespace GitDB.Props
open GitDB Spec Deflate

/-- A compressed stream of stored blocks, none of them empty, and a last block, stored or with the fixed codes (RFC 1951, 3.2.3 and
3.2.4).  Five bits of the first byte of a stored block have no meaning. -/
def StoredBlocks (m : Bytes) : Prop :=
  ∃ (cmf flg : UInt8) (blocks : List (UInt8 × Bytes)) (last : UInt8) (rest : Bytes),
    (∀ p ∈ blocks, p.1.toNat % 8 = 0 ∧ p.2 ≠ [] ∧ p.2.length ≤ 65535) ∧ (last.toNat % 8 = 1 ∨ last.toNat % 8 = 3) ∧
    m = [cmf, flg] ++ (blocks.flatMap fun p => [p.1, UInt8.ofNat p.2.length, UInt8.ofNat (p.2.length / 256),
      UInt8.ofNat (65535 - p.2.length), UInt8.ofNat ((65535 - p.2.length) / 256)] ++ p.2) ++ [last] ++ rest

theorem StoredBlocks.noStall {m : Bytes} (h : StoredBlocks m) (c : Compressor) : NoStall (zlib c) m := by
  obtain ⟨cmf, flg, blocks, last, rest, h1, h2, rfl⟩ := h
  have e : [cmf, flg] ++ (blocks.flatMap fun p => [p.1, UInt8.ofNat p.2.length, UInt8.ofNat (p.2.length / 256),
      UInt8.ofNat (65535 - p.2.length), UInt8.ofNat ((65535 - p.2.length) / 256)] ++ p.2) ++ [last] ++ rest =
      cmf :: flg :: ((blocks.map storedPart).flatten ++ last :: rest) := by
    simp only [List.append_assoc, List.singleton_append, List.cons_append, List.nil_append, List.flatMap_def]
    rfl
  rw [e]
  exact parts_noStall c cmf flg blocks h1 last h2 rest

/-- **C74** an object in stored blocks is read exactly, with reads of any sizes. -/
theorem C74_stored (c : Compressor) (L : ZlibLaws (zlib c)) (m : Bytes) (clen : Nat) (content : Bytes)
    (hm : IsZip (zlib c) m clen content) (h : StoredBlocks m) (ns : List Int) :
    ∃ r ps, readMany (Reader.read (zlib c)) (Reader.ofSize m content.length) ns = (r, .ok ps) ∧
      ps.flatten = content.take (readLen content.length ns) :=
  C14_size_mode_partial (zlib c) L m clen content hm (h.noStall c) ns

/-- **C74** so are all objects of a pack written by a compressor that stores: what C26 says with exceptions holds without, for objects of
any size and reads of any sizes. -/
theorem C74_packs {σ ω ρ ω₂ ρ₂ : Type} {read : σ → Int → σ × Res Bytes} {write : ω → Bytes → ω × Res ρ}
    {iwrite : ω₂ → Bytes → ω₂ × Res ρ₂} {Rep : σ → Bytes → Prop} {WRep : ω → Bytes → Prop} {IRep : ω₂ → Bytes → Prop}
    (hr : BoundedReads read Rep) (hw : ∀ cap, Stores write WRep cap) (hi : ∀ cap, Stores iwrite IRep cap) (H : Hash)
    (fuel : Nat) (level : Int) (l : List (PackIn σ × Bytes)) (hl : Packable Rep storedZlib level fuel l)
    (w : ω) (ho : WRep w []) (iw : ω₂) (hio : IRep iw []) : ∃ w' iw' psha isha pk ix p x,
    writePack H storedZlib fuel read write (some iwrite) (l.map Prod.fst) none level w iw =
      (w', iw', .ok (psha, some isha)) ∧ WRep w' pk ∧ IRep iw' ix ∧
    PackFile.load pk = .ok p ∧ IndexFile.load ix = .ok x ∧
    ∀ q ∈ l, ∀ fuel', ∃ o nm, typeName q.1.typeId = some nm ∧
      PackEntity.stream ⟨x, p⟩ fuel' q.1.sha = .ok o ∧ o.sha = q.1.sha ∧ o.type = .bytes nm ∧
      o.getSize storedZlib fuel' = .ok q.2.length ∧
      PackEntity.info storedZlib ⟨x, p⟩ fuel' q.1.sha = .ok (.bytes nm, q.2.length) ∧
      ∀ ns : List Int, ∃ s' ps, readMany (PStream.read storedZlib fuel') o.stream ns = (s', .ok ps) ∧
        ps.flatten = q.2.take (readLen q.2.length ns) := by
  obtain ⟨w', iw', psha, isha, pk, ix, p, x, h1, h2, h3, h4, h5, h6⟩ :=
    C26_roundtrip_partial storedZlib storedZlib_laws hr hw hi H fuel level l hl w ho iw hio
  refine ⟨w', iw', psha, isha, pk, ix, p, x, h1, h2, h3, h4, h5, fun q hq fuel' => ?_⟩
  obtain ⟨o, nm, k1, k2, k3, k4, k5, k6, -, k8⟩ := h6 q hq fuel'
  exact ⟨o, nm, k1, k2, k3, k4, k5, k6, k8 fun ps _ => stored_noStall level ps⟩

theorem stored_entry_length {q : PackIn Bytes × Bytes} {level : Int} {e : Packed} (h : EntryOf storedZlib level q e)
    (hq : q.2.length < 2 ^ 60) : e.bytes.length ≤ 6 * q.2.length + 20 := by
  obtain ⟨a1, a2, a3, a4, a7, pieces, a5, a6⟩ := h
  have hz : e.zip.length ≤ 6 * q.2.length + 11 := by
    have := emit_length pieces (false, [])
    rw [a6, show storedZlib.emit (storedZlib.cinit level) pieces = storedZlib.emit (false, []) pieces from rfl, ← a5]
    have h2 : (zhead (false, ([] : Bytes)).1).length = 2 := rfl
    omega
  have hh := a7 8 (by rw [a3]; exact hq)
  have he : e.ext = [] := by
    have := a4.ext
    rw [a2] at this
    exact this.2.2
  simp only [Packed.bytes, List.length_append, he, List.length_nil]
  omega

theorem twoBlobs_storable (n : Nat) (hn : n < 2 ^ 59) :
    Packable (fun s rem => s = rem) storedZlib 0 (n + 2) (twoBlobs n) where
  good := by simp [twoBlobs]
  type := by simp [twoBlobs, typeName]
  names := by simp [twoBlobs]
  distinct := by simp [twoBlobs, List.replicate]
  count := by simp [twoBlobs]
  size := by
    intro es h
    cases h with
    | cons h t =>
      cases t with
      | cons h' t' =>
        cases t'
        have h1 := stored_entry_length h (by simp only [List.length_replicate]; omega)
        have h2 := stored_entry_length h' (by simp)
        simp only [List.length_replicate, List.length_cons, List.length_nil] at h1 h2
        simp only [List.flatMap_cons, List.flatMap_nil, List.append_nil, List.length_append]
        omega

/-- Two blocks and an empty last one. -/
def exThree : Bytes := [0x78, 0x01] ++ ([0xa8, 2, 0, 0xfd, 0xff] ++ [7, 8]) ++ ([0, 1, 0, 0xfe, 0xff] ++ [9]) ++ [1] ++
    [0, 0, 0xff, 0xff, 0, 0x31, 0, 0x19]

example := C74_stored storing storedZlib_laws exThree 24 [7, 8, 9] ⟨by decide +kernel, by decide +kernel⟩
  ⟨0x78, 0x01, [(0xa8, [7, 8]), (0, [9])], 1, _, by decide, by decide, rfl⟩ [1, 1, 5]
example (n : Nat) (hn : n < 2 ^ 59) := C74_packs bytesIO_reads.toBoundedReads
  sink_stores sink_stores lenHash (n + 2) 0 (twoBlobs n) (twoBlobs_storable n hn) {} ⟨rfl, rfl⟩ {} ⟨rfl, rfl⟩

end GitDB.Props
