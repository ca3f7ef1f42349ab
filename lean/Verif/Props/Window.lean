import Verif.Proofs.Window
import Verif.Props.AnyBytes
import Verif.Props.PackDelta
/-!
# C70: packs larger than a window
-/
set_option autoImplicit false

namespace GitDB.Props
open GitDB Spec Deflate

variable {zl : Zlib}

/-! ## Regions that contain what is looked at -/

/-- **C70** if every region reaches to the end of the file, nothing differs from a file that is mapped as a whole. -/
theorem C70_one_window (w : Regions) (p : PackEntity) (hw : ∀ off, p.pack.data.length ≤ w off) :
    (∀ off, packObjectAtW w p.pack.data off = packObjectAt p.pack.data off) ∧
    (∀ fuel off, p.pack.collectStreamsW w fuel off = p.pack.collectStreams fuel off) ∧
    (∀ zl inner fuel cur, p.pack.iterObjectsW zl w inner fuel cur = p.pack.iterObjects zl inner fuel cur) ∧
    (∀ fuel sha, p.isValidCrcW w fuel sha = p.isValidCrc fuel sha) := by
  have h1 : ∀ off, packObjectAtW w p.pack.data off = packObjectAt p.pack.data off := by
    intro off
    unfold packObjectAtW
    rw [List.take_of_length_le (hw off)]
  refine ⟨h1, ?_, ?_, ?_⟩
  · intro fuel
    induction fuel with
    | zero => intro off; rfl
    | succ fuel ih =>
      intro off
      rw [PackFile.collectStreamsW, PackFile.collectStreams, h1]
      simp only [ih]
      rfl
  · intro zl inner fuel
    induction fuel with
    | zero => intro cur; rfl
    | succ fuel ih =>
      intro cur
      rw [PackFile.iterObjectsW, PackFile.iterObjects, h1]
      simp only [ih]
      rfl
  · intro fuel sha
    unfold PackEntity.isValidCrcW PackFile.dataW
    rw [List.take_of_length_le (hw 0)]

/-- **C70** however large the pack is: an entry that lies in its region is read as if the file were mapped as a whole. -/
theorem C70_entry (L : ZlibLaws zl) (w : Regions) (pack : Bytes) (off : Nat) (e : Packed) (h : EntryAt zl pack off e)
    (hw : off + e.bytes.length ≤ w off) :
    ∃ o, packObjectAtW w pack off = .ok o ∧ Presents zl (off, e) o ∧ o.info = kindInfo e.kind ∧
      o.dataOff = off + (e.hdr ++ e.ext).length :=
  ⟨_, packObjectAt_spec (entryAt_take h _ hw), presents_chainObj L (x := (off, e)) (entryAt_take h _ hw), rfl, rfl⟩

/-- **C70** the same for chains of offset deltas: each entry of the chain has to lie in its own region. -/
theorem C70_chain (L : ZlibLaws zl) (w : Regions) (p : PackFile) (find : Bytes → Option Nat) (off : Nat)
    (a : List (Nat × Packed)) (o : Nat) (e : Packed) (t : List (Nat × Packed))
    (hc : Chain zl p.data find off (a ++ (o, e) :: t)) (ha : ∀ x ∈ a, x.2.kind.isOfs = true) (he : e.kind.isOfs = false)
    (hw : ∀ x ∈ a ++ [(o, e)], x.1 + x.2.bytes.length ≤ w x.1) (fuel : Nat) (hf : a.length < fuel) :
    ∃ objs, p.collectStreamsW w fuel off = .ok objs ∧ All2 (Presents zl) (a ++ [(o, e)]) objs := by
  refine ⟨_, collectStreamsW_spec w p a off o e t fuel hc ha he hw hf, all2_map _ _ fun x hx => ?_⟩
  refine presents_chainObj L (entryAt_take (chain_entries hc x ?_) _ (hw x hx))
  simp only [List.mem_append, List.mem_cons, List.not_mem_nil, or_false] at hx ⊢
  exact hx.imp id .inl

/-! ## Entries that cross the end of their region -/

/-- **C70** an entry whose compressed data crosses the end of the region is opened as usual, with its full size, but no sequence of
reads raises or delivers more than what the visible part decompresses to. -/
theorem C70_cut (L : ZlibLaws zl) (w : Regions) (pack : Bytes) (off : Nat) (e : Packed) (h : EntryAt zl pack off e)
    (h1 : off + (e.hdr ++ e.ext).length ≤ w off) (h2 : w off ≤ off + e.bytes.length) :
    ∃ o, packObjectAtW w pack off = .ok o ∧ o.packOffset = off ∧ o.typeId = e.kind.typeId ∧ o.size = e.content.length ∧
      ∀ ns, ∃ r ps, readMany (Reader.read zl) o.stream ns = (r, .ok ps) ∧
        ps.flatten <+: zl.out (e.zip.take (w off - (off + (e.hdr ++ e.ext).length))) ∧ ps.flatten <+: e.content := by
  refine ⟨_, packObjectAt_cut h _ h1 h2, rfl, rfl, rfl, ?_⟩
  intro ns
  obtain ⟨r, ps, e1, e2, e3⟩ := C69_truncated zl L e.zip _ _ h.1.zip (w off - (off + (e.hdr ++ e.ext).length)) e.content.length ns
  exact ⟨r, ps, e1, e3, e2⟩

/-- **C70** so if the visible part does not decompress to the whole object, no sequence of reads delivers the object. -/
theorem C70_cut_never_complete (L : ZlibLaws zl) (w : Regions) (pack : Bytes) (off : Nat) (e : Packed) (h : EntryAt zl pack off e)
    (h1 : off + (e.hdr ++ e.ext).length ≤ w off) (h2 : w off ≤ off + e.bytes.length)
    (hs : (zl.out (e.zip.take (w off - (off + (e.hdr ++ e.ext).length)))).length < e.content.length) :
    ∃ o, packObjectAtW w pack off = .ok o ∧ o.size = e.content.length ∧
      ∀ ns, ∃ r ps, readMany (Reader.read zl) o.stream ns = (r, .ok ps) ∧ ps.flatten.length < o.size := by
  obtain ⟨o, e1, -, -, e4, e5⟩ := C70_cut L w pack off e h h1 h2
  refine ⟨o, e1, e4, ?_⟩
  intro ns
  obtain ⟨r, ps, k1, k2, -⟩ := e5 ns
  exact ⟨r, ps, k1, by rw [e4]; exact Nat.lt_of_le_of_lt k2.length_le hs⟩

/-- **C70** an entry whose header crosses the end of the region: `IndexError`. -/
theorem C70_cut_header (w : Regions) (pack : Bytes) (off : Nat) (e : Packed) (h : EntryAt zl pack off e)
    (h1 : w off < off + e.hdr.length) : packObjectAtW w pack off = .error .indexError := by
  obtain ⟨hv, rest, hd⟩ := h
  obtain ⟨b, bs, k1, k2, -, -⟩ := hv.head
  obtain ⟨pre, last, j1, j2, -⟩ := k2
  have hcut : (pack.take (w off)).drop off = pre.take (w off - off) := by
    have hl : e.hdr.length = pre.length + 1 := by rw [j1]; simp
    rw [List.drop_take, hd, Packed.bytes, j1]
    simp only [List.append_assoc]
    rw [List.take_append_of_le_length (by omega)]
  unfold packObjectAtW packObjectAt
  simp only [hcut, packObjectHeaderInfo_trunc (fun b hb => j2 b (List.mem_of_mem_take hb))]

/-- **C70** iteration notices: at an entry cut in this way it stops with `AssertionError`. -/
theorem C70_cut_iteration (L : ZlibLaws zl) (w : Regions) (p : PackFile) (off : Nat) (e : Packed) (h : EntryAt zl p.data off e)
    (h1 : off + (e.hdr ++ e.ext).length ≤ w off) (h2 : w off ≤ off + e.bytes.length)
    (hs : (zl.out (e.zip.take (w off - (off + (e.hdr ++ e.ext).length)))).length < e.content.length)
    (hoff : off + 20 < p.data.length) (inner fuel : Nat) (hi : e.content.length ≤ inner) :
    p.iterObjectsW zl w inner (fuel + 1) off = ([], .error .assertionError) := by
  rw [PackFile.iterObjectsW, if_pos (by omega), if_neg (by omega)]
  rw [Int.toNat_natCast, packObjectAtW, packObjectAt_cut h _ h1 h2]
  generalize hm : e.zip.take (w off - (off + (e.hdr ++ e.ext).length)) = m at hs
  have hg : zl.bad m = false := by
    rw [← hm]
    simpa using not_bad_take zl L e.zip _ _ h.1.zip (w off - (off + (e.hdr ++ e.ext).length))
  simp only [entryObj]
  obtain ⟨r', k1, k2, k3, k4, k5⟩ := copy_any L m hg chunkSize (by decide) 0 inner (Reader.ofSize m e.content.length)
    (anyR_ofSize m _ (by omega)) rfl (by simp only [Reader.ofSize]; omega) (by simp only [Reader.ofSize]; omega)
    (by simp [Reader.ofSize])
  have k1' : streamCopy inner (Reader.read zl) nullWrite (e.content.length : Int) chunkSize (Reader.ofSize m e.content.length) () =
      (r', (), .ok r'.br) := k1
  rw [k1']
  simp only
  have hne : r'.br ≠ (e.content.length : Int) := by have := k2.br0; omega
  exact if_pos hne

/-! ## `data()` is the first region only -/

/-- **C70** `is_valid_stream(sha, use_crc=True)` for an object behind the first region: the pack is not looked at, and the answer is
whether the stored crc is zero. -/
theorem C70_crc_beyond (w : Regions) (p : PackEntity) (sha : Bytes) (i o c : Nat) (offs : List Nat)
    (hv : 2 ≤ p.index.version) (hi : p.index.shaToIndex sha = .ok (some i)) (ho : p.index.offset i = .ok o)
    (hc : p.index.crc i = .ok c) (hof : p.index.offsets = .ok offs) (hm : o ∈ offs) (hw : w 0 ≤ o) (fuel : Nat)
    (hf : p.pack.data.length < fuel ∧ ∀ x ∈ offs, x < fuel) :
    p.isValidCrcW w fuel sha = .ok (decide (c = 0)) := by
  obtain ⟨next, -, h⟩ := C28_compares { p with pack := { p.pack with data := p.pack.dataW w } } sha i o c offs hv hi ho hc hof hm fuel
    ⟨by simp only [PackFile.dataW, List.length_take]; omega, hf.2⟩
  unfold PackEntity.isValidCrcW
  rw [h]
  have hd : (p.pack.dataW w).drop o = [] := List.drop_eq_nil_of_le (by rw [PackFile.dataW, List.length_take]; omega)
  simp only [hd, List.take_nil, crc32_nil, eq_comm]

/-- **C70** for an object in the first region, with the next object starting there too, the crc is that of the bytes of the object. -/
theorem C70_crc_within (w : Regions) (p : PackEntity) (sha : Bytes) (i o c n : Nat) (offs : List Nat)
    (hv : 2 ≤ p.index.version) (hi : p.index.shaToIndex sha = .ok (some i)) (ho : p.index.offset i = .ok o)
    (hc : p.index.crc i = .ok c) (hof : p.index.offsets = .ok offs) (hm : o ∈ offs) (fuel : Nat)
    (hf : p.pack.data.length < fuel ∧ ∀ x ∈ offs, x < fuel)
    (hn : n ∈ offs ∧ o < n ∧ ∀ x ∈ offs, o < x → n ≤ x) (hw : n ≤ w 0) :
    p.isValidCrcW w fuel sha = .ok (decide (crc32 ((p.pack.data.drop o).take (n - o)) 0 = c)) := by
  obtain ⟨next, h1, h⟩ := C28_compares { p with pack := { p.pack with data := p.pack.dataW w } } sha i o c offs hv hi ho hc hof hm fuel
    ⟨by simp only [PackFile.dataW, List.length_take]; omega, hf.2⟩
  have hnext : next = n := by
    rcases h1 with ⟨a1, a2, a3⟩ | ⟨-, a2⟩
    · have := a3 n hn.1 hn.2.1
      have := hn.2.2 next a1 a2
      omega
    · have := a2 n hn.1; omega
  unfold PackEntity.isValidCrcW
  rw [h, hnext]
  have hd : ((p.pack.dataW w).drop o).take (n - o) = (p.pack.data.drop o).take (n - o) := by
    rw [PackFile.dataW, List.drop_take, List.take_take, Nat.min_eq_left (by omega)]
  simp only [hd]

/-- **C70** the index of a pack with `n` objects cannot be opened if `28 n + 1072` exceeds the size of a window, although the pack is
valid. -/
theorem C70_index (window : Nat) (h0 : 0 < window) (es : List Entry) (hv : ∀ e ∈ es, e.name.length = 20) (packSha idxSha : Bytes)
    (h1 : packSha.length = 20) (h2 : idxSha.length = 20) (hw : window < 28 * es.length + 1072) :
    IndexFile.loadW window (indexV2 es packSha idxSha) = .error .assertionError := by
  unfold IndexFile.loadW
  rw [if_pos]
  refine ⟨h0, ?_⟩
  unfold indexV2
  simp only [List.length_append, fan_bytes_length, v2_names_length es hv, v2_crc_length, v2_ofs_length, h1, h2]
  simp only [u32, List.length_cons, List.length_nil]
  omega

/-! ## Examples -/

/-- A blob of eight bytes in the real format. -/
def eightE : Packed := ⟨List.replicate 20 1, .whole 3, eightContent, [0x38], [], eightZip⟩

theorem eightE_valid : eightE.Valid storedZlib :=
  ⟨⟨0x38, [], rfl, ⟨[], 0x38, rfl, by simp, by decide⟩, by decide, by decide⟩, ⟨by decide, by decide, rfl⟩,
    isZip_of storing (by decide +kernel) (by decide +kernel)⟩

def eightPack : Bytes := packFile [eightE] (List.replicate 20 0)

theorem eight_at : EntryAt storedZlib eightPack 12 eightE := ⟨eightE_valid, List.replicate 20 0, by decide +kernel⟩

/-- The region ends after the third letter: this, and nothing else, is read. -/
example : ((packObjectAtW (fun _ => 23) eightPack 12).map fun o => (o.size, (o.stream.read storedZlib (-1)).2)) = .ok (8, .ok [97, 98, 99]) := by
  decide +kernel
example := C70_cut_never_complete storedZlib_laws (fun _ => 23) eightPack 12 eightE eight_at (by decide) (by decide) (by decide +kernel)
example := C70_cut_iteration storedZlib_laws (fun _ => 23) ⟨eightPack, 2, 1⟩ 12 eightE eight_at (by decide) (by decide) (by decide +kernel) (by decide) 8 5
  (by decide)
example := C70_entry storedZlib_laws (fun _ => 32) eightPack 12 eightE eight_at (by decide)
example := C70_cut_header (fun _ => 12) eightPack 12 eightE eight_at (by decide)
example := C70_index (2 ^ 30) (by decide) (List.replicate 38347885 ⟨List.replicate 20 1, 0, 12⟩)
  (fun e he => by rw [(List.mem_replicate.1 he).2]; rfl) (List.replicate 20 0) (List.replicate 20 0) rfl rfl
  (by rw [List.length_replicate]; decide)
/-- The index of that pack, with a wrong crc. -/
def eightIx : IndexFile :=
  ⟨indexV2 [⟨List.replicate 20 1, 5, 12⟩] [] [], 2, List.replicate 1 0 ++ List.replicate 255 1, 1052, 1056, 1060⟩
example : IndexFile.load eightIx.map = .ok eightIx := by decide +kernel
example := C70_crc_beyond (fun _ => 12) ⟨eightIx, ⟨eightPack, 2, 1⟩⟩ (List.replicate 20 1) 0 12 5 [12] (by decide) (by decide +kernel)
  (by decide +kernel) (by decide +kernel) (by decide +kernel) (by decide) (by decide) 70 (by decide +kernel)
/-- With an index that names a second object at 32. -/
def eightIx2 : IndexFile :=
  ⟨indexV2 [⟨List.replicate 20 1, 5, 12⟩, ⟨List.replicate 20 2, 5, 32⟩] [] [], 2,
    List.replicate 1 0 ++ List.replicate 1 1 ++ List.replicate 254 2, 1072, 1080, 1088⟩
example := C70_crc_within (fun _ => 40) ⟨eightIx2, ⟨eightPack, 2, 1⟩⟩ (List.replicate 20 1) 0 12 5 32 [12, 32] (by decide) (by decide +kernel)
  (by decide +kernel) (by decide +kernel) (by decide +kernel) (by decide) 70 (by decide +kernel) (by decide) (by decide)
example : Regions.Sound (fun off => off + 1) eightPack := fun off _ => by simp

end GitDB.Props
