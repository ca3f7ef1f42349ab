import Verif.Proofs.PlainZlib
import Verif.Proofs.Stream
/-!
# C11-C16 and C04: the decompressing reader

`IsZip zl m clen content`: the buffer `m` starts with a compressed stream of `clen` bytes whose
decompressed form is `content`; anything may follow.  "size mode" is a reader created with the size of the
object (packs), "object mode" one created by `DecompressMemMapReader.new` from a header and data (loose
objects).
-/
set_option autoImplicit false

namespace GitDB.Props
open GitDB Spec

/-- The decompressed form of a loose object. -/
abbrev object (ty ds data : Bytes) : Bytes := ty ++ [0x20] ++ ds ++ [0] ++ data

/-- Its header. -/
abbrev objHead (ty ds : Bytes) : Bytes := ty ++ [0x20] ++ ds ++ [0]

/-! ## C04 -/

/-- **C04** `loose_object_header_info` on a compressed object finds type and size; the header must not
be longer than 8192 bytes. -/
theorem C04_loose_object_header_info (zl : Zlib) (L : ZlibLaws zl) (m : Bytes) (clen : Nat)
    (ty ds data : Bytes) (n : Nat) (hd : IsDecimal ds n) (ht : ∀ c ∈ ty, c ≠ 0x20 ∧ c ≠ 0)
    (hm : IsZip zl m clen (object ty ds data)) (hlen : (objHead ty ds).length ≤ 8192) :
    looseObjectHeaderInfo zl m = .ok (ty, (n : Int)) := by
  have hgood := zip_good L hm m.length
  have hstop := hm.stop
  have hout := hm.out
  rw [List.take_length] at hgood
  have hdec : ∃ z k, ZDec.decompress zl {} m maxHeader =
      (z, .ok (objHead ty ds ++ data.take k)) := by
    unfold ZDec.decompress
    rw [if_neg (by simp), if_neg (by simp), if_neg (by simp)]
    simp only [List.nil_append, hgood, hstop, hout, List.drop_zero]
    split
    · have : (object ty ds data).take (maxHeader : Int).toNat =
          objHead ty ds ++ data.take (maxHeader - (objHead ty ds).length) := by
        rw [Int.toNat_natCast]
        show (objHead ty ds ++ data).take maxHeader = _
        rw [List.take_append, List.take_of_length_le (show _ ≤ maxHeader from hlen)]
      rw [this]
      exact ⟨_, _, rfl⟩
    · have : object ty ds data = objHead ty ds ++ data.take data.length := by rw [List.take_length]
      rw [this]
      exact ⟨_, _, rfl⟩
  obtain ⟨z, k, e⟩ := hdec
  unfold looseObjectHeaderInfo
  rw [e, show objHead ty ds ++ data.take k = ty ++ [0x20] ++ ds ++ [0] ++ data.take k from rfl]
  simp only [parseObjectHeader_spec ty ds _ n hd ht]

/-! ## C11 -/

/-- **C11** (size mode) all reads succeed and the pieces returned are consecutive pieces of the content
starting at its beginning, never more than `size` bytes, for every sequence of read calls. -/
theorem C11_size_mode (zl : Zlib) (L : ZlibLaws zl) (m : Bytes) (clen : Nat) (content : Bytes)
    (hm : IsZip zl m clen content) (size : Nat) (ns : List Int) :
    ∃ r ps, readMany (Reader.read zl) (Reader.ofSize m size) ns = (r, .ok ps) ∧
      ps.flatten <+: content ∧ ps.flatten.length ≤ size := by
  obtain ⟨r, ps, h1, h2, h3, h4, h5, _⟩ := readMany_reader L hm 0 ns (Reader.ofSize m size)
    (rinv_ofSize L hm size (by omega)) rfl
  refine ⟨r, ps, h1, ?_, ?_⟩
  · rw [h3]
    simp only [Reader.ofSize, Int.toNat_zero, Nat.add_zero, List.drop_zero]
    exact List.take_prefix _ _
  · have := h2.br_le
    rw [h5, h4] at this
    simp only [Reader.ofSize] at this
    omega

/-- **C11** (object mode) opening succeeds with the right type and size, all reads succeed and return
consecutive pieces of the data.  The header must come out of the first 8192 compressed bytes. -/
theorem C11_object_mode (zl : Zlib) (L : ZlibLaws zl) (m : Bytes) (clen : Nat) (ty ds data : Bytes)
    (hd : IsDecimal ds data.length) (ht : ∀ c ∈ ty, c ≠ 0x20 ∧ c ≠ 0)
    (hm : IsZip zl m clen (object ty ds data))
    (hl : (objHead ty ds).length ≤ min 8192 (zl.out (m.take 8192)).length) (ns : List Int) :
    ∃ r, Reader.new zl m = .ok (ty, (data.length : Int), r) ∧
      ∃ r' ps, readMany (Reader.read zl) r ns = (r', .ok ps) ∧ ps.flatten <+: data := by
  have h0 := rinv_ofSize L hm maxHeader (by omega)
  obtain ⟨r, h1, h2, h3, h4, h5, _⟩ := parseHeaderInfo_spec L ty ds data hd ht hm (Reader.ofSize m 0) h0 rfl rfl
    ⟨rfl, rfl⟩ hl
  refine ⟨r, by unfold Reader.new; rw [h1], ?_⟩
  obtain ⟨r', ps, k1, k2, k3, _⟩ := readMany_reader L hm _ ns r h2 h5
  refine ⟨r', ps, k1, ?_⟩
  rw [k3, h3, Int.toNat_zero, Nat.add_zero, List.drop_left]
  exact List.take_prefix _ _

/-! ## C12 -/

/-- **C12** (size mode) after any reads, `read(n)` with `n ≥ 1` returns at most `n` bytes. -/
theorem C12_size_mode (zl : Zlib) (L : ZlibLaws zl) (m : Bytes) (clen : Nat) (content : Bytes)
    (hm : IsZip zl m clen content) (size : Nat) (ns : List Int) (n : Int) (hn : 1 ≤ n) :
    ∃ r ps r' d, readMany (Reader.read zl) (Reader.ofSize m size) ns = (r, .ok ps) ∧
      r.read zl n = (r', .ok d) ∧ (d.length : Int) ≤ n := by
  obtain ⟨r, ps, h1, h2, _, _, _, h6, _, h8, _⟩ := readMany_reader L hm 0 ns (Reader.ofSize m size)
    (rinv_ofSize L hm size (by omega)) rfl
  obtain ⟨r', d, e, st⟩ := read_spec L hm 0 r n h2 h6
  refine ⟨r, ps, r', d, h1, e, ?_⟩
  have := st.bounded (h8 rfl)
  unfold Reader.want at this
  rw [if_neg (by omega)] at this
  omega

/-- The full statement of C12, object mode included. -/
def C12_full : Prop :=
  ∀ (zl : Zlib) (m : Bytes) (clen : Nat) (ty ds data : Bytes) (r : Reader) (n : Int) (r' : Reader)
    (d : Bytes), ZlibLaws zl → IsZip zl m clen (object ty ds data) → NoStall zl m →
    Reader.new zl m = .ok (ty, (data.length : Int), r) → 1 ≤ n → r.read zl n = (r', .ok d) →
    (d.length : Int) ≤ n

/-- The object used in the counterexamples: 16371 zero bytes. -/
def bigData : Bytes := List.replicate 16371 0
def bigDigits : Bytes := natToDec 16371
def blob : Bytes := [98, 108, 111, 98]
def bigZip : Bytes := object blob bigDigits bigData ++ [255]

theorem bigDigits_eq : bigDigits = [49, 54, 51, 55, 49] := by
  unfold bigDigits
  simp [natToDec_eq]

theorem big_head_length : (objHead blob bigDigits).length = 11 := by rw [bigDigits_eq]; decide
theorem big_data_length : bigData.length = 16371 := List.length_replicate

theorem big_plain : Plain (object blob bigDigits bigData) := by
  intro c hc
  rw [object, bigDigits_eq] at hc
  simp only [List.mem_append] at hc
  rcases hc with hc | hc
  · have : ∀ c ∈ objHead blob [49, 54, 51, 55, 49], c.toNat < 251 := by decide
    exact this c (by simpa [objHead, or_assoc] using hc)
  · rw [List.eq_of_mem_replicate hc]; decide

theorem big_new : Reader.new toyZlib bigZip =
    .ok (blob, (bigData.length : Int), plainReader bigZip bigData 11) := by
  have h := new_plain blob bigDigits bigData []
    (by rw [big_data_length]; exact natToDec_isDecimal _)
    (by decide) big_plain (by rw [big_head_length]; decide)
    (by rw [List.length_append, big_head_length, big_data_length]; decide)
  rwa [big_head_length] at h

theorem big_read (n : Int) (hw1 : 8190 ≤ n ∧ n ≤ 16371 ∨ n = 0) :
    ∃ r' d, (plainReader bigZip bigData 11).read toyZlib n = (r', .ok d) ∧
      (d.length : Int) = 8189 + (if n ≠ 0 ∧ n ≤ 16370 then 8182 else 1) := by
  have hwant : (plainReader bigZip bigData 11).want n = if n = 0 then 16371 else n := by
    unfold Reader.want plainReader
    simp only [big_data_length]
    split <;> split <;> omega
  have h := read_plainReader (objHead blob bigDigits) bigData [] big_plain
    (by rw [big_head_length]; decide)
    (by rw [List.length_append, big_head_length, big_data_length]; decide) n
    (by
      rw [big_head_length]
      have := hwant
      unfold bigZip object at this
      rw [this]; simp only [maxHeader]; split <;> omega)
    (by
      rw [big_head_length]
      have := hwant
      unfold bigZip object at this
      rw [this]; simp only [maxHeader]; split <;> omega)
  obtain ⟨r', d, e, hd⟩ := h
  rw [big_head_length] at e hd
  refine ⟨r', d, e, ?_⟩
  have hw := hwant
  unfold bigZip object at hw
  simp only [hw, big_data_length, maxHeader] at hd
  rw [hd]
  repeat' split
  all_goals omega

/-- **C12** is false of the code in object mode: `read(8191)` on a 16371 byte object returns all 16371
bytes, because the recursion in `read` (`gitdb/stream.py` 316-317) subtracts the bytes from the header
buffer twice and a count below 1 means "everything". -/
theorem C12_not_full : ¬ C12_full := by
  intro h
  obtain ⟨r', d, e, hd⟩ := big_read 8191 (by omega)
  have := h toyZlib bigZip _ blob bigDigits bigData _ 8191 r' d toyZlib_laws
    (plain_isZip _ [] big_plain) (plain_noStall _ [] big_plain) big_new (by omega) e
  simp at hd
  omega

/-- **C12** (partial: in object mode only for objects of at most 8192 bytes, header included, compressed
and uncompressed) every bounded read is bounded.  Missing: larger loose objects, see `C12_not_full`. -/
theorem C12_object_mode_partial (zl : Zlib) (L : ZlibLaws zl) (m : Bytes) (clen : Nat)
    (ty ds data : Bytes) (hd : IsDecimal ds data.length) (ht : ∀ c ∈ ty, c ≠ 0x20 ∧ c ≠ 0)
    (hm : IsZip zl m clen (object ty ds data)) (hlen : (object ty ds data).length ≤ 8192)
    (hcl : clen ≤ 8192) (ns : List Int) (n : Int) (hn : 1 ≤ n) :
    ∃ r r1 ps r2 d, Reader.new zl m = .ok (ty, (data.length : Int), r) ∧
      readMany (Reader.read zl) r ns = (r1, .ok ps) ∧ r1.read zl n = (r2, .ok d) ∧
      (d.length : Int) ≤ n := by
  obtain ⟨r, h1, h2⟩ := bufRep_new L ty ds data hd ht hm hlen hcl
  obtain ⟨r1, ps, h3, h4, h5⟩ := readMany_spec (bufRep_reads L hm) ns r data h2
  obtain ⟨r2, h6, _⟩ := (bufRep_reads L hm).read_pos r1 _ n h5 hn
  refine ⟨r, r1, ps, r2, _, h1, h3, h6, ?_⟩
  rw [List.length_take]
  omega

/-- **C12** in object mode the reads never return more than the object has. -/
theorem C12_object_mode_total (zl : Zlib) (L : ZlibLaws zl) (m : Bytes) (clen : Nat)
    (ty ds data : Bytes) (hd : IsDecimal ds data.length) (ht : ∀ c ∈ ty, c ≠ 0x20 ∧ c ≠ 0)
    (hm : IsZip zl m clen (object ty ds data))
    (hl : (objHead ty ds).length ≤ min 8192 (zl.out (m.take 8192)).length) (ns : List Int) :
    ∃ r r' ps, Reader.new zl m = .ok (ty, (data.length : Int), r) ∧
      readMany (Reader.read zl) r ns = (r', .ok ps) ∧ ps.flatten.length ≤ data.length := by
  obtain ⟨r, h1, r', ps, h2, h3⟩ := C11_object_mode zl L m clen ty ds data hd ht hm hl ns
  exact ⟨r, r', ps, h1, h2, h3.length_le⟩

/-! ## C13 -/

/-- The full statement of C13 in size mode: an empty result of `read(n)` means that everything has been
returned. -/
def C13_full : Prop :=
  ∀ (zl : Zlib) (m : Bytes) (clen : Nat) (content : Bytes) (ns : List Int) (n : Int) (r r' : Reader)
    (ps : List Bytes), ZlibLaws zl → IsZip zl m clen content →
    readMany (Reader.read zl) (Reader.ofSize m content.length) ns = (r, .ok ps) →
    r.read zl n = (r', .ok []) → ps.flatten = content

/-- **C13** is false of the code: if the window handed to zlib (8 bytes for small reads) yields no output,
`read` returns an empty string although the object has not even started.  Real zlib behaves like this for
blocks with dynamic Huffman codes, whose tables take more than 8 bytes.  Here: a stream beginning with 8
bytes of padding. -/
theorem C13_not_full : ¬ C13_full := by
  intro h
  have hz : IsZip toyZlib [252, 252, 252, 252, 252, 252, 252, 252, 7, 255] 10 [7] :=
    ⟨by decide, by decide⟩
  have h1 := h toyZlib [252, 252, 252, 252, 252, 252, 252, 252, 7, 255] 10 [7] [] 1
    (Reader.ofSize [252, 252, 252, 252, 252, 252, 252, 252, 7, 255] 1)
    ((Reader.ofSize [252, 252, 252, 252, 252, 252, 252, 252, 7, 255] 1).read toyZlib 1).1 [] toyZlib_laws hz
    rfl (by decide)
  simp at h1

/-- **C13** (partial: for streams without stalls) in size mode an empty read means the end.  Missing:
streams in which 8 bytes of compressed data may yield nothing. -/
theorem C13_size_mode_partial (zl : Zlib) (L : ZlibLaws zl) (m : Bytes) (clen : Nat) (content : Bytes)
    (hm : IsZip zl m clen content) (hns : NoStall zl m) (ns : List Int) (n : Int) (r r' : Reader)
    (ps : List Bytes)
    (h1 : readMany (Reader.read zl) (Reader.ofSize m content.length) ns = (r, .ok ps))
    (h2 : r.read zl n = (r', .ok [])) : ps.flatten = content := by
  obtain ⟨r0, ps0, k1, k2, k3, k4, k5, k6, _⟩ := readMany_reader L hm 0 ns
    (Reader.ofSize m content.length) (rinv_ofSize L hm _ (by omega)) rfl
  rw [h1] at k1
  simp only [Prod.mk.injEq, Except.ok.injEq] at k1
  obtain ⟨rfl, rfl⟩ := k1
  obtain ⟨r2, d, e, st⟩ := read_spec L hm 0 r n k2 k6
  rw [h2] at e
  simp only [Prod.mk.injEq, Except.ok.injEq] at e
  obtain ⟨rfl, rfl⟩ := e
  have hb0 := k2.br_nonneg
  have hbl := k2.br_le
  have hne := st.nonempty hns rfl
  have hlen : content.length ≤ ps.flatten.length := by
    rw [k5] at hne
    simp only [Reader.ofSize] at hne k4
    omega
  rw [k3]
  simp only [Reader.ofSize, Int.toNat_zero, Nat.add_zero, List.drop_zero]
  exact List.take_of_length_le hlen

/-- **C13** (partial: as above) the same in object mode. -/
theorem C13_object_mode_partial (zl : Zlib) (L : ZlibLaws zl) (m : Bytes) (clen : Nat)
    (ty ds data : Bytes) (hd : IsDecimal ds data.length) (ht : ∀ c ∈ ty, c ≠ 0x20 ∧ c ≠ 0)
    (hm : IsZip zl m clen (object ty ds data)) (hns : NoStall zl m)
    (hl : (objHead ty ds).length ≤ min 8192 (zl.out (m.take 8192)).length) (ns : List Int) (n : Int) :
    ∃ r r1 ps r2 d, Reader.new zl m = .ok (ty, (data.length : Int), r) ∧
      readMany (Reader.read zl) r ns = (r1, .ok ps) ∧ r1.read zl n = (r2, .ok d) ∧
      (d = [] → ps.flatten = data) := by
  obtain ⟨r, h1, h2, h3, h4, h5, _⟩ := parseHeaderInfo_spec L ty ds data hd ht hm (Reader.ofSize m 0)
    (rinv_ofSize L hm maxHeader (by omega)) rfl rfl ⟨rfl, rfl⟩ hl
  obtain ⟨r1, ps, k1, k2, k3, k4, k5, k6, _⟩ := readMany_reader L hm _ ns r h2 h5
  obtain ⟨r2, d, e, st⟩ := read_spec L hm _ r1 n k2 k6
  refine ⟨r, r1, ps, r2, d, by unfold Reader.new; rw [h1], k1, e, ?_⟩
  intro hde
  have hb0 := k2.br_nonneg
  have hne := st.nonempty hns hde
  have hcl : (ty ++ [0x20] ++ ds ++ [0] ++ data).length =
      (ty ++ [0x20] ++ ds ++ [0]).length + data.length := List.length_append
  have hlen : data.length ≤ ps.flatten.length := by
    rw [k5, h4, hcl] at hne
    rw [h3] at k4
    omega
  rw [k3, h3, Int.toNat_zero, Nat.add_zero, List.drop_left]
  exact List.take_of_length_le hlen

/-! ## C14 -/

/-- The full statement of C14 in size mode. -/
def C14_full : Prop :=
  ∀ (zl : Zlib) (m : Bytes) (clen : Nat) (content : Bytes), ZlibLaws zl → IsZip zl m clen content →
    ∃ r, (Reader.ofSize m content.length).read zl (-1) = (r, .ok content)

/-- **C14** is false of the code for the same reason as C13. -/
theorem C14_not_full : ¬ C14_full := by
  intro h
  obtain ⟨r, h1⟩ := h toyZlib [252, 252, 252, 252, 252, 252, 252, 252, 7, 255] 10 [7] toyZlib_laws
    ⟨by decide, by decide⟩
  have h2 : ((Reader.ofSize [252, 252, 252, 252, 252, 252, 252, 252, 7, 255] 1).read toyZlib (-1)).2 =
      .ok [] := by decide
  have h3 := congrArg Prod.snd h1
  simp only [List.length_cons, List.length_nil] at h3
  rw [show (((0 : Nat) + 1 : Nat) : Int) = 1 from rfl, h2] at h3
  simp at h3

/-- **C14** even without stalls it is false in object mode: `read()` on a freshly opened loose object of
16371 bytes returns only its first 8190 bytes. -/
theorem C14_object_mode_short :
    ∃ m ty ds data r r' d, IsZip toyZlib m m.length (object ty ds data) ∧ NoStall toyZlib m ∧
      Reader.new toyZlib m = .ok (ty, (data.length : Int), r) ∧
      r.read toyZlib 0 = (r', .ok d) ∧ d.length = 8190 ∧ data.length = 16371 := by
  obtain ⟨r', d, e, hd⟩ := big_read 0 (by omega)
  refine ⟨bigZip, blob, bigDigits, bigData, _, r', d, ?_, plain_noStall _ [] big_plain, big_new, e, ?_,
    big_data_length⟩
  · have := plain_isZip _ [] big_plain
    rw [show (object blob bigDigits bigData).length + 1 = bigZip.length by
      rw [bigZip, List.length_append (bs := [255]), List.length_singleton]] at this
    exact this
  · simp at hd; omega

/-- **C14** (partial: for streams without stalls) in size mode the reader is an ideal stream: every
sequence of reads returns exactly the requested numbers of bytes, `read()` everything that is left.
Missing: stalling streams. -/
theorem C14_size_mode_partial (zl : Zlib) (L : ZlibLaws zl) (m : Bytes) (clen : Nat) (content : Bytes)
    (hm : IsZip zl m clen content) (hns : NoStall zl m) (ns : List Int) :
    ∃ r ps, readMany (Reader.read zl) (Reader.ofSize m content.length) ns = (r, .ok ps) ∧
      ps.flatten = content.take (readLen content.length ns) := by
  obtain ⟨r, ps, h1, h2, _⟩ := readMany_spec (sizeRep_reads L hm hns) ns _ _ (sizeRep_ofSize L hm)
  exact ⟨r, ps, h1, h2⟩

/-- **C14** for every stream, stalling or not, that is compressed to at most the size of its content,
`read()` on a new reader returns everything. -/
theorem C14_compressible (zl : Zlib) (L : ZlibLaws zl) (m : Bytes) (clen : Nat) (content : Bytes)
    (hm : IsZip zl m clen content) (hcl : clen ≤ content.length) (n : Int) (hn : n ≤ 0) :
    ∃ r, (Reader.ofSize m content.length).read zl n = (r, .ok content) := by
  obtain ⟨r, d, e, st⟩ := read_spec L hm 0 (Reader.ofSize m content.length) n
    (rinv_ofSize L hm _ (by omega)) rfl
  have hw : (Reader.ofSize m content.length).want n = content.length := by
    unfold Reader.want Reader.ofSize; rw [if_pos (by omega)]; simp
  have h1 := st.least rfl (Or.inr rfl)
  rw [hw] at h1
  simp only [Reader.ofSize, List.length_nil, Nat.sub_zero, Nat.zero_add, Int.toNat_natCast,
    Int.toNat_zero] at h1
  rw [zip_out_ge L hm hcl, Nat.min_self] at h1
  refine ⟨r, ?_⟩
  rw [e, st.data]
  simp only [Reader.ofSize, Int.toNat_zero, Nat.add_zero, List.drop_zero]
  rw [List.take_of_length_le h1]

/-- **C14** in object mode, objects of at most 8192 bytes (header included, compressed and uncompressed)
are ideal streams. -/
theorem C14_small_objects (zl : Zlib) (L : ZlibLaws zl) (m : Bytes) (clen : Nat)
    (ty ds data : Bytes) (hd : IsDecimal ds data.length) (ht : ∀ c ∈ ty, c ≠ 0x20 ∧ c ≠ 0)
    (hm : IsZip zl m clen (object ty ds data)) (hlen : (object ty ds data).length ≤ 8192)
    (hcl : clen ≤ 8192) (ns : List Int) :
    ∃ r r' ps, Reader.new zl m = .ok (ty, (data.length : Int), r) ∧
      readMany (Reader.read zl) r ns = (r', .ok ps) ∧ ps.flatten = data.take (readLen data.length ns) := by
  obtain ⟨r, h1, h2⟩ := bufRep_new L ty ds data hd ht hm hlen hcl
  obtain ⟨r', ps, h3, h4, _⟩ := readMany_spec (bufRep_reads L hm) ns r data h2
  exact ⟨r, r', ps, h1, h3, h4⟩

/-! ## C15 -/

/-- The full statement of C15. -/
def C15_full : Prop :=
  ∀ (zl : Zlib) (m : Bytes) (clen : Nat) (content : Bytes) (ns : List Int) (r : Reader)
    (ps : List Bytes), ZlibLaws zl → IsZip zl m clen content →
    readMany (Reader.read zl) (Reader.ofSize m content.length) ns = (r, .ok ps) → ps.flatten = content →
    ∃ fuel r', r.compressedBytesRead zl fuel = (r', .ok (clen : Int))

/-- **C15** is false of the code: `zlib` reports the left over input of the last call both as
`unconsumed_tail` and as `unused_data` if the call before had reached its output limit, and both
are subtracted (`gitdb/stream.py` 300-303).  Here 30 bytes, compressed to 4 and followed by other data, are read
as 10 + 20: the reported size is -15. -/
theorem C15_double_count :
    ∃ m r ps, IsZip toyZlib m 4 (List.replicate 30 7) ∧
      readMany (Reader.read toyZlib) (Reader.ofSize m 30) [10, 20] = (r, .ok ps) ∧
      ps.flatten = List.replicate 30 7 ∧ ∀ fuel, (r.compressedBytesRead toyZlib fuel).2 = .ok (-15) := by
  have h : (readMany (Reader.read toyZlib)
      (Reader.ofSize ([253, 30, 7, 255] ++ List.replicate 40 1) 30) [10, 20]) =
      ((readMany (Reader.read toyZlib)
        (Reader.ofSize ([253, 30, 7, 255] ++ List.replicate 40 1) 30) [10, 20]).1,
        .ok [List.replicate 10 7, List.replicate 20 7]) := by
    exact Prod.ext rfl (by decide +kernel)
  refine ⟨[253, 30, 7, 255] ++ List.replicate 40 1, _, _, ⟨by decide +kernel, by decide +kernel⟩, h,
    by decide, fun fuel => ?_⟩
  generalize hr : (readMany (Reader.read toyZlib)
      (Reader.ofSize ([253, 30, 7, 255] ++ List.replicate 40 1) 30) [10, 20]).1 = r
  have h1 : r.hasS = true := by subst hr; decide +kernel
  have h2 : r.zip.unused ≠ [] := by subst hr; decide +kernel
  have h3 : r.cbr = -15 := by subst hr; decide +kernel
  unfold Reader.compressedBytesRead Reader.needS
  rw [if_pos h1]
  simp only
  rw [if_neg (by simp [h2]), h3]

/-- **C15** for an empty object the call never returns, whatever the compression library does (if
anything follows the start of the object). -/
theorem C15_empty_object_diverges (zl : Zlib) (m : Bytes) (hm : m ≠ []) (ns : List Int) :
    ∃ r ps, readMany (Reader.read zl) (Reader.ofSize m 0) ns = (r, .ok ps) ∧ ps.flatten = [] ∧
      ∀ fuel, (r.compressedBytesRead zl fuel).2 = .error .diverge := by
  have hread : ∀ n, (Reader.ofSize m 0).readCore zl 3 n = (Reader.ofSize m 0, .ok []) := by
    intro n
    rw [readCore_succ, if_pos (by unfold Reader.want Reader.ofSize; simp only; split <;> omega)]
  have hmany : ∀ ns, ∃ ps, readMany (Reader.read zl) (Reader.ofSize m 0) ns =
      (Reader.ofSize m 0, .ok ps) ∧ ps.flatten = [] := by
    intro ns
    induction ns with
    | nil => exact ⟨[], rfl, rfl⟩
    | cons n ns ih =>
      obtain ⟨ps, e, h⟩ := ih
      have hr : (Reader.ofSize m 0).read zl n = (Reader.ofSize m 0, .ok []) := hread n
      exact ⟨[] :: ps, by simp only [readMany, hr, e], by simpa using h⟩
  obtain ⟨ps, e, h⟩ := hmany ns
  refine ⟨_, ps, e, h, fun fuel => ?_⟩
  have hscrub : ∀ fuel, (Reader.ofSize m 0).scrub zl fuel = (Reader.ofSize m 0, .error .diverge) := by
    intro fuel
    induction fuel with
    | zero => rfl
    | succ fuel ih =>
      have hc : (Reader.ofSize m 0).zip.unused = [] ∧
          (Reader.ofSize m 0).cbr ≠ (Reader.ofSize m 0).m.length := by
        have := List.length_pos_iff.mpr hm
        refine ⟨rfl, ?_⟩
        simp only [Reader.ofSize]; omega
      have : (Reader.ofSize m 0).readCore zl (Reader.ofSize m 0).fuel (PAGESIZE : Nat) =
          (Reader.ofSize m 0, .ok []) := hread _
      rw [Reader.scrub, if_pos hc, this]
      exact ih
  have hneed : (Reader.ofSize m 0).needS zl = (Reader.ofSize m 0, .ok ()) := rfl
  unfold Reader.compressedBytesRead
  rw [hneed]
  simp only
  rw [if_pos ⟨rfl, rfl⟩, show ({ Reader.ofSize m 0 with br := 0 } : Reader) = Reader.ofSize m 0 from rfl,
    hscrub]

theorem C15_not_full : ¬ C15_full := by
  intro h
  obtain ⟨m, r, ps, h1, h2, h3, h4⟩ := C15_double_count
  obtain ⟨fuel, r'', h5⟩ := h toyZlib m 4 (List.replicate 30 7) [10, 20] r ps toyZlib_laws h1
    (by rw [List.length_replicate]; exact h2) h3
  have h6 := h4 fuel
  rw [h5] at h6
  simp at h6

/-- **C15** (partial: non-empty objects, each read asking for everything that is left) after the whole
object has been read, the compressed size is exact, and the scrubbing loop ends.
Missing: empty objects and objects read in several bounded steps; see the counterexamples. -/
theorem C15_compressed_size_partial (zl : Zlib) (L : ZlibLaws zl) (m : Bytes) (clen : Nat)
    (content : Bytes) (hm : IsZip zl m clen content) (hne : content ≠ []) (ns : List Int)
    (hns : ∀ n ∈ ns, n < 1 ∨ (content.length : Int) ≤ n) (r : Reader) (ps : List Bytes)
    (h1 : readMany (Reader.read zl) (Reader.ofSize m content.length) ns = (r, .ok ps))
    (h2 : ps.flatten = content) (fuel : Nat) (hf : m.length + 3 ≤ fuel) :
    ∃ r', r.compressedBytesRead zl fuel = (r', .ok (clen : Int)) := by
  obtain ⟨r0, ps0, k1, k2, k3, k4, k5, k6, k7, k8, k9⟩ := readMany_reader L hm 0 ns
    (Reader.ofSize m content.length) (rinv_ofSize L hm _ (by omega)) rfl
  rw [h1] at k1
  simp only [Prod.mk.injEq, Except.ok.injEq] at k1
  obtain ⟨rfl, rfl⟩ := k1
  have hs : r.s = content.length := k5
  have hb : r.br = content.length := by rw [k4, h2]; simp [Reader.ofSize]
  exact compressedBytesRead_spec L hm r k2 k6 hs hne (by rw [hb, hs]) (k8 rfl)
    (k9 rfl (by simp [Reader.ofSize]) hns (clean_ofSize m clen _)) fuel hf

/-! ## C16 -/

/-- **C16** (size mode) after any reads, `seek(0)` gives back exactly the initial state. -/
theorem C16_size_mode (zl : Zlib) (L : ZlibLaws zl) (m : Bytes) (clen : Nat) (content : Bytes)
    (hm : IsZip zl m clen content) (size : Nat) (ns : List Int) (r : Reader) (ps : List Bytes)
    (h : readMany (Reader.read zl) (Reader.ofSize m size) ns = (r, .ok ps)) :
    r.seek 0 0 = (Reader.ofSize m size, .ok ()) := by
  obtain ⟨r0, ps0, k1, k2, k3, k4, k5, k6, k7, k8, k9⟩ := readMany_reader L hm 0 ns
    (Reader.ofSize m size) (rinv_ofSize L hm size (by omega)) rfl
  rw [h] at k1
  simp only [Prod.mk.injEq, Except.ok.injEq] at k1
  obtain ⟨rfl, rfl⟩ := k1
  have hb := k8 rfl
  have hbl := k2.buf_len
  rw [hb] at hbl
  simp at hbl
  have hphi : r.phi = false := k7
  unfold Reader.seek
  rw [if_neg (by simp)]
  simp only [hphi, Bool.false_eq_true, if_false]
  simp [Reader.ofSize, k2.m_eq, hb, ← hbl, k5, k6]

/-- **C16** any other seek is refused and changes nothing. -/
theorem C16_seek_other (r : Reader) (offset whence : Int) (h : offset ≠ 0 ∨ whence ≠ 0) :
    r.seek offset whence = (r, .error .valueError) := by
  unfold Reader.seek; rw [if_pos h]

/-- The full statement of C16 in object mode: after `seek(0)` the next read returns what it would
return on a newly opened stream. -/
def C16_full : Prop :=
  ∀ (zl : Zlib) (m : Bytes) (clen : Nat) (ty ds data : Bytes) (r0 r : Reader) (ns : List Int)
    (ps : List Bytes), ZlibLaws zl → IsZip zl m clen (object ty ds data) → IsDecimal ds data.length →
    Reader.new zl m = .ok (ty, (data.length : Int), r0) →
    readMany (Reader.read zl) r0 ns = (r, .ok ps) →
    ∀ n, ((r.seek 0 0).1.read zl n).2 = (r0.read zl n).2

/-- A loose object with data `a 1<NUL>Z`. -/
def trickZip : Bytes := object blob [53] [97, 32, 49, 0, 90] ++ [255]

/-- **C16** is false of the code in object mode: `seek` forgets to drop the header buffer, so its rest
is put in front of the header when that is parsed again (`gitdb/stream.py` 207-212).  Rewinding a stream of
the object `a 1<NUL>Z` before reading makes it deliver `Z`. -/
theorem C16_not_full : ¬ C16_full := by
  intro h
  have hz : IsZip toyZlib trickZip 13 (object blob [53] [97, 32, 49, 0, 90]) := by
    constructor <;> decide +kernel
  have hn : Reader.new toyZlib trickZip = .ok (blob, 5,
      ((Reader.ofSize trickZip 0).parseHeaderInfo toyZlib).1) := by decide +kernel
  have h1 := h toyZlib trickZip 13 blob [53] [97, 32, 49, 0, 90] _ _ [] [] toyZlib_laws hz
    (by unfold IsDecimal; decide) hn rfl (-1)
  revert h1
  decide +kernel

/-- **C16** (partial: the bytes decompressed with the header must have been read) in object mode, `seek(0)` gives
back a stream whose reads are those of a newly opened one, for every reachable state with an
exhausted header buffer.  Missing: states with bytes left in the header buffer, see `C16_not_full`. -/
theorem C16_object_mode_partial (zl : Zlib) (L : ZlibLaws zl) (m : Bytes) (clen : Nat)
    (ty ds data : Bytes) (hd : IsDecimal ds data.length) (ht : ∀ c ∈ ty, c ≠ 0x20 ∧ c ≠ 0)
    (hm : IsZip zl m clen (object ty ds data))
    (hl : (objHead ty ds).length ≤ min 8192 (zl.out (m.take 8192)).length) (ns : List Int)
    (r0 r : Reader) (ps : List Bytes)
    (h0 : Reader.new zl m = .ok (ty, (data.length : Int), r0))
    (h1 : readMany (Reader.read zl) r0 ns = (r, .ok ps)) (hb : r.buflen = 0) (n : Int) :
    (r.seek 0 0).1.read zl n = r0.read zl n := by
  obtain ⟨r0', e0, i0, i1, i2, i3, i4, i5, _⟩ := parseHeaderInfo_spec L ty ds data hd ht hm
    (Reader.ofSize m 0) (rinv_ofSize L hm maxHeader (by omega)) rfl rfl ⟨rfl, rfl⟩ hl
  have hr0 : r0 = r0' := by
    unfold Reader.new at h0
    rw [e0] at h0
    simp at h0
    exact h0.symm
  subst hr0
  obtain ⟨r1, ps1, k1, k2, k3, k4, k5, k6, k7, _⟩ := readMany_reader L hm _ ns r0 i0 i3
  rw [h1] at k1
  simp only [Prod.mk.injEq, Except.ok.injEq] at k1
  obtain ⟨rfl, rfl⟩ := k1
  have hphi : r.phi = true := by rw [k7, i4]
  have hblen := k2.buf_len
  rw [hb] at hblen
  have hparse : (r.seek 0 0).1.parseHeaderInfo zl = (Reader.ofSize m 0).parseHeaderInfo zl := by
    have hseek : (r.seek 0 0).1 = ({ m := m, buf := r.buf, s := r.s, hasS := false } : Reader) := by
      unfold Reader.seek
      rw [if_neg (by simp)]
      simp only [hphi, if_true]
      simp [k2.m_eq, hb]
    rw [hseek]
    unfold Reader.parseHeaderInfo Reader.ofSize
    simp only
    have hcore : Reader.readCore zl ({ m := m, buf := r.buf, s := maxHeader } : Reader).fuel
        { m := m, buf := r.buf, s := maxHeader } maxHeader =
        Reader.readCore zl ({ m := m, s := maxHeader } : Reader).fuel { m := m, s := maxHeader } maxHeader := by
      rcases hbuf : r.buf with _ | b
      · rfl
      · have hbe : b = [] := by
          rw [hbuf] at hblen
          simpa using hblen
        subst hbe
        unfold Reader.fuel
        simp only
        rw [readCore_succ, readCore_succ]
        unfold Reader.want
        simp [maxHeader]
    rw [hcore]
  have hS : (r.seek 0 0).1.hasS = false := by
    unfold Reader.seek
    rw [if_neg (by simp)]
    simp [hphi]
  have hr0 : r0.read zl n = r0.readCore zl r0.fuel n := by
    unfold Reader.read Reader.needS
    rw [if_pos i3]
  unfold Reader.read Reader.needS
  rw [hS]
  simp only [Bool.false_eq_true, if_false]
  rw [hparse, e0]
  exact hr0.symm

/-! ## Concrete cases -/

/-- The contract about zlib can be met. -/
example : ZlibLaws toyZlib := toyZlib_laws
/-- A stream with a run (so that output limits leave a tail) and something behind it. -/
example : IsZip toyZlib [253, 30, 7, 255, 1, 2, 3] 4 (List.replicate 30 7) :=
  ⟨by decide, by decide⟩
example : NoStall toyZlib ([1, 2, 3] ++ 255 :: [9, 9]) := plain_noStall [1, 2, 3] [9, 9] (by unfold Plain; decide)
example : (readMany (Reader.read toyZlib) (Reader.ofSize [253, 30, 7, 255, 1, 2, 3] 30) [4, 3, 1, 0]).2 =
    .ok [List.replicate 4 7, List.replicate 3 7, [7], List.replicate 22 7] := by decide +kernel
/-- A small loose object in object mode. -/
example : IsZip toyZlib trickZip 13 (object blob [53] [97, 32, 49, 0, 90]) := by
  constructor <;> decide +kernel
example : (objHead blob [53]).length ≤ min 8192 (toyZlib.out (trickZip.take 8192)).length := by
  decide +kernel
example : (Reader.new toyZlib trickZip).map (fun x => (x.1, x.2.1, (x.2.2.read toyZlib 3).2)) =
    .ok (blob, 5, .ok [97, 32, 49]) := by decide +kernel
example : looseObjectHeaderInfo toyZlib trickZip = .ok (blob, 5) := by decide +kernel

end GitDB.Props
