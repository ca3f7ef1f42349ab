import Verif.Proofs.PyInt
import Verif.Props.Inflate
/-!
# C69: truncated and damaged compressed data

Nothing is assumed about the compressed bytes, except where stated: they may be empty, truncated, damaged, or not zlib data at all.
-/
set_option autoImplicit false

namespace GitDB.Props
open GitDB Spec Deflate

/-- **C69** a reader with a size on arbitrary bytes: any sequence of reads delivers, in order and without gaps, what the bytes
decompress to, never more than the size; the only exception is zlib's, and it means that the bytes are damaged. -/
theorem C69_size (zl : Zlib) (L : ZlibLaws zl) (m : Bytes) (size : Nat) (ns : List Int) :
    (∃ r, readMany (Reader.read zl) (Reader.ofSize m size) ns = (r, .error .zlibError) ∧ zl.bad m = true) ∨
    ∃ r ps, readMany (Reader.read zl) (Reader.ofSize m size) ns = (r, .ok ps) ∧ ps.flatten <+: zl.out m ∧ ps.flatten.length ≤ size := by
  rcases readMany_any L m 0 ns (Reader.ofSize m size) (anyR_ofSize m size (by omega)) rfl with h | ⟨r, ps, e1, e2, e3, e4, e5, -⟩
  · exact .inl h
  · right
    refine ⟨r, ps, e1, ?_, ?_⟩
    · rw [e2]
      simp only [Reader.ofSize, Int.toNat_zero, Nat.add_zero, List.drop_zero]
      exact List.take_prefix _ _
    · have := e3.br_le
      rw [e4, e5] at this
      simp only [Reader.ofSize] at this
      omega

/-- **C69** loose objects in arbitrary bytes: opening raises `zlib.error` for damaged bytes or `ValueError`; otherwise type and size
are in the first bytes, and any sequence of reads delivers, in order and without gaps, what follows them; the only exception is
zlib's, and it means that the bytes are damaged. -/
theorem C69_object (zl : Zlib) (L : ZlibLaws zl) (m : Bytes) :
    (Reader.new zl m = .error .zlibError ∧ zl.bad m = true) ∨ Reader.new zl m = .error .valueError ∨
    ∃ hdr typ size k r, Reader.new zl m = .ok (typ, size, r) ∧ hdr <+: zl.out m ∧ hdr.length ≤ 8192 ∧ k ≤ hdr.length ∧
      HeaderRead hdr typ size k ∧
      ∀ ns, (∃ r', readMany (Reader.read zl) r ns = (r', .error .zlibError) ∧ zl.bad m = true) ∨
        ∃ r' ps, readMany (Reader.read zl) r ns = (r', .ok ps) ∧ ps.flatten <+: (zl.out m).drop k ∧
          (0 ≤ size → (ps.flatten.length : Int) ≤ size) := by
  rcases new_any L m with h | ⟨hdr, h1, h2, h3 | ⟨typ, size, k, r, e1, e2, e3, e4, e5, e6, e7, e8, e9⟩⟩
  · exact .inl h
  · exact .inr (.inl h3.1)
  · right; right
    have hh : HeaderRead hdr typ size k := (parseObjectHeader_iff _ _ _ _).1 e2
    refine ⟨hdr, typ, size, k, r, e1, h1, h2, e3, hh, ?_⟩
    intro ns
    by_cases hneg : size < 0
    · right
      obtain ⟨r', ps, k1, k2⟩ := readMany_negative (zl := zl) r e5 e6 (by omega) _ e7 (by omega) ns
      refine ⟨r', ps, k1, ?_, by omega⟩
      rw [k2]
      split
      · exact List.nil_prefix
      · obtain ⟨t, ht⟩ := h1
        exact ⟨t, by rw [← ht, List.drop_append_of_le_length e3]⟩
    · have hinv := e9 (by omega)
      rcases readMany_any L m k ns r hinv e5 with h | ⟨r', ps, k1, k2, k3, k4, k5, -⟩
      · exact .inl h
      · right
        refine ⟨r', ps, k1, ?_, ?_⟩
        · rw [k2, e6]
          exact List.take_prefix _ _
        · intro _
          have := k3.br_le
          rw [k4, k5, e6, e4] at this
          omega

/-- **C04** exactly which headers are accepted: `loose_object_header_info` on undamaged data returns type and size if the first 8192
bytes have a header in the sense of `HeaderRead`, where the size is anything `int()` accepts, and raises `ValueError` otherwise. -/
theorem C04_accepted (zl : Zlib) (m : Bytes) (hb : zl.bad m = false) (typ : Bytes) (size : Int) :
    (looseObjectHeaderInfo zl m = .ok (typ, size) ↔ ∃ k, HeaderRead ((zl.out m).take 8192) typ size k) ∧
    ((¬ ∃ ty sz k, HeaderRead ((zl.out m).take 8192) ty sz k) → looseObjectHeaderInfo zl m = .error .valueError) := by
  have hdec : ∃ z, ZDec.decompress zl {} m maxHeader = (z, .ok ((zl.out m).take 8192)) := by
    unfold ZDec.decompress
    rw [if_neg (by simp), if_neg (by simp), if_neg (by simp)]
    simp only [List.nil_append, hb, List.drop_zero, maxHeader]
    split
    · exact ⟨_, rfl⟩
    · rename_i h
      have hl : (zl.out m).take 8192 = zl.out m := by
        apply List.take_of_length_le
        simp at h
        omega
      rw [hl]
      simp only [Bool.false_eq_true, if_false]
      cases zl.stop m <;> exact ⟨_, rfl⟩
  obtain ⟨z, hz⟩ := hdec
  unfold looseObjectHeaderInfo
  rw [hz]
  simp only
  refine ⟨⟨fun h => ?_, ?_⟩, ?_⟩
  · rcases hp : parseObjectHeader ((zl.out m).take 8192) with e | ⟨ty, sz, k⟩
    · rw [hp] at h; cases h
    · rw [hp] at h
      simp only [Except.ok.injEq, Prod.mk.injEq] at h
      obtain ⟨rfl, rfl⟩ := h
      exact ⟨k, (parseObjectHeader_iff _ _ _ _).1 hp⟩
  · rintro ⟨k, hk⟩
    rw [(parseObjectHeader_iff _ _ _ _).2 hk]
  · intro hno
    rcases parseObjectHeader_any ((zl.out m).take 8192) with hp | ⟨ty, num, sz, k, hp, -⟩
    · rw [hp]
    · exact absurd ⟨ty, sz, k, (parseObjectHeader_iff _ _ _ _).1 hp⟩ hno

/-- `int()` on the size: blanks, sign, underscores, leading zeros. -/
example : IsPyInt [0x2b, 0x30, 0x31, 0x5f, 0x32] 12 ∧ IsPyInt [9, 0x2d, 0x35, 10] (-5) ∧ ¬ IsPyInt [0x31, 0x5f, 0x5f, 0x32] 12 ∧
    (∀ n, ¬ IsPyInt [0x31, 0x5f] n) := by
  refine ⟨(pyInt_iff _ _).1 (by decide), (pyInt_iff _ _).1 (by decide), fun h => ?_, fun n h => ?_⟩
  · exact absurd ((pyInt_iff _ _).2 h) (by decide)
  · have := (pyInt_iff _ _).2 h
    rw [show pyInt [0x31, 0x5f] = .error .valueError by decide] at this
    cases this

/-- A header with a negative size, and one without a NUL, are accepted. -/
example : looseObjectHeaderInfo storedZlib (Deflate.storedZlib.emit (storedZlib.cinit 1) [[0x78, 0x20, 0x2d, 0x31, 0]]) = .ok ([0x78], -1) ∧
    HeaderRead [0x78, 0x20, 0x2d, 0x31, 0] [0x78] (-1) 5 ∧ HeaderRead [0x78, 0x20, 0x37, 0x39] [0x78] 7 0 := by
  refine ⟨by decide +kernel, (parseObjectHeader_iff _ _ _ _).1 (by decide), (parseObjectHeader_iff _ _ _ _).1 (by decide)⟩

/-! ## Truncated streams -/

theorem not_bad_take (zl : Zlib) (L : ZlibLaws zl) (m : Bytes) (clen : Nat) (content : Bytes) (hm : IsZip zl m clen content) (n : Nat) :
    zl.bad (m.take n) ≠ true := by
  intro h
  have := bad_of_take L m n h
  rw [L.stop_good m clen hm.stop] at this
  cases this

/-- **C69** a truncated stream is never noticed: whatever is cut off the end of a valid stream, no sequence of reads raises, and
what is delivered is a beginning of the content. -/
theorem C69_truncated (zl : Zlib) (L : ZlibLaws zl) (m : Bytes) (clen : Nat) (content : Bytes) (hm : IsZip zl m clen content)
    (n size : Nat) (ns : List Int) :
    ∃ r ps, readMany (Reader.read zl) (Reader.ofSize (m.take n) size) ns = (r, .ok ps) ∧ ps.flatten <+: content ∧
      ps.flatten <+: zl.out (m.take n) := by
  rcases C69_size zl L (m.take n) size ns with ⟨r, -, h⟩ | ⟨r, ps, e1, e2, -⟩
  · exact absurd h (not_bad_take zl L m clen content hm n)
  · refine ⟨r, ps, e1, ?_, e2⟩
    rw [← hm.out]
    exact e2.trans (out_take_prefix L m n)

/-- **C69** truncated loose objects: if the header survives, the object opens with its type and full size, no read raises, and what
is delivered is a beginning of the data.  If the header is cut, the object may be refused (`ValueError`), or else is opened with
what is left of the header as data. -/
theorem C69_truncated_object (zl : Zlib) (L : ZlibLaws zl) (m : Bytes) (clen : Nat) (ty ds data : Bytes) (hd : IsDecimal ds data.length)
    (ht : ∀ c ∈ ty, c ≠ 0x20 ∧ c ≠ 0) (hm : IsZip zl m clen (object ty ds data)) (n : Nat) :
    Reader.new zl (m.take n) = .error .valueError ∨
    (∃ r, Reader.new zl (m.take n) = .ok (ty, (data.length : Int), r) ∧
      ∀ ns, ∃ r' ps, readMany (Reader.read zl) r ns = (r', .ok ps) ∧ ps.flatten <+: data) ∨
    ∃ typ size r, Reader.new zl (m.take n) = .ok (typ, size, r) ∧
      ∀ ns, ∃ r' ps, readMany (Reader.read zl) r ns = (r', .ok ps) ∧ ps.flatten <+: object ty ds data := by
  have hnb := not_bad_take zl L m clen _ hm n
  have hout : zl.out (m.take n) <+: object ty ds data := by rw [← hm.out]; exact out_take_prefix L m n
  rcases C69_object zl L (m.take n) with ⟨-, h⟩ | h | ⟨hdr, typ, size, k, r, e1, e2, e3, e4, ⟨num, p1, p2, p3, p4⟩, e6⟩
  · exact absurd h hnb
  · exact .inl h
  · right
    rw [← pyInt_iff] at p1
    rcases p4 with ⟨q1, q2, -, q3⟩ | ⟨rfl, q2, q3⟩
    · left
      have hpre : typ ++ 0x20 :: num ++ [0] <+: object ty ds data := by
        rw [← q3]; exact (List.take_prefix _ _).trans (e2.trans hout)
      obtain ⟨t, ht'⟩ := hpre
      have hp1 := parseObjectHeader_spec ty ds data data.length hd ht
      have hobj : object ty ds data = ty ++ [0x20] ++ ds ++ [0] ++ data := rfl
      rw [hobj] at ht'
      -- the headers end at the same NUL
      have hds : ∀ c ∈ ds, c ≠ 0x20 ∧ c ≠ 0 := by
        intro c hc
        have := hd.1 c hc
        constructor <;> (rintro rfl; simp at this)
      have f1 := findIdx?_nul (typ ++ 0x20 :: num) t (by
        intro c hc h0
        subst h0
        simp at hc
        exact hc.elim q1 q2)
      have f2 := findIdx?_nul (ty ++ [0x20] ++ ds) data (by
        intro c hc h0
        subst h0
        simp at hc
        exact hc.elim (fun h => (ht 0 h).2 rfl) (fun h => (hds 0 h).2 rfl))
      have g1 : (typ ++ 0x20 :: num) ++ 0 :: t = (ty ++ [0x20] ++ ds) ++ 0 :: data := by
        simpa using ht'
      rw [g1, f2] at f1
      have hlen := Option.some.inj f1
      obtain ⟨g2, g3⟩ := List.append_inj g1 hlen.symm
      have s1 := pySplitSpace_two typ num p2 p3
      have s2 := pySplitSpace_two ty ds (fun c h => (ht c h).1) (fun c h => (hds c h).1)
      rw [g2, show ty ++ [0x20] ++ ds = ty ++ 0x20 :: ds by simp, s2] at s1
      simp only [List.cons.injEq, and_true] at s1
      obtain ⟨rfl, rfl⟩ := s1
      rw [pyInt_decimal hd] at p1
      have hsz := Except.ok.inj p1
      subst hsz
      refine ⟨r, e1, ?_⟩
      intro ns
      rcases e6 ns with ⟨-, -, h⟩ | ⟨r', ps, j1, j2, -⟩
      · exact absurd h hnb
      · refine ⟨r', ps, j1, j2.trans ?_⟩
        have hk : k = (ty ++ [0x20] ++ ds ++ [0]).length := by
          have := congrArg List.length q3
          rw [List.length_take, Nat.min_eq_left e4] at this
          rw [this]; simp
        obtain ⟨u, hu⟩ := hout
        have hkl : k ≤ (zl.out (m.take n)).length := Nat.le_trans e4 e2.length_le
        refine ⟨u, ?_⟩
        rw [← List.drop_append_of_le_length hkl, hu, hobj, hk, List.drop_left]
    · right
      refine ⟨typ, size, r, e1, ?_⟩
      intro ns
      rcases e6 ns with ⟨-, -, h⟩ | ⟨r', ps, j1, j2, -⟩
      · exact absurd h hnb
      · exact ⟨r', ps, j1, j2.trans (by rw [List.drop_zero]; exact hout)⟩

/-! ## What is noticed -/

theorem refused_core (zl : Zlib) (m : Bytes) (size : Nat) (h0 : 0 < size) (hl : m.length ≤ max size 8) (ho : (zl.out m).length ≤ size)
    (hb : zl.bad m = true) (n : Int) (hn : n < 1 ∨ (size : Int) ≤ n) (fuel : Nat) :
    ∃ r, (Reader.ofSize m size).readCore zl (fuel + 1) n = (r, .error .zlibError) := by
  rw [readCore_succ]
  have hw : (Reader.ofSize m size).want n = size := by
    unfold Reader.want
    simp only [Reader.ofSize]
    split <;> omega
  rw [hw, if_neg (by omega)]
  have hin : ∀ e : Int, (size : Int) ≤ e → 8 ≤ e → pySlice m 0 e.toNat = m := by
    intro e he h8
    unfold pySlice
    rw [List.drop_zero, List.take_of_length_le]
    omega
  have hdec : ZDec.decompress zl {} m size = ({ broken := true }, .error .zlibError) := by
    unfold ZDec.decompress
    rw [if_neg (by omega), if_neg (by simp), if_neg (by simp)]
    simp only [List.nil_append]
    rw [if_neg (by omega), if_pos hb]
  have hz : ∃ r, (Reader.ofSize m size).readZip zl size = (r, .error .zlibError) := by
    unfold Reader.readZip
    simp only [Reader.ofSize, ne_eq, not_true_eq_false, if_false]
    rw [hin _ (by split <;> omega) (by split <;> omega), hdec]
    exact ⟨_, rfl⟩
  obtain ⟨r, hz⟩ := hz
  refine ⟨r, ?_⟩
  show Reader.cont zl fuel (Reader.ofSize m size) [] size = _
  unfold Reader.cont
  rw [hz]

/-- **C69** damaged streams that are not longer than the object, and decompress to no more than it, are refused by `read()`. -/
theorem C69_refused (zl : Zlib) (m : Bytes) (size : Nat) (h0 : 0 < size) (hl : m.length ≤ max size 8) (ho : (zl.out m).length ≤ size)
    (hb : zl.bad m = true) (n : Int) (hn : n < 1 ∨ (size : Int) ≤ n) :
    ∃ r, (Reader.ofSize m size).read zl n = (r, .error .zlibError) :=
  refused_core zl m size h0 hl ho hb n hn _

/-- **C69** small damaged loose objects (no more than 8192 bytes, compressed and decompressed) are refused: `stream` and `info` raise
`zlib.error`. -/
theorem C69_refused_object (zl : Zlib) (m : Bytes) (hl : m.length ≤ 8192) (ho : (zl.out m).length ≤ 8192) (hb : zl.bad m = true) :
    Reader.new zl m = .error .zlibError ∧ looseObjectHeaderInfo zl m = .error .zlibError := by
  constructor
  · obtain ⟨r, h⟩ := refused_core zl m maxHeader (by decide) (Nat.le_trans hl (Nat.le_max_left _ _)) ho hb maxHeader (.inr (Int.le_refl _))
      ((Reader.ofSize m maxHeader).fuel - 1)
    have hf : (Reader.ofSize m maxHeader).fuel - 1 + 1 = (Reader.ofSize m maxHeader).fuel := by unfold Reader.fuel; omega
    rw [hf] at h
    unfold Reader.new Reader.parseHeaderInfo
    simp only
    rw [show ({ Reader.ofSize m 0 with s := maxHeader, hasS := true } : Reader) = Reader.ofSize m maxHeader from rfl, h]
  · unfold looseObjectHeaderInfo ZDec.decompress
    rw [if_neg (by simp [maxHeader]), if_neg (by simp), if_neg (by simp)]
    simp only [List.nil_append]
    rw [if_neg (by simp [maxHeader]; omega), if_pos hb]

/-! ## What is not noticed -/

/-- `zlib.compress(b"abcdefgh", 0)`: one stored block. -/
def eightZip : Bytes := [0x78, 0x01, 0x01, 0x08, 0x00, 0xf7, 0xff, 97, 98, 99, 100, 101, 102, 103, 104, 0x0e, 0x00, 0x03, 0x25]
def eightContent : Bytes := [97, 98, 99, 100, 101, 102, 103, 104]

/-- **C69** in general damage is not noticed: a byte of a stream in the real format is changed, zlib knows that the stream is
damaged, and yet `read()` returns wrong data of the right size. -/
theorem C69_damage_unnoticed : ∃ m m' content wrong r, ZlibLaws storedZlib ∧ IsZip storedZlib m m.length content ∧
    m' = m.set 9 0x7a ∧ storedZlib.bad m' = true ∧
    (Reader.ofSize m' content.length).read storedZlib (-1) = (r, .ok wrong) ∧ wrong.length = content.length ∧ wrong ≠ content := by
  obtain ⟨r, h⟩ := exists_fst (x := (Reader.ofSize (eightZip.set 9 0x7a) eightContent.length).read storedZlib (-1))
    (b := .ok [97, 98, 0x7a, 100, 101, 102, 103, 104]) (by decide +kernel)
  exact ⟨eightZip, eightZip.set 9 0x7a, eightContent, [97, 98, 0x7a, 100, 101, 102, 103, 104], r, storedZlib_laws,
    isZip_of storing (by decide +kernel) (by decide +kernel), rfl, by decide +kernel, h, rfl, by decide⟩

/-- A stored block with the object `blob 12`, `hello, world`. -/
def cutZip : Bytes := [0x78, 0x01, 0x01, 0x14, 0x00, 0xeb, 0xff] ++
  [98, 108, 111, 98, 32, 49, 50, 0, 104, 101, 108, 108, 111, 44, 32, 119, 111, 114, 108, 100] ++ [0x42, 0xf3, 0x06, 0xab]

/-- The reader on the first 14 bytes: `blob 12`. -/
def cutReader : Reader :=
  { m := cutZip.take 14, zip := { fed := cutZip.take 14, produced := 7 }, buf := some [98, 108, 111, 98, 32, 49, 50], buflen := 7, s := 1,
    cws := 14, cwe := 14, cbr := 14, phi := true }

/-- **C69** an object cut in its header opens as another one: a blob of one byte, `b`. -/
theorem C69_cut_header : ∃ m ty ds data r r', ZlibLaws storedZlib ∧ IsDecimal ds data.length ∧
    IsZip storedZlib m m.length (object ty ds data) ∧ data.length = 12 ∧
    Reader.new storedZlib (m.take 14) = .ok (ty, 1, r) ∧ r.read storedZlib (-1) = (r', .ok [98]) := by
  obtain ⟨r', h⟩ := exists_fst (x := cutReader.read storedZlib (-1)) (b := .ok [98]) (by decide +kernel)
  exact ⟨cutZip, blob, [49, 50], [104, 101, 108, 108, 111, 44, 32, 119, 111, 114, 108, 100], cutReader, r', storedZlib_laws,
    ⟨by decide, by decide, by decide⟩, isZip_of storing (by decide +kernel) (by decide +kernel), rfl, by decide +kernel, h⟩

/-! ## Examples -/

/-- The stream of "hello" without its last six bytes, and with a wrong bit. -/
example : (readMany (Reader.read storedZlib) (Reader.ofSize (helloZip.take 7) 5) [2, -1, -1]).2 = .ok [[104, 101], [108, 108], []] := by
  decide +kernel
example : storedZlib.bad (helloZip.set 3 0x49) = true := by decide +kernel
/-- The hypotheses of `C69_refused`: a stream as long as the object, with a wrong length of the block. -/
example : storedZlib.bad [0x78, 0x01, 0x01, 0x08, 0x00, 0xf7, 0xfe] = true ∧ (storedZlib.out [0x78, 0x01, 0x01, 0x08, 0x00, 0xf7, 0xfe]).length = 0 := by
  decide +kernel
example : (Reader.ofSize [0x78, 0x01, 0x01, 0x08, 0x00, 0xf7, 0xfe] 8 |>.read storedZlib (-1)).2 = .error .zlibError := by decide +kernel
/-- The object of `cutZip` without its checksum and its last letter. -/
example : ((Reader.new storedZlib (cutZip.take 26)).map fun x => (x.1, x.2.1, (x.2.2.read storedZlib (-1)).2)) =
    .ok (blob, 12, .ok [104, 101, 108, 108, 111, 44, 32, 119, 111, 114, 108]) := by decide +kernel
example : (Reader.new storedZlib (cutZip.set 25 0)) = .error .zlibError := by decide +kernel

end GitDB.Props
