import Verif.Proofs.RealZip
import Verif.Props.Loose
import Verif.Props.Pack
/-!
# C67: objects in the real compressed format

The other properties hold for every library that meets the contract `ZlibLaws`.  Here the decompressor is the one of RFC 1950 and
RFC 1951 (`Verif/Model/Inflate.lean`).
-/
set_option autoImplicit false

namespace GitDB.Props
open GitDB Spec Deflate

/-- **C67** the decompressor meets the contract: whatever the compressor is, if the decompressor finds the end of what it emits,
and the data, then all laws hold. -/
theorem C67_contract (c : Compressor) (hstop : ∀ level ds, (zlib c).stop ((zlib c).emit (c.cinit level) ds) =
      some ((zlib c).emit (c.cinit level) ds).length)
    (hout : ∀ level ds, (zlib c).out ((zlib c).emit (c.cinit level) ds) = ds.flatten) : ZlibLaws (zlib c) :=
  zlib_laws c hstop hout

/-- **C67** there is such a compressor: stored blocks of any size, in any pieces, with checksum. -/
theorem C67_stored : ZlibLaws storedZlib := storedZlib_laws

/-- **C67** a stored object is decompressed without taking more than needed: after `decompress(m, n)` with `n` bytes, `unconsumed_tail`
begins with the next byte of the object.  (This is what `compressed_bytes_read` and the windows of a reader rely on.) -/
theorem C67_stored_tail (c : Compressor) (x rest : Bytes) (n : Nat) (h0 : 0 < n) (hn : n < x.length) (hx : x.length ≤ 65535) :
    ZDec.decompress (zlib c) {} (storedHead x.length ++ (x ++ rest)) n =
      ({ fed := storedHead x.length ++ x.take n, produced := n, tail := x.drop n ++ rest }, .ok (x.take n)) := by
  have hl : (storedHead x.length).length = 7 := rfl
  have hne : x ≠ [] := List.length_pos_iff.1 (by omega)
  have hpre : x <+: (zlib c).out (storedHead x.length ++ (x ++ rest)) := by
    show x <+: (feed {} _).rout.reverse
    rw [← List.append_assoc, feed_append]
    have h1 : feed {} (storedHead x.length ++ x) = ⟨x.reverse, endBlock true 7⟩ := by
      rw [feed_append, feed_storedHead _ (by omega) hx, feed_stored _ _ _ hne, List.append_nil]
    have h2 := feed_suffix rest (feed {} (storedHead x.length ++ x))
    rw [h1] at h2 ⊢
    have h3 := List.reverse_prefix.2 h2
    rwa [List.reverse_reverse] at h3
  obtain ⟨t, ht⟩ := hpre
  have htk : (zlib c).taken [] (storedHead x.length ++ (x ++ rest)) n = 7 + n := stored_taken x rest n h0 hn hx
  have hlen : n < ((zlib c).out (storedHead x.length ++ (x ++ rest))).length := by rw [← ht, List.length_append]; omega
  unfold ZDec.decompress
  rw [if_neg (by omega)]
  simp only [Bool.false_eq_true, if_false, List.nil_append, Nat.zero_add, Int.toNat_natCast, List.drop_zero]
  rw [if_pos ⟨by omega, hlen⟩, htk, ← ht, List.take_append, List.drop_append, hl, show 7 + n - 7 = n by omega,
    List.take_of_length_le (by omega : (storedHead x.length).length ≤ 7 + n), List.drop_eq_nil_of_le (by omega : (storedHead x.length).length ≤ 7 + n),
    List.take_append_of_le_length (by omega), List.drop_append_of_le_length (by omega), List.take_append_of_le_length (by omega), List.nil_append]

example := C67_stored_tail storing [1, 2, 3, 4, 5] [6] 3 (by decide) (by decide) (by decide)

/-- **C67** in any stream, when the room for output ends, the decompressor has not taken a byte after it had more than `limit` bytes of
output. -/
theorem C67_taken_least (c : Compressor) (fed w : Bytes) (limit j : Nat) (hj : j < (zlib c).taken fed w limit) :
    ((zlib c).out (fed ++ w.take j)).length ≤ limit := by
  have h := takenFrom_least limit w (feed {} fed) j hj
  show (feed {} (fed ++ w.take j)).rout.reverse.length ≤ limit
  rw [feed_append, List.length_reverse]
  unfold Inf.full at h
  simp only [Bool.or_eq_false_iff, decide_eq_false_iff_not] at h
  omega

theorem isZip_of (c : Compressor) {m : Bytes} {clen : Nat} {content : Bytes} (h1 : stopFrom {} m = some clen)
    (h2 : (feed {} m).rout.reverse = content) : IsZip (zlib c) m clen content := ⟨h1, h2⟩

theorem zlib_out (c : Compressor) (m : Bytes) : (zlib c).out m = (feed {} m).rout.reverse := rfl

theorem zlib_stop (c : Compressor) (m : Bytes) : (zlib c).stop m = stopFrom {} m := rfl

/-! ## One block -/

/-- A zlib stream that consists of one block without codes of its own: the block is the last one, and is stored or has the fixed
codes of RFC 1951, 3.2.6. -/
def OneBlock (m : Bytes) : Prop := ∃ b, m[2]? = some b ∧ (b.toNat % 8 = 1 ∨ b.toNat % 8 = 3)

/-- **C67** a reader with the size of the object, on any valid stream of one block, is an ideal stream. -/
theorem C67_one_block (c : Compressor) (L : ZlibLaws (zlib c)) (m : Bytes) (clen : Nat) (content : Bytes)
    (hm : IsZip (zlib c) m clen content) (h1 : OneBlock m) (ns : List Int) :
    ∃ r ps, readMany (Reader.read (zlib c)) (Reader.ofSize m content.length) ns = (r, .ok ps) ∧
      ps.flatten = content.take (readLen content.length ns) := by
  obtain ⟨b, hb, h⟩ := h1
  exact C14_size_mode_partial (zlib c) L m clen content hm (oneBlock_noStall c m b hb h) ns

/-- **C67** the same for loose objects of any size: an empty result means the end. -/
theorem C67_one_block_object (c : Compressor) (L : ZlibLaws (zlib c)) (m : Bytes) (clen : Nat)
    (ty ds data : Bytes) (hd : IsDecimal ds data.length) (ht : ∀ c ∈ ty, c ≠ 0x20 ∧ c ≠ 0)
    (hm : IsZip (zlib c) m clen (object ty ds data)) (h1 : OneBlock m)
    (hl : (objHead ty ds).length ≤ min 8192 ((zlib c).out (m.take 8192)).length) (ns : List Int) (n : Int) :
    ∃ r r1 ps r2 d, Reader.new (zlib c) m = .ok (ty, (data.length : Int), r) ∧
      readMany (Reader.read (zlib c)) r ns = (r1, .ok ps) ∧ r1.read (zlib c) n = (r2, .ok d) ∧
      ps.flatten <+: data ∧ (d = [] → ps.flatten = data) := by
  obtain ⟨b, hb, h⟩ := h1
  obtain ⟨r, r1, ps, r2, d, k1, k2, k3, k4⟩ := C13_object_mode_partial (zlib c) L m clen ty ds data hd ht hm
    (oneBlock_noStall c m b hb h) hl ns n
  obtain ⟨r', j1, r1', ps', j2, j3⟩ := C11_object_mode (zlib c) L m clen ty ds data hd ht hm hl ns
  rw [k1] at j1
  simp only [Except.ok.injEq, Prod.mk.injEq, true_and] at j1
  subst j1
  rw [k2] at j2
  simp only [Prod.mk.injEq, Except.ok.injEq] at j2
  rw [← j2.2] at j3
  exact ⟨r, r1, ps, r2, d, k1, k2, k3, j3, k4⟩

/-! ## Blocks with codes of their own -/

/-- What Python's `zlib.compress(b"acabbcbcaccbbbaca", 1)` returns: one block, with dynamic codes. -/
def dynZip : Bytes := [0x78, 0x01, 0x05, 0xc1, 0x01, 0x01, 0x00, 0x00, 0x00, 0x40, 0xa0, 0xad, 0xf8, 0xff, 0x41, 0x11, 0x9a, 0x51, 0x2a,
  0x31, 0x3a, 0xad, 0x06, 0x84]
def dynContent : Bytes := [97, 99, 97, 98, 98, 99, 98, 99, 97, 99, 99, 98, 98, 98, 97, 99, 97]

theorem dynZip_isZip (c : Compressor) : IsZip (zlib c) dynZip 24 dynContent :=
  isZip_of c (by decide +kernel) (by decide +kernel)

example := C67_taken_least storing [] dynZip 4 5 (by decide +kernel)

/-- What `compressobj(1)` emits for `flush(Z_SYNC_FLUSH)`, `compress(b"hello")`, `flush()`: an empty block and one with the fixed
codes. -/
def syncZip : Bytes := [0x78, 0x01, 0, 0, 0, 0xff, 0xff, 0xcb, 0x48, 0xcd, 0xc9, 0xc9, 0x07, 0x00, 0x06, 0x2c, 0x02, 0x15]
def syncContent : Bytes := [104, 101, 108, 108, 111]

theorem syncZip_isZip (c : Compressor) : IsZip (zlib c) syncZip 18 syncContent :=
  isZip_of c (by decide +kernel) (by decide +kernel)

theorem exists_fst {α β : Type} {x : α × β} {b : β} (h : x.2 = b) : ∃ a, x = (a, b) := ⟨x.1, by rw [← h]⟩

/-- **C67** C13 is false in the real format: `read(4)` at the beginning of this object returns nothing. -/
theorem C67_empty_read : ∃ m clen content r', ZlibLaws storedZlib ∧ IsZip storedZlib m clen content ∧ 4 < content.length ∧
    (Reader.ofSize m content.length).read storedZlib 4 = (r', .ok []) := by
  have h : ((Reader.ofSize dynZip dynContent.length).read storedZlib 4).2 = .ok [] := by decide +kernel
  obtain ⟨r', e⟩ := exists_fst h
  exact ⟨dynZip, 24, dynContent, r', storedZlib_laws, dynZip_isZip _, by decide, e⟩

/-- **C67** C14 is false in the real format: `read()` on this object returns nothing. -/
theorem C67_nothing_read : ∃ m clen content r', ZlibLaws storedZlib ∧ IsZip storedZlib m clen content ∧ content ≠ [] ∧
    (Reader.ofSize m content.length).read storedZlib (-1) = (r', .ok []) := by
  have h : ((Reader.ofSize syncZip syncContent.length).read storedZlib (-1)).2 = .ok [] := by decide +kernel
  obtain ⟨r', e⟩ := exists_fst h
  exact ⟨syncZip, 18, syncContent, r', storedZlib_laws, syncZip_isZip _, by decide, e⟩

/-! ## Large loose objects -/

theorem realContent_eq : realContent = object blob bigDigits bigData := by
  unfold realContent object bigData blob
  rw [bigDigits_eq]
  simp only [List.append_assoc]
  rfl

theorem real_new (c : Compressor) (L : ZlibLaws (zlib c)) : Reader.new (zlib c) realZip =
    .ok (blob, (bigData.length : Int), plainReader realZip bigData 11) := by
  have h := new_paced L blob bigDigits bigData (m := realZip) (clen := 16387)
    (by rw [big_data_length]; exact natToDec_isDecimal _)
    (by decide) (by have := realZip_paced c; rwa [realContent_eq] at this) (by rw [big_head_length]; decide)
    (by rw [List.length_append, big_head_length, big_data_length]; decide)
  rwa [big_head_length] at h

theorem real_read (c : Compressor) (L : ZlibLaws (zlib c)) (n : Int) (hw1 : 8190 ≤ n ∧ n ≤ 16371 ∨ n = 0) :
    ∃ r' d, (plainReader realZip bigData 11).read (zlib c) n = (r', .ok d) ∧
      (d.length : Int) = 8189 + (if n ≠ 0 ∧ n ≤ 16370 then 8182 else 1) := by
  have hwant : (plainReader realZip bigData 11).want n = if n = 0 then 16371 else n := by
    unfold Reader.want plainReader
    simp only [big_data_length]
    split <;> split <;> omega
  have hp := realZip_paced c
  rw [realContent_eq] at hp
  have h := read_paced L (objHead blob bigDigits) bigData hp
    (by rw [big_head_length]; decide)
    (by rw [List.length_append, big_head_length, big_data_length]; decide) n
    (by rw [big_head_length, hwant]; simp only [maxHeader]; split <;> omega)
    (by rw [big_head_length, hwant]; simp only [maxHeader]; split <;> omega)
  obtain ⟨r', d, e, hd⟩ := h
  rw [big_head_length] at e hd
  refine ⟨r', d, e, ?_⟩
  simp only [hwant, big_data_length, maxHeader] at hd
  rw [hd]
  repeat' split
  all_goals omega

/-- **C67** a loose object in the real format: `read()` returns 8190 of its 16371 bytes, `read(8191)` returns all of them. -/
theorem C67_short_read (c : Compressor) (L : ZlibLaws (zlib c)) : ∃ m data r r1 d1 r2 d2,
    IsZip (zlib c) m m.length (object blob (natToDec data.length) data) ∧ OneBlock m ∧ data.length = 16371 ∧
    Reader.new (zlib c) m = .ok (blob, (data.length : Int), r) ∧
    r.read (zlib c) (-1) = (r1, .ok d1) ∧ d1.length = 8190 ∧
    r.read (zlib c) 8191 = (r2, .ok d2) ∧ d2.length = 16371 := by
  obtain ⟨r1, d1, h1, k1⟩ := real_read c L 0 (.inr rfl)
  obtain ⟨r2, d2, h2, k2⟩ := real_read c L 8191 (by omega)
  refine ⟨realZip, bigData, _, r1, d1, r2, d2, ?_, ⟨0x4b, rfl, .inr (by decide)⟩, big_data_length, real_new c L, ?_, ?_, h2, ?_⟩
  · have := (realZip_paced c).zip
    rwa [realContent_eq, bigDigits, ← big_data_length, ← realZip_length] at this
  · rw [← h1]; exact read_nonpos _ _ _ _ (by omega) (by omega)
  · simp at k1; omega
  · simp at k2; omega

/-! ## Stored and read back -/

/-- A compressor that emits everything when flushed. -/
def buffering (f : Bytes → Bytes) : Compressor where
  Comp := Bytes
  cinit := fun _ => []
  ccompress := fun c d => (c ++ d, [])
  cflush := f

theorem buffering_emit (f : Bytes → Bytes) : ∀ (ds : List Bytes) (c : Bytes), (zlib (buffering f)).emit c ds = f (c ++ ds.flatten) := by
  intro ds
  induction ds with
  | nil => intro c; simp [Zlib.emit]; rfl
  | cons d ds ih =>
    intro c
    show [] ++ (zlib (buffering f)).emit (c ++ d) ds = _
    rw [ih]
    simp

/-- **C67** every way to write data in the format is a library that meets the contract. -/
theorem C67_any_encoding (f : Bytes → Bytes)
    (h : ∀ data, stopFrom {} (f data) = some (f data).length ∧ (feed {} (f data)).rout.reverse = data) :
    ZlibLaws (zlib (buffering f)) := by
  refine zlib_laws _ ?_ ?_
  · intro level ds
    have := buffering_emit f ds []
    show (zlib (buffering f)).stop ((zlib (buffering f)).emit [] ds) = some ((zlib (buffering f)).emit [] ds).length
    rw [this, zlib_stop]
    exact (h _).1
  · intro level ds
    have := buffering_emit f ds []
    show (zlib (buffering f)).out ((zlib (buffering f)).emit [] ds) = _
    rw [this, zlib_out]
    exact (h _).2

/-- Stored blocks, except for one object. -/
def realEncode (data : Bytes) : Bytes := if data = realContent then realZip else storedZlib.emit (storedZlib.cinit 0) [data]

theorem realEncode_laws : ZlibLaws (zlib (buffering realEncode)) := by
  apply C67_any_encoding
  intro data
  unfold realEncode
  split
  · rename_i h
    rw [h]
    exact ⟨by rw [realZip_stop, realZip_length], by rw [feed_real, List.reverse_reverse]⟩
  · have h1 := storedZlib_laws.emit_stop 0 [data]
    have h2 := storedZlib_laws.emit_out 0 [data]
    unfold storedZlib at h1 h2 ⊢
    rw [zlib_stop] at h1
    rw [zlib_out] at h2
    exact ⟨h1, by simpa using h2⟩

/-- **C67** C34 is false in the real format: an object is stored in an empty database, and `read()` on its stream returns 8190 of its
16371 bytes. -/
theorem C67_stored_then_short : ∃ (c : Compressor) (H : Hash) (fuel : Nat) (env : StoreEnv) (data : Bytes) (fs' : Fs) (name : Bytes)
    (r r' : Reader) (d : Bytes), ZlibLaws (zlib c) ∧ NoCollision H blob data ∧ data.length = 16371 ∧
    emptyFs.run (looseStore H (zlib c) fuel env bytesIORead { type := blob, size := data.length, strm := data }).1 = some fs' ∧
    (looseStore H (zlib c) fuel env bytesIORead { type := blob, size := data.length, strm := data }).2.2 = .ok () ∧
    (looseStore H (zlib c) fuel env bytesIORead { type := blob, size := data.length, strm := data }).2.1.binsha = some name ∧
    looseStream (zlib c) fs' true true name = .ok (blob, (data.length : Int), r) ∧
    r.read (zlib c) (-1) = (r', .ok d) ∧ d.length = 8190 := by
  have L := realEncode_laws
  have hem : ∀ (level : Int) (ds : List Bytes), ds.flatten = realContent → (zlib (buffering realEncode)).emit ((zlib (buffering realEncode)).cinit level) ds = realZip := by
    intro level ds hds
    show (zlib (buffering realEncode)).emit [] ds = realZip
    rw [buffering_emit, List.nil_append, hds, realEncode, if_pos rfl]
  generalize hc : buffering realEncode = cc at L hem
  have hsz : bigData.length = 16371 := big_data_length
  obtain ⟨fuel, hfuel⟩ : ∃ n, 16371 < n := ⟨_, Nat.lt_succ_self _⟩
  obtain ⟨H, hH⟩ : ∃ H, NoCollision H blob bigData := ⟨_, oneHash_noCollision blob bigData⟩
  obtain ⟨i, hi⟩ : ∃ i : IStream Bytes, i = { type := blob, size := bigData.length, strm := bigData } := ⟨_, rfl⟩
  obtain ⟨hok, fs', hrun⟩ := looseStore_success H (zl := zlib cc) L (fuel := fuel)
    (Or.inl bytesIO_reads) (i := i) (data := bigData) (by rw [hi]) (by rw [hi]) (by rw [hi]) (by rw [hi]; decide) (by rw [hsz]; exact hfuel)
    emptyFs [1] rfl false _ rfl (Or.inl ⟨rfl, rfl⟩) (Or.inl ⟨rfl, rfl⟩)
  rcases store_effect hrun with ⟨⟨e, he⟩, _⟩ | ⟨hex, c, m, h1, h2, h3, h4, h5, h6⟩
  · rw [hok] at he; simp at he
  rcases h6 with ⟨_, hm, b, h7, h8⟩ | ⟨e, he, _⟩
  rotate_left
  · rw [hok] at he; simp at he
  have hlw : looseWrite H (zlib cc) fuel { tmp := some [1], isfile := false } bytesIORead i =
    writeNew H (zlib cc) fuel [] bytesIORead i := by
    rw [hi]; rfl
  rw [hlw] at h1 h2 h5
  obtain ⟨ds, k1, k2, k3⟩ := writeNew_emit (Or.inl bytesIO_reads) (data := bigData) (by rw [hi]) (by rw [hi]) h2
  rcases h5 with ⟨h5, _⟩ | ⟨_, h5⟩
  · simp at h5
  have hobj : ds.flatten = realContent := by
    rw [realContent_eq, k1, bigDigits, big_data_length, hi]
  have hc : c = realZip := by rw [h5, k2, hem _ _ hobj]
  rw [k3, hi] at h1
  simp only [storedName, Except.ok.injEq] at h1
  subst h1
  rw [hexToBin_binToHex] at h7
  simp only [Except.ok.injEq] at h7
  subst h7
  have hne : realZip ≠ [] := by
    intro h; have := realZip_length; rw [h] at this; simp at this
  have hst : looseStream (zlib cc) fs' true true (H.digest ds.flatten) =
      .ok (blob, (bigData.length : Int), plainReader realZip bigData 11) := by
    unfold looseStream
    rw [mapLooseObject_file (isPathOf_objectPath _) (by rw [h3, storedFs, Fs.set_same]) (c := c) (m := m)
      (by rw [hc]; exact hne) true true (Or.inl rfl)]
    simp only
    rw [hc, real_new _ L]
  subst hi
  obtain ⟨r', d, e, hd⟩ := real_read cc L 0 (by omega)
  refine ⟨cc, H, fuel, { tmp := some [1], isfile := false }, bigData, fs', H.digest ds.flatten, _, r', d, L, hH, hsz, hrun, hok, h8, hst, ?_, ?_⟩
  · rw [← e]; exact read_nonpos _ _ _ _ (by omega) (by omega)
  · simp at hd; omega

/-! ## Examples -/

/-- `zlib.compress(b"hello")`. -/
def helloZip : Bytes := [0x78, 0x9c, 0xcb, 0x48, 0xcd, 0xc9, 0xc9, 0x07, 0x00, 0x06, 0x2c, 0x02, 0x15]

example : OneBlock helloZip := ⟨0xcb, rfl, .inr (by decide)⟩
example : IsZip storedZlib helloZip 13 syncContent := isZip_of storing (by decide +kernel) (by decide +kernel)
example : (readMany (Reader.read storedZlib) (Reader.ofSize helloZip 5) [1, 2, 9, 1]).2 = .ok [[104], [101, 108], [108, 111], []] := by
  decide +kernel
/-- One bit is flipped: the checksum is wrong. -/
example : (feed {} (helloZip.set 3 0x49)).mode = .bad := by decide +kernel

end GitDB.Props
