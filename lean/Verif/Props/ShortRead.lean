import Verif.Props.WrongSize
/-!
# C82: streams whose reads return less than was asked for
-/
set_option autoImplicit false

namespace GitDB.Props
open GitDB Spec

variable {σ ω ρ : Type}

/-- What a copying loop reads which stops at the first read that returns less than was asked for, or when `size` bytes have been
read; `done` bytes have been read before.  `ps` are the pieces, `s'` is the state of the stream afterwards. -/
inductive CopyReads (read : σ → Int → σ × Res Bytes) (size chunk : Int) : Int → σ → List Bytes → σ → Prop
  | last {done : Int} {s s' : σ} {d : Bytes} (h : read s (min chunk (size - done)) = (s', .ok d))
      (hend : (d.length : Int) < min chunk (size - done) ∨ done + d.length = size) : CopyReads read size chunk done s [d] s'
  | more {done : Int} {s s1 s' : σ} {d : Bytes} {ps : List Bytes} (h : read s (min chunk (size - done)) = (s1, .ok d))
      (hmore : ¬ ((d.length : Int) < min chunk (size - done) ∨ done + d.length = size))
      (ht : CopyReads read size chunk (done + d.length) s1 ps s') : CopyReads read size chunk done s (d :: ps) s'

theorem copyLoop_reads {read : σ → Int → σ × Res Bytes} {write : ω → Bytes → ω × Res ρ} (hw : ∀ w d, ∃ w' k, write w d = (w', .ok k))
    {size chunk : Int} {done : Int} {s s' : σ} {ps : List Bytes} (h : CopyReads read size chunk done s ps s') :
    ∀ (fuel : Nat), ps.length ≤ fuel → ∀ w, ∃ w' m rs, streamCopyLoop read write size chunk fuel done s w = (s', w', .ok m) ∧
      writeMany write w ps = (w', .ok rs) := by
  induction h with
  | @last done s s' d h hend =>
    intro fuel hf w
    obtain ⟨f, rfl⟩ : ∃ f, fuel = f + 1 := ⟨fuel - 1, by simp at hf; omega⟩
    obtain ⟨w', k, e⟩ := hw w d
    refine ⟨w', done + d.length, [k], ?_, by simp only [writeMany, e]⟩
    simp only [streamCopyLoop, h, e]
    exact if_pos hend
  | @more done s s1 s' d ps h hmore _ ih =>
    intro fuel hf w
    obtain ⟨f, rfl⟩ : ∃ f, fuel = f + 1 := ⟨fuel - 1, by simp at hf; omega⟩
    obtain ⟨w1, k, e⟩ := hw w d
    obtain ⟨w', m, rs, e1, e2⟩ := ih f (by simp at hf; omega) w1
    refine ⟨w', m, k :: rs, ?_, by simp only [writeMany, e, e2]⟩
    simp only [streamCopyLoop, h, e]
    exact (if_neg hmore).trans e1

theorem copyLoop_read {read : σ → Int → σ × Res Bytes} {write : ω → Bytes → ω × Res ρ} {size chunk : Int} :
    ∀ (fuel : Nat) (done : Int) (s : σ) (w : ω) (m : Int), (streamCopyLoop read write size chunk fuel done s w).2.2 = .ok m →
      ∃ ps, CopyReads read size chunk done s ps (streamCopyLoop read write size chunk fuel done s w).1 ∧ ps.length ≤ fuel := by
  intro fuel
  induction fuel with
  | zero => intro done s w m h; cases h
  | succ f ih =>
    intro done s w m h
    simp only [streamCopyLoop] at h ⊢
    rcases hr : read s (min chunk (size - done)) with ⟨s1, e | d⟩
    · rw [hr] at h; cases h
    rw [hr] at h
    simp only at h ⊢
    rcases hw : write w d with ⟨w1, e | k⟩
    · rw [hw] at h; cases h
    rw [hw] at h
    simp only at h ⊢
    by_cases hc : (d.length : Int) < min chunk (size - done) ∨ done + d.length = size
    · rw [if_pos hc] at h ⊢
      exact ⟨[d], .last hr hc, by simp⟩
    · rw [if_neg hc] at h ⊢
      obtain ⟨ps, h1, h2⟩ := ih _ _ _ _ h
      exact ⟨d :: ps, .more hr hc h1, by simp; omega⟩

theorem storeTo_reads (H : Hash) (zl : Zlib) (L : ZlibLaws zl) (fuel : Nat) (read : σ → Int → σ × Res Bytes) (i : IStream σ)
    (hb : i.binsha = none) (ha : ∀ b ∈ i.type, b.toNat < 128) {ps : List Bytes} {s' : σ}
    (hp : CopyReads read i.size looseChunk 0 i.strm ps s') (hf : ps.length ≤ fuel) :
    ∃ x w, x = i.type ++ [0x20] ++ natToDec i.size ++ [0] ++ ps.flatten ∧
      looseStoreTo fuel read zippedWrite (fun w => w.sha1.sha H true) i (ZippedStoreShaWriter.new zl) =
        (w, { i with strm := s', binsha := some (H.digest x) }, .ok ()) ∧
      IsZip zl w.close.getvalue w.close.getvalue.length x := by
  have hh : looseObjectHeader i.type i.size = .ok (i.type ++ [0x20] ++ natToDec i.size ++ [0]) := by
    rw [looseObjectHeader, if_pos (by simpa using ha)]
  have hw : ∀ (w : ZippedStoreShaWriter zl) d, ∃ w' k, zippedWrite w d = (w', .ok k) := fun w d => ⟨_, _, zippedWrite_ok w d⟩
  obtain ⟨w', m, rs, c1, c2⟩ := copyLoop_reads hw hp fuel hf
    ((ZippedStoreShaWriter.new zl).write (i.type ++ [0x20] ++ natToDec i.size ++ [0])).1
  obtain ⟨ds, hds⟩ : ∃ ds, ds = (i.type ++ [0x20] ++ natToDec i.size ++ [0]) :: ps := ⟨_, rfl⟩
  have h1 : ∃ rs, writeMany zippedWrite (ZippedStoreShaWriter.new zl) ds = (w', .ok rs) := by
    rw [hds]
    simp only [writeMany, zippedWrite_ok, c2]
    exact ⟨_, rfl⟩
  have h2 : ds.flatten = i.type ++ [0x20] ++ natToDec i.size ++ [0] ++ ps.flatten := by rw [hds, List.flatten_cons]
  obtain ⟨rs', h1⟩ := h1
  have e : ∃ n, writeObject fuel i.type i.size read zippedWrite looseChunk i.strm (ZippedStoreShaWriter.new zl) = (s', w', .ok n) := by
    unfold writeObject streamCopy
    simp only [hh, zippedWrite_ok, c1]
    exact ⟨_, rfl⟩
  obtain ⟨n, e⟩ := e
  obtain ⟨w'', k1, k2, k3, k4⟩ := zipped_writeMany (zl := zl) ds (ZippedStoreShaWriter.new zl)
  have hww : w'' = w' := by
    have := zippedWrite_many ds _ h1
    rw [k1] at this; exact this
  subst hww
  have hsha : w''.sha1.sha H true = binToHex (H.digest ds.flatten) := by
    simp [Sha1Writer.sha, k2, ZippedStoreShaWriter.new]
  refine ⟨ds.flatten, w'', h2, ?_, ?_⟩
  · unfold looseStoreTo
    simp only [hb, e, hsha, hexToBin_binToHex]
  · unfold ZippedStoreShaWriter.getvalue
    rw [k3, BytesIO.write_end _ _ rfl]
    exact ⟨L.emit_stop 1 ds, L.emit_out 1 ds⟩

/-- **C82** A store believes every stream: it reads until a read returns less than was asked for or the announced size is reached.
What has been read by then is stored, whether it is all or not, behind a header with the announced size, under the digest of both. -/
theorem C82_store (H : Hash) (zl : Zlib) (L : ZlibLaws zl) (fuel : Nat) (rnd : Bytes) (isfile : Bool)
    (read : σ → Int → σ × Res Bytes) (i : IStream σ) (hb : i.binsha = none) (ha : ∀ b ∈ i.type, b.toNat < 128) (ps : List Bytes)
    (s' : σ) (hp : CopyReads read i.size looseChunk 0 i.strm ps s') (hf : ps.length ≤ fuel) :
    ∃ ds x, IsDecimal ds i.size ∧ x = object i.type ds ps.flatten ∧
      (looseStore H zl fuel (undisturbed rnd isfile) read i).2 = ({ i with strm := s', binsha := some (H.digest x) }, .ok ()) ∧
      IsZip zl (written (looseStore H zl fuel (undisturbed rnd isfile) read i).1)
        (written (looseStore H zl fuel (undisturbed rnd isfile) read i).1).length x := by
  obtain ⟨h1, h2⟩ := C79_zipped H zl fuel rnd isfile read i hb
  obtain ⟨x, w, e1, e2, e3⟩ := storeTo_reads H zl L fuel read i hb ha hp hf
  rw [← h1, ← h2, e2]
  exact ⟨_, x, natToDec_isDecimal i.size, e1, rfl, e3⟩

/-- **C82** Conversely, if a store succeeds, this is what it has read. -/
theorem C82_only (H : Hash) (zl : Zlib) (fuel : Nat) (rnd : Bytes) (isfile : Bool) (read : σ → Int → σ × Res Bytes) (i : IStream σ)
    (hb : i.binsha = none) (hok : (looseStore H zl fuel (undisturbed rnd isfile) read i).2.2 = .ok ()) :
    ∃ ps, CopyReads read i.size looseChunk 0 i.strm ps (looseStore H zl fuel (undisturbed rnd isfile) read i).2.1.strm ∧
      ps.length ≤ fuel := by
  obtain ⟨h1, -⟩ := C79_zipped H zl fuel rnd isfile read i hb
  rw [← h1] at hok ⊢
  simp only [looseStoreTo, hb] at hok ⊢
  rcases hw : writeObject fuel i.type i.size read (zippedWrite (zl := zl)) looseChunk i.strm (ZippedStoreShaWriter.new zl) with
    ⟨s, w, e | n⟩
  · rw [hw] at hok; cases hok
  have hs : ∃ ps, CopyReads read i.size looseChunk 0 i.strm ps s ∧ ps.length ≤ fuel := by
    unfold writeObject at hw
    rcases hh : looseObjectHeader i.type i.size with e | hdr
    · rw [hh] at hw; simp at hw
    rw [hh] at hw
    simp only [zippedWrite_ok] at hw
    unfold streamCopy at hw
    generalize ((ZippedStoreShaWriter.new zl).write hdr).1 = w0 at hw
    have := copyLoop_read (read := read) (write := zippedWrite (zl := zl)) (size := i.size) (chunk := looseChunk) fuel 0 i.strm w0
    rcases hc : streamCopyLoop read (zippedWrite (zl := zl)) i.size looseChunk fuel 0 i.strm w0 with ⟨s1, w1, e | m⟩
    · rw [hc] at hw; simp at hw
    · rw [hc] at hw this
      simp only [Prod.mk.injEq] at hw
      rw [← hw.1]
      exact this m rfl
  obtain ⟨ps, h1, h2⟩ := hs
  refine ⟨ps, ?_, h2⟩
  simp only
  split <;> exact h1

/-- **C82** The same for a `MemoryDB`. -/
theorem C82_memory (H : Hash) (zl : Zlib) (L : ZlibLaws zl) (fuel : Nat) (read : σ → Int → σ × Res Bytes) (i : IStream σ)
    (hb : i.binsha = none) (ha : ∀ b ∈ i.type, b.toNat < 128) (ps : List Bytes) (s' : σ)
    (hp : CopyReads read i.size looseChunk 0 i.strm ps s') (hf : ps.length ≤ fuel) (db : MemDB) :
    ∃ ds x o, IsDecimal ds i.size ∧ x = object i.type ds ps.flatten ∧
      (db.store H zl fuel read i).2 = ({ i with strm := s', binsha := some (H.digest x) }, .ok ()) ∧
      nameGet (H.digest x) (db.store H zl fuel read i).1.cache = some o ∧ o.type = i.type ∧ o.size = i.size ∧
      IsZip zl o.reader.m o.reader.m.length x := by
  obtain ⟨x, w, e1, e2, e3⟩ := storeTo_reads H zl L fuel read i hb ha hp hf
  have hseek : w.close.seek 0 0 = ({ w.close with buf := { w.close.buf with pos := 0 } }, .ok ()) := by
    unfold ZippedStoreShaWriter.seek
    rw [if_neg (by simp)]
  unfold MemDB.store
  simp only [e2, hseek]
  exact ⟨_, x, _, natToDec_isDecimal i.size, e1, rfl, nameGet_set_same _ _ _, rfl, rfl, e3⟩

/-- **C82** If a store succeeds although it got fewer bytes than announced, what it has written is no object. -/
theorem C82_no_object (ty ds : Bytes) (size : Nat) (hd : IsDecimal ds size) (ps : List Bytes) (hshort : ps.flatten.length < size)
    (ht : ∀ c ∈ ty, c ≠ 0x20 ∧ c ≠ 0) (ty' data' : Bytes) (ht' : ∀ c ∈ ty', c ≠ 0x20 ∧ c ≠ 0) :
    ¬ IsObject (object ty ds ps.flatten) ty' data' := by
  have := C80_short ty ds ps.flatten size hd hshort ht ty' data' ht'
  rwa [List.take_of_length_le (by omega)] at this

theorem big_read_all : ∃ r' d, (plainReader bigZip bigData 11).read toyZlib 16371 = (r', .ok d) ∧ d.length = 8190 := by
  have hwant : (plainReader bigZip bigData 11).want 16371 = 16371 := by
    unfold Reader.want plainReader
    simp only [big_data_length]
    split <;> omega
  have h := read_plainReader (objHead blob bigDigits) bigData [] big_plain
    (by rw [big_head_length]; decide)
    (by rw [List.length_append, big_head_length, big_data_length]; decide) 16371
    (by
      rw [big_head_length]
      have := hwant
      unfold bigZip object at this
      rw [this]; simp only [maxHeader]; omega)
    (by
      rw [big_head_length]
      have := hwant
      unfold bigZip object at this
      rw [this]; simp only [maxHeader]; omega)
  obtain ⟨r', d, e, hd⟩ := h
  rw [big_head_length] at e hd
  refine ⟨r', d, e, ?_⟩
  have hw := hwant
  unfold bigZip object at hw
  simp only [hw, big_data_length, maxHeader] at hd
  rw [if_neg (by omega)] at hd
  omega

theorem big_all (H : Hash) : ∃ fs x c data r r' d, LooseAt H toyZlib fs x c blob data ∧ NoStall toyZlib c ∧
    data.length = 16371 ∧ c ≠ [] ∧ Reader.new toyZlib c = .ok (blob, (16371 : Nat), r) ∧
    r.read toyZlib 16371 = (r', .ok d) ∧ d.length = 8190 ∧ x.length = 16382 := by
  obtain ⟨r', d, h1, h2⟩ := big_read_all
  refine ⟨_, _, _, _, _, r', d, bigFs_looseAt H, plain_noStall _ [] big_plain, big_data_length, ?_, ?_, h1, h2, ?_⟩
  · rw [bigZip]; exact List.append_ne_nil_of_right_ne_nil _ (by decide)
  · rw [big_new, big_data_length]
  · rw [object, List.length_append, big_head_length, big_data_length]

/-- **C82** There is an object of 16371 bytes in a loose database for which this happens within the library: its stream, stored in
another database, is cut to 8190 bytes.  The store succeeds, the name is that of what has been written, and that is no object. -/
theorem C82_transfer (H : Hash) : ∃ zl fs x c data o i, ZlibLaws zl ∧ LooseAt H zl fs x c blob data ∧ NoStall zl c ∧
    data.length = 16371 ∧ looseOStream zl fs true true (H.digest x) = .ok o ∧ o.toIStream zl 1 = .ok i ∧
    ∀ rnd isfile, ∃ x', (looseStore H zl 1 (undisturbed rnd isfile) (PStream.read zl 1) i).2.2 = .ok () ∧
      (looseStore H zl 1 (undisturbed rnd isfile) (PStream.read zl 1) i).2.1.binsha = some (H.digest x') ∧
      IsZip zl (written (looseStore H zl 1 (undisturbed rnd isfile) (PStream.read zl 1) i).1)
        (written (looseStore H zl 1 (undisturbed rnd isfile) (PStream.read zl 1) i).1).length x' ∧
      x'.length + 8181 = x.length ∧ ∀ ty' data', (∀ b ∈ ty', b ≠ 0x20 ∧ b ≠ 0) → ¬ IsObject x' ty' data' := by
  obtain ⟨fs, x, c, data, r, r', d, hat, hns, hlen, hc, hnew, hr, hd, hx⟩ := big_all H
  obtain ⟨path, m, hp, hf⟩ := hat.file
  have hm := mapLooseObject_file hp hf hc true true (.inl rfl)
  refine ⟨toyZlib, fs, x, c, data, ⟨H.digest x, .bytes blob, some 16371, .base r⟩, ⟨blob, 16371, none, .base r⟩, toyZlib_laws, hat, hns,
    hlen, ?_, rfl, ?_⟩
  · unfold looseOStream looseStream
    rw [hm]
    simp only [hnew]
    rfl
  · intro rnd isfile
    have hcr : CopyReads (PStream.read toyZlib 1) ((16371 : Nat) : Int) looseChunk 0 (.base r) [d] (.base r') := by
      have hmin : min looseChunk (((16371 : Nat) : Int) - 0) = 16371 := by simp only [looseChunk, PAGESIZE]; omega
      refine .last ?_ (.inl ?_)
      · rw [hmin]
        simp [PStream.read, PStream.open, hr]
      · rw [hmin, hd]; decide
    obtain ⟨ds, x', h1, h2, h3, h4⟩ := C82_store H toyZlib toyZlib_laws 1 rnd isfile (PStream.read toyZlib 1)
      ⟨blob, 16371, none, .base r⟩ rfl (show ∀ b ∈ blob, b.toNat < 128 by decide) [d] _ hcr (by simp)
    have hlen : ds.length = 5 := by
      have h1 : IsDecimal ds 16371 := h1
      rw [isDecimal_eq _ _ h1]
      show bigDigits.length = 5
      rw [bigDigits_eq]; rfl
    refine ⟨x', by rw [h3], by rw [h3], h4, ?_, ?_⟩
    · rw [h2, hx]
      simp only [object, List.length_append, hlen, List.flatten_cons, List.flatten_nil, List.append_nil, hd, List.length_cons,
        List.length_nil, blob]
    · intro ty' data' ht'
      rw [h2]
      exact C82_no_object blob ds 16371 h1 [d] (by simp [hd]) (by decide) ty' data' ht'

/-! ### Cases -/

/-- A stream that returns at most two bytes per read. -/
def pairRead (s : Bytes) (n : Int) : Bytes × Res Bytes := (s.drop (min 2 n.toNat), .ok (s.take (min 2 n.toNat)))

/-- Five bytes from such a stream: two are stored. -/
example := C82_store exHash toyZlib toyZlib_laws 10 [5] false pairRead ⟨blob, 5, none, [1, 2, 3, 4, 5]⟩ rfl (by decide) [[1, 2]] [3, 4, 5]
  (.last (by decide) (.inl (by decide))) (by decide)
example := C82_memory exHash toyZlib toyZlib_laws 10 pairRead ⟨blob, 5, none, [1, 2, 3, 4, 5]⟩ rfl (by decide) [[1, 2]] [3, 4, 5]
  (.last (by decide) (.inl (by decide))) (by decide) {}
example := C82_no_object blob [53] 5 ⟨by decide, by decide, by decide⟩ [[1, 2]] (by decide) (by decide) blob [1, 2] (by decide)
example := C82_only exHash toyZlib 10 [5] false pairRead ⟨blob, 5, none, [1, 2, 3, 4, 5]⟩ rfl (by decide +kernel)

end GitDB.Props
