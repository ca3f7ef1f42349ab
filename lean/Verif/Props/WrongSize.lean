import Verif.Props.OutStreams
import Verif.Props.Transfer
/-!
# C80: streams which are not as long as their size says
-/
set_option autoImplicit false

namespace GitDB.Props
open GitDB Spec

variable {σ ω ρ ω₂ ρ₂ : Type}

/-- `write_object` with any announced size, into a writer which accepts everything. -/
theorem writeObject_take {read : σ → Int → σ × Res Bytes} {write : ω → Bytes → ω × Res (Option Int)}
    {Rep : σ → Bytes → Prop} (hr : FileReads read Rep) (hw : ∀ w d, ∃ w' k, write w d = (w', .ok (some k))) {fuel size : Nat}
    {ty : Bytes} {s : σ} {data : Bytes} (hs : Rep s data) (ha : ∀ b ∈ ty, b.toNat < 128) (hf : size < fuel) (chunk : Int)
    (hc : 1 ≤ chunk) (w : ω) :
    ∃ s' w' n ds rs, writeObject fuel ty size read write chunk s w = (s', w', .ok n) ∧ writeMany write w ds = (w', .ok rs) ∧
      ds.flatten = ty ++ [0x20] ++ natToDec size ++ [0] ++ data.take size ∧ Rep s' (data.drop size) := by
  have hh : looseObjectHeader ty size = .ok (ty ++ [0x20] ++ natToDec size ++ [0]) := by
    rw [looseObjectHeader, if_pos (by simpa using ha)]
  obtain ⟨w1, k, e1⟩ := hw w (ty ++ [0x20] ++ natToDec size ++ [0])
  have hcopy : ∃ s' w' m ds rs, streamCopy fuel read write size chunk s w1 = (s', w', .ok m) ∧
      writeMany write w1 ds = (w', .ok rs) ∧ ds.flatten = data.take size ∧ Rep s' (data.drop size) := by
    by_cases h0 : size = 0
    · subst h0
      obtain ⟨s', e, h'⟩ := hr.read_zero s data hs
      obtain ⟨w2, k2, e2⟩ := hw w1 []
      obtain ⟨f, rfl⟩ : ∃ f, fuel = f + 1 := ⟨fuel - 1, by omega⟩
      have hmin : min chunk (((0 : Nat) : Int) - 0) = 0 := by omega
      refine ⟨s', w2, 0, [[]], [some k2], ?_, by simp [writeMany, e2], rfl, by simpa using h'⟩
      unfold streamCopy
      simp only [streamCopyLoop, hmin, e, e2]
      simp
    · have hst : ∀ cap, Stores write (fun _ _ => True) cap := by
        intro cap w out d _ _
        obtain ⟨w', k, e⟩ := hw w d
        exact ⟨w', _, e, trivial⟩
      obtain ⟨s', w', h1, h2, _⟩ := streamCopy_spec hr.toBoundedReads (hst (min size data.length)) size chunk hc fuel s w1
        data [] hs trivial (by omega) (by omega) (by simp)
      obtain ⟨ds, rs, k1, k2⟩ := streamCopyLoop_ok (write := write) hr.toBoundedReads size chunk hc fuel 0 s w1 data _ hs
        (by omega) (by unfold streamCopy at h1; rw [h1])
      unfold streamCopy at h1
      rw [h1] at k1
      exact ⟨s', w', _, ds, rs, h1, k1, by rw [k2]; congr 1, h2⟩
  obtain ⟨s', w', m, ds, rs, c1, c2, c3, c4⟩ := hcopy
  refine ⟨s', w', k + m, (ty ++ [0x20] ++ natToDec size ++ [0]) :: ds, some k :: rs, ?_, ?_, ?_, c4⟩
  · unfold writeObject
    simp only [hh, e1, c1]
  · simp only [writeMany, e1, c2]
  · rw [List.flatten_cons, c3]

theorem storeTo_take (H : Hash) (zl : Zlib) (L : ZlibLaws zl) (fuel : Nat) (read : σ → Int → σ × Res Bytes)
    (Rep : σ → Bytes → Prop) (hr : FileReads read Rep) (i : IStream σ) (data : Bytes) (hs : Rep i.strm data)
    (hb : i.binsha = none) (ha : ∀ b ∈ i.type, b.toNat < 128) (hf : i.size < fuel) :
    ∃ x w s', x = i.type ++ [0x20] ++ natToDec i.size ++ [0] ++ data.take i.size ∧
      looseStoreTo fuel read zippedWrite (fun w => w.sha1.sha H true) i (ZippedStoreShaWriter.new zl) =
        (w, { i with strm := s', binsha := some (H.digest x) }, .ok ()) ∧
      IsZip zl w.close.getvalue w.close.getvalue.length x ∧ Rep s' (data.drop i.size) := by
  obtain ⟨s', w', n, ds, rs, e, h1, h2, h3⟩ := writeObject_take (write := zippedWrite (zl := zl)) hr
    (fun w d => ⟨_, _, zippedWrite_ok w d⟩) hs ha hf looseChunk (by decide) (ZippedStoreShaWriter.new zl)
  obtain ⟨w'', k1, k2, k3, k4⟩ := zipped_writeMany (zl := zl) ds (ZippedStoreShaWriter.new zl)
  have hww : w'' = w' := by
    have := zippedWrite_many ds _ h1
    rw [k1] at this; exact this
  subst hww
  have hsha : w''.sha1.sha H true = binToHex (H.digest ds.flatten) := by
    simp [Sha1Writer.sha, k2, ZippedStoreShaWriter.new]
  refine ⟨ds.flatten, w'', s', h2, ?_, ?_, h3⟩
  · unfold looseStoreTo
    simp only [hb, e, hsha, hexToBin_binToHex]
  · unfold ZippedStoreShaWriter.getvalue
    rw [k3, BytesIO.write_end _ _ rfl]
    exact ⟨L.emit_stop 1 ds, L.emit_out 1 ds⟩

/-- **C80** The size of an `IStream` is believed: a store to a file of a stream of any other length succeeds.  The header has the
announced size, the data are the first bytes of the stream, the name is the digest of both; bytes beyond stay unread. -/
theorem C80_loose (H : Hash) (zl : Zlib) (L : ZlibLaws zl) (fuel : Nat) (rnd : Bytes) (isfile : Bool)
    (read : σ → Int → σ × Res Bytes) (Rep : σ → Bytes → Prop) (hr : FileReads read Rep) (i : IStream σ) (data : Bytes)
    (hs : Rep i.strm data) (hb : i.binsha = none) (ha : ∀ b ∈ i.type, b.toNat < 128) (hf : i.size < fuel) :
    ∃ ds x, IsDecimal ds i.size ∧ x = object i.type ds (data.take i.size) ∧
      (looseStore H zl fuel (undisturbed rnd isfile) read i).2.2 = .ok () ∧
      (looseStore H zl fuel (undisturbed rnd isfile) read i).2.1.binsha = some (H.digest x) ∧
      IsZip zl (written (looseStore H zl fuel (undisturbed rnd isfile) read i).1)
        (written (looseStore H zl fuel (undisturbed rnd isfile) read i).1).length x ∧
      Rep (looseStore H zl fuel (undisturbed rnd isfile) read i).2.1.strm (data.drop i.size) := by
  obtain ⟨h1, h2⟩ := C79_zipped H zl fuel rnd isfile read i hb
  obtain ⟨x, w, s', e1, e2, e3, e4⟩ := storeTo_take H zl L fuel read Rep hr i data hs hb ha hf
  rw [← h1, ← h2, e2]
  exact ⟨_, x, natToDec_isDecimal i.size, e1, rfl, rfl, e3, e4⟩

/-- **C80** The same for a `MemoryDB`; the object is listed with the announced size. -/
theorem C80_memory (H : Hash) (zl : Zlib) (L : ZlibLaws zl) (fuel : Nat) (read : σ → Int → σ × Res Bytes)
    (Rep : σ → Bytes → Prop) (hr : FileReads read Rep) (i : IStream σ) (data : Bytes) (hs : Rep i.strm data)
    (hb : i.binsha = none) (ha : ∀ b ∈ i.type, b.toNat < 128) (hf : i.size < fuel) (db : MemDB) :
    ∃ ds x o, IsDecimal ds i.size ∧ x = object i.type ds (data.take i.size) ∧
      (db.store H zl fuel read i).2.2 = .ok () ∧ (db.store H zl fuel read i).2.1.binsha = some (H.digest x) ∧
      nameGet (H.digest x) (db.store H zl fuel read i).1.cache = some o ∧ o.type = i.type ∧ o.size = i.size ∧
      IsZip zl o.reader.m o.reader.m.length x := by
  obtain ⟨x, w, s', e1, e2, e3, e4⟩ := storeTo_take H zl L fuel read Rep hr i data hs hb ha hf
  have hseek : w.close.seek 0 0 = ({ w.close with buf := { w.close.buf with pos := 0 } }, .ok ()) := by
    unfold ZippedStoreShaWriter.seek
    rw [if_neg (by simp)]
  unfold MemDB.store
  simp only [e2, hseek]
  exact ⟨_, x, _, natToDec_isDecimal i.size, e1, trivial, rfl, nameGet_set_same _ _ _, rfl, rfl, e3⟩

/-- **C80** If the stream is longer than announced, an object has been stored: the beginning of the stream. -/
theorem C80_long (ty ds data : Bytes) (size : Nat) (hd : IsDecimal ds size) (hlong : size ≤ data.length) :
    IsObject (object ty ds (data.take size)) ty (data.take size) :=
  ⟨ds, by rwa [List.length_take, Nat.min_eq_left hlong], rfl⟩

/-- **C80** If the stream is shorter than announced, what has been stored is no object, of any type and data. -/
theorem C80_short (ty ds data : Bytes) (size : Nat) (hd : IsDecimal ds size) (hshort : data.length < size)
    (ht : ∀ c ∈ ty, c ≠ 0x20 ∧ c ≠ 0) (ty' data' : Bytes) (ht' : ∀ c ∈ ty', c ≠ 0x20 ∧ c ≠ 0) :
    ¬ IsObject (object ty ds (data.take size)) ty' data' := by
  rintro ⟨ds', hd', h⟩
  have h1 := parseObjectHeader_spec ty ds (data.take size) size hd ht
  have h2 := parseObjectHeader_spec ty' ds' data' data'.length hd' ht'
  have hobj : object ty ds (data.take size) = ty ++ [0x20] ++ ds ++ [0] ++ data.take size := rfl
  rw [hobj] at h
  rw [h, h2] at h1
  simp only [Except.ok.injEq, Prod.mk.injEq] at h1
  obtain ⟨rfl, h3, h4⟩ := h1
  have := congrArg List.length h
  simp only [List.length_append, List.length_take] at this h4
  omega

/-- **C80** Nobody notices when reading such an object: it opens with the announced type and size, no read raises, and what
the reads deliver are the bytes that are there; a read that returns nothing has come to their end. -/
theorem C80_read (zl : Zlib) (L : ZlibLaws zl) (m : Bytes) (clen : Nat) (ty ds data : Bytes) (size : Nat) (hd : IsDecimal ds size)
    (hshort : data.length ≤ size) (ht : ∀ c ∈ ty, c ≠ 0x20 ∧ c ≠ 0) (hm : IsZip zl m clen (object ty ds data))
    (hl : (objHead ty ds).length ≤ min 8192 (zl.out (m.take 8192)).length) (ns : List Int) (n : Int) :
    looseObjectHeaderInfo zl m = .ok (ty, (size : Int)) ∧
    ∃ r r1 ps r2 d, Reader.new zl m = .ok (ty, (size : Int), r) ∧ readMany (Reader.read zl) r ns = (r1, .ok ps) ∧
      ps.flatten <+: data ∧ r1.read zl n = (r2, .ok d) ∧ (NoStall zl m → d = [] → ps.flatten = data) := by
  refine ⟨C04_loose_object_header_info zl L m clen ty ds data size hd ht hm (by omega), ?_⟩
  obtain ⟨r, h1, h2, h3, h4, h5, _⟩ := parseHeaderInfo_size L ty ds data size hd ht hm (Reader.ofSize m 0)
    (rinv_ofSize L hm maxHeader (by omega)) rfl rfl ⟨rfl, rfl⟩ hl
  obtain ⟨r1, ps, k1, k2, k3, k4, k5, k6, _⟩ := readMany_reader L hm _ ns r h2 h5
  obtain ⟨r2, d, e, st⟩ := read_spec L hm _ r1 n k2 k6
  refine ⟨r, r1, ps, r2, d, by unfold Reader.new; rw [h1], k1, ?_, e, ?_⟩
  · rw [k3, h3, Int.toNat_zero, Nat.add_zero, List.drop_left]
    exact List.take_prefix _ _
  intro hns hde
  have hb0 := k2.br_nonneg
  have hne := st.nonempty hns hde
  have hcl : (ty ++ [0x20] ++ ds ++ [0] ++ data).length =
      (ty ++ [0x20] ++ ds ++ [0]).length + data.length := List.length_append
  have hlen : data.length ≤ ps.flatten.length := by
    rw [k5, h4, hcl] at hne
    rw [h3] at k4
    omega
  rw [k3, h3, Int.toNat_zero, Nat.add_zero, List.drop_left]
  exact List.take_of_length_le hlen

/-! ### Packs -/

theorem packCopyLoop_read (zl : Zlib) {read : σ → Int → σ × Res Bytes} {write : ω → Bytes → ω × Res ρ} {Rep : σ → Bytes → Prop}
    (hr : BoundedReads read Rep) : ∀ (fuel : Nat) (s : σ) (w : ω) (z : zl.Comp) (br bw : Nat) (crc : Option Nat) (rem : Bytes),
      Rep s rem → ∀ s' w' br' bw' crc' z', packCopyLoop zl read write fuel s w z br bw crc = (s', w', .ok (br', bw', crc', z')) →
      br' = br + rem.length := by
  intro fuel
  induction fuel with
  | zero => intro s w z br bw crc rem _ s' w' br' bw' crc' z' h; simp [packCopyLoop] at h
  | succ fuel ih =>
    intro s w z br bw crc rem hs s' w' br' bw' crc' z' h
    obtain ⟨s1, e1, r1⟩ := hr.read_pos s rem chunkSize hs (by decide)
    simp only [packCopyLoop, e1] at h
    rcases hw : write w (zl.ccompress z (rem.take (chunkSize : Int).toNat)).2 with ⟨w1, e | r⟩
    · simp only [hw] at h; cases h
    · simp only [hw] at h
      have hlen : (rem.take (chunkSize : Int).toNat).length = min chunkSize rem.length := by simp
      split at h
      · rename_i hne
        simp only [Prod.mk.injEq, Except.ok.injEq] at h
        obtain ⟨-, -, hb, -⟩ := h
        omega
      · rename_i heq
        have := ih _ _ _ _ _ _ _ r1 _ _ _ _ _ _ h
        rw [List.length_drop] at this
        have : (chunkSize : Int).toNat = chunkSize := by simp
        omega

theorem packObjects_sizes (zl : Zlib) (fuel : Nat) {read : σ → Int → σ × Res Bytes} {write : ω → Bytes → ω × Res ρ}
    {Rep : σ → Bytes → Prop} (hr : BoundedReads read Rep) (level : Int) (wantsIndex : Bool) (count : Nat) :
    ∀ (l : List (PackIn σ × Bytes)) (w : FlexibleSha1Writer ω) (actual ofs : Nat) (idx : List IdxObj),
      (∀ q ∈ l, Rep q.1.strm q.2) → actual < count → ∀ w' n idx',
      packObjects zl fuel read write level wantsIndex count (l.map Prod.fst) w actual ofs idx = (w', .ok (n, idx')) →
      n ≤ count ∧ ∀ q ∈ l.take (n - actual), q.1.size = q.2.length := by
  intro l
  induction l with
  | nil =>
    intro w actual ofs idx _ ha w' n idx' h
    simp only [List.map_nil, packObjects, Prod.mk.injEq, Except.ok.injEq] at h
    obtain ⟨-, rfl, -⟩ := h
    exact ⟨by omega, by simp⟩
  | cons q l ih =>
    intro w actual ofs idx hl ha w' n idx' h
    simp only [List.map_cons, packObjects] at h
    rcases hh : createPackObjectHeader q.1.typeId q.1.size with e | hdr
    · simp [hh] at h
    simp only [hh] at h
    rcases hw : FlexibleSha1Writer.write write w hdr with ⟨w1, e | r⟩
    · simp [hw] at h
    simp only [hw] at h
    rcases hc : writeStreamToPack zl fuel read (FlexibleSha1Writer.write write) (zl.cinit level)
      (if wantsIndex then some (crc32 hdr 0) else none) q.1.strm w1 with ⟨s2, w2, e | ⟨br, bw, crc⟩⟩
    · simp [hc] at h
    simp only [hc] at h
    split at h
    · simp at h
    rename_i hbr
    have hq : q.1.size = q.2.length := by
      unfold writeStreamToPack at hc
      rcases hp : packCopyLoop zl read (FlexibleSha1Writer.write write) fuel q.1.strm w1 (zl.cinit level) 0 0
        (if wantsIndex then some (crc32 hdr 0) else none) with ⟨s3, w3, e | ⟨br3, bw3, crc3, z3⟩⟩
      · simp [hp] at hc
      · have := packCopyLoop_read zl hr _ _ _ _ _ _ _ _ (hl q List.mem_cons_self) _ _ _ _ _ _ hp
        simp only [hp] at hc
        rcases hw4 : FlexibleSha1Writer.write write w3 (zl.cflush z3) with ⟨w4, e | r4⟩
        · simp [hw4] at hc
        · simp only [hw4, Prod.mk.injEq, Except.ok.injEq] at hc
          omega
    split at h
    · rename_i hcount
      simp only [Prod.mk.injEq, Except.ok.injEq] at h
      obtain ⟨-, rfl, -⟩ := h
      refine ⟨by omega, ?_⟩
      rw [show actual + 1 - actual = 1 by omega]
      simpa using hq
    · have hn := ih w2 (actual + 1) _ _ (fun p hp => hl p (List.mem_cons_of_mem _ hp)) (by omega) w' n idx' h
      refine ⟨hn.1, ?_⟩
      intro p hp
      rcases Nat.eq_zero_or_pos (n - actual) with h0 | h0
      · rw [h0] at hp; simp at hp
      · rw [show n - actual = (n - (actual + 1)) + 1 by omega, List.take_succ_cons] at hp
        rcases List.mem_cons.mp hp with rfl | hp
        · exact hq
        · exact hn.2 p hp

/-- **C80** `write_pack` does compare: if it succeeds, every stream it has written is as long as its size says. -/
theorem C80_pack (H : Hash) (zl : Zlib) (fuel : Nat) (read : σ → Int → σ × Res Bytes) (Rep : σ → Bytes → Prop)
    (hr : BoundedReads read Rep) (packWrite : ω → Bytes → ω × Res ρ) (idxWrite : Option (ω₂ → Bytes → ω₂ × Res ρ₂))
    (l : List (PackIn σ × Bytes)) (hl : ∀ q ∈ l, Rep q.1.strm q.2) (objectCount : Option Nat) (level : Int) (w w' : ω)
    (iw iw' : ω₂) (res : Bytes × Option Bytes)
    (hok : writePack H zl fuel read packWrite idxWrite (l.map Prod.fst) objectCount level w iw = (w', iw', .ok res)) :
    ∀ q ∈ l.take (packCount objectCount l.length), q.1.size = q.2.length := by
  unfold writePack at hok
  simp only [List.length_map] at hok
  generalize hcount : packCount objectCount l.length = count at hok ⊢
  rcases Nat.eq_zero_or_pos count with h0 | hpos
  · simp [h0]
  rcases hh : packLLL packSignature 2 count with e | hdr
  · simp [hh] at hok
  simp only [hh] at hok
  rcases hw : FlexibleSha1Writer.write packWrite { inner := w } hdr with ⟨f, e | r⟩
  · simp [hw] at hok
  simp only [hw] at hok
  rcases hp : packObjects zl fuel read packWrite level idxWrite.isSome count (l.map Prod.fst) f 0 12 [] with
    ⟨f2, e | ⟨n, idx⟩⟩
  · simp [hp] at hok
  have hsz := packObjects_sizes zl fuel hr level _ count l f 0 12 [] hl hpos f2 n idx hp
  simp only [hp] at hok
  split at hok
  · simp at hok
  · rename_i hn
    have : n = count := by omega
    subst this
    simpa using hsz.2

/-! ### Cases -/

/-- Two bytes, announced as five. -/
def shortStream : IStream Bytes := { type := blob, size := 5, strm := [1, 2] }

/-- Two bytes, announced as one. -/
def longStream : IStream Bytes := { type := blob, size := 1, strm := [1, 2] }

example := C80_loose exHash toyZlib toyZlib_laws 10 [5] false bytesIORead _ bytesIO_reads shortStream [1, 2] rfl rfl (by decide)
  (by decide)
example := C80_loose exHash toyZlib toyZlib_laws 10 [5] false bytesIORead _ bytesIO_reads longStream [1, 2] rfl rfl (by decide)
  (by decide)
example := C80_memory exHash toyZlib toyZlib_laws 10 bytesIORead _ bytesIO_reads longStream [1, 2] rfl rfl (by decide)
  (by decide) {}
example := C80_long blob [49] [1, 2] 1 ⟨by decide, by decide, by decide⟩ (by decide)
example := C80_short blob [53] [1, 2] 5 ⟨by decide, by decide, by decide⟩ (by decide) (by decide) blob [1, 2] (by decide)

/-- The two bytes stored as five: `info` says 5, `read()` returns 2 bytes. -/
example : looseObjectHeaderInfo toyZlib (written (looseStore exHash toyZlib 10 (undisturbed [5] false) bytesIORead shortStream).1) =
      .ok (blob, 5) ∧
    (match Reader.new toyZlib (written (looseStore exHash toyZlib 10 (undisturbed [5] false) bytesIORead shortStream).1) with
      | .ok (_, _, r) => (r.read toyZlib (-1)).2
      | .error e => .error e) = .ok [1, 2] := by decide +kernel

/-- The same stream is refused by `write_pack`. -/
example : (writePack exHash toyZlib 10 bytesIORead sink (some sink)
    [{ typeId := 3, size := 5, sha := List.replicate 20 1, strm := [1, 2] }] none 1 {} {}).2.2 = .error .assertionError := by
  decide +kernel

/-- With the right size it is written. -/
example : (match (writePack exHash toyZlib 10 bytesIORead sink (some sink)
    [{ typeId := 3, size := 2, sha := List.replicate 20 1, strm := [1, 2] }] none 1 {} {}).2.2 with
    | .ok _ => true
    | .error _ => false) = true := by decide +kernel

example := C80_read toyZlib toyZlib_laws (object blob [53] [1, 2] ++ [255]) 10 blob [53] [1, 2] 5
  ⟨by decide, by decide, by decide⟩ (by decide) (by decide) ⟨by decide, by decide⟩ (by decide) [1, 7] (-1)

end GitDB.Props
