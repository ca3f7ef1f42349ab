import Verif.Proofs.LooseIter
import Verif.Proofs.LightZlib
import Verif.Props.Decomp
import Verif.Props.Writers
/-!
# C34-C37: the loose object database
-/
set_option autoImplicit false

namespace GitDB.Props
open GitDB Spec

variable {σ : Type}

/-! ## C34 -/

/-- No other byte string has the SHA-1 of this object. -/
def NoCollision (H : Hash) (ty data : Bytes) : Prop :=
  ∀ x y, IsObject y ty data → H.digest x = H.digest y → x = y

/-- **C34** a store which returns has put the object under its name: the name returned is the SHA-1 of
header and data, and the file at the name's path is a compressed stream of header and data (readable by
everyone).  The source is any well behaved stream of `data`; `fs` is any database of complete objects.
Whatever the operating system did (short or failing writes, `chmod` retries) does not matter. -/
theorem C34_store (H : Hash) (zl : Zlib) (L : ZlibLaws zl) (fuel : Nat) (env : StoreEnv)
    (read : σ → Int → σ × Res Bytes) (Rep : σ → Bytes → Prop)
    (hr : FileReads read Rep ∨ ObjectReads read Rep) (i : IStream σ) (data : Bytes)
    (hs : Rep i.strm data) (hsz : i.size = data.length) (hb : i.binsha = none) (fs fs' : Fs)
    (hfs : ObjectsComplete H zl fs) (hcol : NoCollision H i.type data)
    (hok : (looseStore H zl fuel env read i).2.2 = .ok ())
    (hrun : fs.run (looseStore H zl fuel env read i).1 = some fs') :
    ∃ x p c, IsObject x i.type data ∧
      (looseStore H zl fuel env read i).2.1.binsha = some (H.digest x) ∧
      IsPathOf p (H.digest x) ∧ fs' p = some (.file c 0o444) ∧ IsZip zl c c.length x ∧
      fs' p.dropLast = some .dir ∧ ObjectsComplete H zl fs' := by
  rcases store_effect hrun with ⟨⟨e, he⟩, _⟩ | ⟨hex, c, m, h1, h2, h3, h4, h5, h6⟩
  · rw [hok] at he; simp at he
  rcases h6 with ⟨_, hm, b, h7, h8⟩ | ⟨e, he, _⟩
  rotate_left
  · rw [hok] at he; simp at he
  have hlw : looseWrite H zl fuel env read i = writeNew H zl fuel env.plan read i := by
    unfold looseWrite; rw [hb]
  rw [hlw] at h1 h2 h5
  obtain ⟨x, hx, hz, hn⟩ := writeNew_data L hr hs hsz h2
  rw [hb, hn] at h1
  simp only [storedName, Except.ok.injEq] at h1
  subst h1
  have hob : IsObject x i.type data := ⟨natToDec data.length, natToDec_isDecimal _, hx⟩
  rw [hexToBin_binToHex] at h7
  simp only [Except.ok.injEq] at h7
  subst h7
  have hzc : IsZip zl c c.length x := by
    rcases h5 with ⟨_, m', h5⟩ | ⟨_, rfl⟩
    · obtain ⟨y, hy1, hy2⟩ := hfs _ _ _ _ h5
      rw [List.take_append_drop] at hy2
      have := isHexOf_injective hy2 (binToHex_isHexOf (H.digest x))
      rw [hcol y x hob this] at hy1
      exact hy1
    · exact hz
  refine ⟨x, objectPath (binToHex (H.digest x)), c, hob, h8, isPathOf_objectPath _, ?_, hzc, ?_, ?_⟩
  · rw [h3, hm]; exact Fs.set_same _ _ _
  · rw [h3]
    simp only [storedFs, objectPath, List.dropLast]
    rw [Fs.set_other _ _ (by simp), Fs.set_same]
  · intro d f data' m' hf
    rw [h3] at hf
    by_cases hdf : ([d, f] : Path) = objectPath (binToHex (H.digest x))
    · rw [hdf, storedFs, Fs.set_same] at hf
      simp only [Option.some.injEq, Node.file.injEq] at hf
      rw [← hf.1]
      refine ⟨x, hzc, ?_⟩
      simp only [objectPath, List.cons.injEq, and_true] at hdf
      rw [hdf.1, hdf.2, List.take_append_drop]
      exact binToHex_isHexOf _
    · rw [storedFs, Fs.set_other _ _ hdf, Fs.set_other _ _ (by simp [objectPath])] at hf
      exact hfs _ _ _ _ hf

/-- **C34** storing does go through if the operating system is willing: the temporary name is free, and
the answer of `isfile` is right. -/
theorem C34_store_succeeds (H : Hash) (zl : Zlib) (L : ZlibLaws zl) (fuel : Nat)
    (read : σ → Int → σ × Res Bytes) (Rep : σ → Bytes → Prop)
    (hr : FileReads read Rep ∨ ObjectReads read Rep) (i : IStream σ) (data : Bytes)
    (hs : Rep i.strm data) (hsz : i.size = data.length) (hb : i.binsha = none)
    (ha : ∀ b ∈ i.type, b.toNat < 128) (hf : data.length < fuel) (fs : Fs) (rnd : Bytes)
    (hfree : fs (tmpPath rnd) = none) (isf : Bool)
    (hclean : ∀ d f : Bytes, (fs [d] = none ∨ fs [d] = some .dir) ∧ (fs [d] = none → fs [d, f] = none) ∧
      (fs [d, f] = none ∨ IsFile fs [d, f]))
    (hisf : ∀ x p, IsObject x i.type data → IsPathOf p (H.digest x) → (isf = true ↔ IsFile fs p)) :
    (looseStore H zl fuel { tmp := some rnd, isfile := isf } read i).2.2 = .ok () ∧
    ∃ fs', fs.run (looseStore H zl fuel { tmp := some rnd, isfile := isf } read i).1 = some fs' := by
  have hob : IsObject (i.type ++ [0x20] ++ natToDec data.length ++ [0] ++ data) i.type data :=
    ⟨_, natToDec_isDecimal _, rfl⟩
  have hi := hisf _ _ hob (isPathOf_objectPath _)
  refine looseStore_success H L hr hs hsz hb ha hf fs rnd hfree isf _ rfl ?_ ?_
  · simp only [objectPath, List.dropLast] at hi ⊢
    obtain ⟨h1, h2, h3⟩ := hclean
      ((binToHex (H.digest (i.type ++ [0x20] ++ natToDec data.length ++ [0] ++ data))).take 2)
      ((binToHex (H.digest (i.type ++ [0x20] ++ natToDec data.length ++ [0] ++ data))).drop 2)
    rcases h1 with h1 | h1
    · left
      refine ⟨h1, ?_⟩
      cases isf
      · rfl
      · obtain ⟨c, m, hc⟩ := hi.mp rfl
        rw [h2 h1] at hc; simp at hc
    · exact Or.inr h1
  · simp only [objectPath] at hi ⊢
    obtain ⟨h1, h2, h3⟩ := hclean
      ((binToHex (H.digest (i.type ++ [0x20] ++ natToDec data.length ++ [0] ++ data))).take 2)
      ((binToHex (H.digest (i.type ++ [0x20] ++ natToDec data.length ++ [0] ++ data))).drop 2)
    cases isf
    · left
      refine ⟨?_, rfl⟩
      rcases h3 with h3 | h3
      · exact h3
      · exact absurd (hi.mpr h3) (by simp)
    · exact Or.inr ⟨hi.mp rfl, rfl⟩

theorem mapLooseObject_file {fs : Fs} {name c : Bytes} {m : Nat} {p : Path} (hp : IsPathOf p name)
    (hf : fs p = some (.file c m)) (hc : c ≠ []) (noatime second : Bool)
    (ho : noatime = true ∨ second = true) : mapLooseObject fs noatime second name = .ok c := by
  unfold mapLooseObject
  rw [← isPathOf_unique hp, hf]
  have : mapFile (some (.file c m)) = .ok c := by
    unfold mapFile
    split
    · simp_all
    · simp_all
    · simp_all
    · simp_all
  cases noatime <;> cases second <;> simp_all

theorem isZip_ne_nil {zl : Zlib} (L : ZlibLaws zl) {c x : Bytes} {n : Nat} (h : IsZip zl c n x) : c ≠ [] := by
  rintro rfl
  have := h.stop
  rw [L.stop_nil] at this; simp at this

/-- **C34** an object file is found by `has_object` (whatever was cached) and `info` reports its type and
size, provided opening the file works with or without `O_NOATIME`. -/
theorem C34_lookup (H : Hash) (zl : Zlib) (L : ZlibLaws zl) (fs : Fs) (x c ty data : Bytes) (m : Nat)
    (path : Path) (hp : IsPathOf path (H.digest x)) (hf : fs path = some (.file c m))
    (hz : IsZip zl c c.length x) (hx : IsObject x ty data) (ht : ∀ b ∈ ty, b ≠ 0x20 ∧ b ≠ 0)
    (hty : ty.length ≤ 100) (hd : data.length < 10 ^ 100) (noatime second : Bool)
    (ho : noatime = true ∨ second = true) :
    (∀ db : LooseDB, (db.hasObject fs (H.digest x)).2 = true) ∧
      looseInfo zl fs noatime second (H.digest x) = .ok (ty, (data.length : Int)) := by
  constructor
  · intro db
    unfold LooseDB.hasObject LooseDB.readablePath
    rw [← isPathOf_unique hp, hf]
    split <;> rename_i hh
    · rfl
    · split at hh
      · simp at hh
      · simp at hh
  · unfold looseInfo
    rw [mapLooseObject_file hp hf (isZip_ne_nil L hz) _ _ ho]
    obtain ⟨ds, hds, rfl⟩ := hx
    have hl := isDecimal_length hds (k := 99) hd
    exact C04_loose_object_header_info zl L c c.length ty ds data data.length hds ht hz
      (by simp only [objHead, List.length_append, List.length_singleton]; omega)

/-- **C34** for objects of at most 8192 bytes (header included, compressed form too) every sequence of
reads from `stream` delivers the data like an ideal stream. -/
theorem C34_stream_small (H : Hash) (zl : Zlib) (L : ZlibLaws zl) (fs : Fs) (x c ty data : Bytes)
    (m : Nat) (path : Path) (hp : IsPathOf path (H.digest x)) (hf : fs path = some (.file c m))
    (hz : IsZip zl c c.length x) (hx : IsObject x ty data) (ht : ∀ b ∈ ty, b ≠ 0x20 ∧ b ≠ 0)
    (noatime second : Bool) (ho : noatime = true ∨ second = true) (hlen : x.length ≤ 8192)
    (hcl : c.length ≤ 8192) (ns : List Int) :
    ∃ r r' ps, looseStream zl fs noatime second (H.digest x) = .ok (ty, (data.length : Int), r) ∧
      readMany (Reader.read zl) r ns = (r', .ok ps) ∧
      ps.flatten = data.take (readLen data.length ns) := by
  obtain ⟨ds, hds, rfl⟩ := hx
  unfold looseStream
  rw [mapLooseObject_file hp hf (isZip_ne_nil L hz) _ _ ho]
  exact C14_small_objects zl L c c.length ty ds data hds ht hz hlen hcl ns

/-- **C34** (partial: a single read of a larger object can be short or long, see `C34_not_full`)
for every object whose header appears within the first 8192 compressed bytes: reads deliver a prefix of
the data, and if the compressed stream does not stall, all of it has been delivered when a read returns
nothing. -/
theorem C34_stream_partial (H : Hash) (zl : Zlib) (L : ZlibLaws zl) (fs : Fs) (x c ty ds data : Bytes)
    (m : Nat) (path : Path) (hp : IsPathOf path (H.digest x)) (hf : fs path = some (.file c m))
    (hz : IsZip zl c c.length x) (hds : IsDecimal ds data.length) (hx : x = object ty ds data)
    (ht : ∀ b ∈ ty, b ≠ 0x20 ∧ b ≠ 0) (noatime second : Bool)
    (ho : noatime = true ∨ second = true)
    (hl : (objHead ty ds).length ≤ min 8192 (zl.out (c.take 8192)).length) (ns : List Int) (n : Int) :
    ∃ r, looseStream zl fs noatime second (H.digest x) = .ok (ty, (data.length : Int), r) ∧
      (∃ r' ps, readMany (Reader.read zl) r ns = (r', .ok ps) ∧ ps.flatten <+: data) ∧
      (NoStall zl c → ∃ r1 ps r2 d, readMany (Reader.read zl) r ns = (r1, .ok ps) ∧
        r1.read zl n = (r2, .ok d) ∧ (d = [] → ps.flatten = data)) := by
  subst hx
  have hm := mapLooseObject_file hp hf (isZip_ne_nil L hz) _ _ ho
  obtain ⟨r, h1, h2⟩ := C11_object_mode zl L c c.length ty ds data hds ht hz hl ns
  refine ⟨r, by unfold looseStream; rw [hm]; exact h1, h2, ?_⟩
  intro hns
  obtain ⟨r0, r1, ps, r2, d, k1, k2, k3, k4⟩ := C13_object_mode_partial zl L c c.length ty ds data hds ht hz
    hns hl ns n
  rw [h1] at k1
  simp only [Except.ok.injEq, Prod.mk.injEq, true_and] at k1
  subst k1
  exact ⟨r1, ps, r2, d, k2, k3, k4⟩

/-- The full statement about contents: what is stored is what a single `read()` of the stream returns. -/
def C34_full : Prop :=
  ∀ (H : Hash) (zl : Zlib) (fuel : Nat) (env : StoreEnv) (ty data : Bytes) (fs fs' : Fs) (name : Bytes)
    (r : Reader), ZlibLaws zl → ObjectsComplete H zl fs → NoCollision H ty data →
    fs.run (looseStore H zl fuel env bytesIORead { type := ty, size := data.length, strm := data }).1 =
      some fs' →
    (looseStore H zl fuel env bytesIORead { type := ty, size := data.length, strm := data }).2.2 = .ok () →
    (looseStore H zl fuel env bytesIORead
      { type := ty, size := data.length, strm := data }).2.1.binsha = some name →
    looseStream zl fs' true true name = .ok (ty, (data.length : Int), r) →
    ∃ r', r.read zl (-1) = (r', .ok data)

/-- The empty database. -/
def emptyFs : Fs := fun _ => none

/-- A hash for which the example object has no collision. -/
def oneHash (y : Bytes) : Hash where
  digest x := if x = y then List.replicate 20 1 else List.replicate 20 0
  len x := by split <;> rfl

theorem oneHash_noCollision (ty data : Bytes) :
    NoCollision (oneHash (object ty (natToDec data.length) data)) ty data := by
  intro x y hy h
  have hy' : y = object ty (natToDec data.length) data :=
    isObject_unique hy ⟨_, natToDec_isDecimal _, rfl⟩
  subst hy'
  unfold oneHash at h
  simp only [if_true] at h
  split at h
  · assumption
  · exact absurd h (by decide)

theorem empty_complete (H : Hash) (zl : Zlib) : ObjectsComplete H zl emptyFs := by
  intro d f data m h; simp [emptyFs] at h

theorem readCore_nonpos (zl : Zlib) (fuel : Nat) (r : Reader) (n m : Int) (hn : n < 1) (hm : m < 1) :
    Reader.readCore zl fuel r n = Reader.readCore zl fuel r m := by
  cases fuel with
  | zero => rfl
  | succ f => simp only [Reader.readCore, if_pos hn, if_pos hm]

theorem read_nonpos (zl : Zlib) (r : Reader) (n m : Int) (hn : n < 1) (hm : m < 1) :
    r.read zl n = r.read zl m := by
  unfold Reader.read
  simp only [readCore_nonpos zl _ _ n m hn hm]

/-- **C34** is false of the code if taken literally: `read()` on the stream of an object of 16371 bytes,
stored just before, returns only 8190 bytes. -/
theorem C34_not_full : ¬ C34_full := by
  intro hfull
  have hsz : bigData.length = 16371 := big_data_length
  obtain ⟨fuel, hfuel⟩ : ∃ n, 16371 < n := ⟨_, Nat.lt_succ_self _⟩
  obtain ⟨H, hH⟩ : ∃ H, NoCollision H blob bigData := ⟨_, oneHash_noCollision blob bigData⟩
  obtain ⟨i, hi⟩ : ∃ i : IStream Bytes, i = { type := blob, size := bigData.length, strm := bigData } := ⟨_, rfl⟩
  obtain ⟨hok, fs', hrun⟩ := looseStore_success H (zl := lightZlib) lightZlib_laws (fuel := fuel)
    (Or.inl bytesIO_reads) (i := i) (data := bigData) (by rw [hi]) (by rw [hi]) (by rw [hi]) (by rw [hi]; decide) (by rw [hsz]; exact hfuel)
    emptyFs [1] rfl false _ rfl (Or.inl ⟨rfl, rfl⟩) (Or.inl ⟨rfl, rfl⟩)
  rcases store_effect hrun with ⟨⟨e, he⟩, _⟩ | ⟨hex, c, m, h1, h2, h3, h4, h5, h6⟩
  · rw [hok] at he; simp at he
  rcases h6 with ⟨_, hm, b, h7, h8⟩ | ⟨e, he, _⟩
  rotate_left
  · rw [hok] at he; simp at he
  have hlw : looseWrite H lightZlib fuel { tmp := some [1], isfile := false } bytesIORead i =
    writeNew H lightZlib fuel [] bytesIORead i := by
    rw [hi]; rfl
  rw [hlw] at h1 h2 h5
  obtain ⟨ds, k1, k2, k3⟩ := writeNew_emit (Or.inl bytesIO_reads) (data := bigData) (by rw [hi]) (by rw [hi]) h2
  rcases h5 with ⟨h5, _⟩ | ⟨_, h5⟩
  · simp at h5
  have hobj : ds.flatten = object blob bigDigits bigData := by
    rw [k1, bigDigits, big_data_length, hi]
  have hc : c = bigZip := by
    rw [h5, k2]
    show lightZlib.emit () ds = bigZip
    rw [lightZlib_emit_plain ds () (by rw [hobj]; exact big_plain), hobj, bigZip]
  rw [k3, hi] at h1
  simp only [storedName, Except.ok.injEq] at h1
  subst h1
  rw [hexToBin_binToHex] at h7
  simp only [Except.ok.injEq] at h7
  subst h7
  have hst : looseStream lightZlib fs' true true (H.digest ds.flatten) =
      .ok (blob, (bigData.length : Int), plainReader bigZip bigData 11) := by
    unfold looseStream
    rw [mapLooseObject_file (isPathOf_objectPath _) (by rw [h3, storedFs, Fs.set_same]) (c := c) (m := m)
      (by rw [hc, bigZip]; simp) true true (Or.inl rfl)]
    simp only
    rw [light_new, hc, big_new]
  subst hi
  obtain ⟨r', e⟩ := hfull H lightZlib fuel { tmp := some [1], isfile := false } blob bigData emptyFs fs'
    (H.digest ds.flatten) _ lightZlib_laws (empty_complete _ _) hH hrun hok h8 hst
  rw [light_read] at e
  have : (plainReader bigZip bigData 11).read toyZlib (-1) = (plainReader bigZip bigData 11).read toyZlib 0 :=
    read_nonpos _ _ _ _ (by omega) (by omega)
  rw [this] at e
  obtain ⟨r'', d, e', hd⟩ := big_read 0 (by omega)
  rw [e] at e'
  simp only [Prod.mk.injEq, Except.ok.injEq] at e'
  rw [← e'.2, big_data_length] at hd
  simp at hd

/-! ## C35 -/

/-- **C35** any number of concurrent stores (process `i` carries out the system calls of one store; a
process making several stores behaves like several processes), interleaved in any way and stopping
anywhere, with any failures of system calls: at every moment every file in an object directory is a
complete object with the right name, and objects are never lost.  Each store is of an unnamed source
(any stream whatsoever), or of a named source whose bytes are a compressed stream with that name on a
disk without short writes (`Honest`). -/
theorem C35_always_complete {ι : Type} [DecidableEq ι] (H : Hash) (zl : Zlib) (L : ZlibLaws zl)
    (s t u : Sys ι) (h0 : ObjectsComplete H zl s.fs) (hs : ∀ i, StoreTrace H zl (s.todo i))
    (ht : Sys.Reach s t) (hu : Sys.Reach t u) :
    ObjectsComplete H zl t.fs ∧ ∀ p name, IsPathOf p name → IsFile t.fs p → IsFile u.fs p := by
  have h1 := (storeInv_reach (storeInv_init L h0 hs) ht).1
  refine ⟨h1.complete, fun p name hp => (storeInv_reach h1 hu).2 p ?_⟩
  rw [isPathOf_unique hp]; rfl

/-- Example sources. -/
def smallStream : IStream Bytes := { type := blob, size := 2, strm := [1, 2] }
def namedStream (name data : Bytes) : IStream Bytes :=
  { type := blob, size := 2, binsha := some name, strm := data }

/-- **C35** the sources must be honest: a store of a source with a preset name does not check the name,
and a file with other contents appears under it. -/
theorem C35_preset_name_unchecked :
    ∃ (H : Hash) (zl : Zlib) (i : IStream Bytes) (fs' : Fs), ZlibLaws zl ∧
      emptyFs.run (looseStore H zl 10 { tmp := some [1], isfile := false } bytesIORead i).1 = some fs' ∧
      (looseStore H zl 10 { tmp := some [1], isfile := false } bytesIORead i).2.2 = .ok () ∧
      ¬ ObjectsComplete H zl fs' := by
  have hev : (looseStore exHash lightZlib 10 { tmp := some [1], isfile := false } bytesIORead
      (namedStream [0xab, 0xcd] [1, 2])).1 = [.create [[111, 98, 106, 1]], .append [[111, 98, 106, 1]] [1, 2],
        .mkdir [[97, 98]], .isfile [[97, 98], [99, 100]] false, .rename [[111, 98, 106, 1]] [[97, 98], [99, 100]],
        .chmod [[97, 98], [99, 100]] 0o444] := by decide +kernel
  obtain ⟨fs', h1, h2⟩ : ∃ fs', emptyFs.run (looseStore exHash lightZlib 10 { tmp := some [1], isfile := false }
      bytesIORead (namedStream [0xab, 0xcd] [1, 2])).1 = some fs' ∧
      fs' [[97, 98], [99, 100]] = some (.file [1, 2] 0o444) := by
    rw [hev]; exact ⟨_, rfl, rfl⟩
  refine ⟨exHash, lightZlib, _, fs', lightZlib_laws, h1, by decide +kernel, ?_⟩
  intro h
  obtain ⟨x, hx, _⟩ := h _ _ _ _ h2
  exact absurd hx.stop (by decide)

/-- **C35** and so does a short `write(2)` when a named source is stored: `FDStream.write` ignores it, and
the store reports success with an incomplete file in place. -/
theorem C35_short_write_unnoticed :
    IsZip lightZlib [7, 8, 9, 255] 4 [7, 8, 9] ∧
    (looseStore exHash lightZlib 10 { tmp := some [1], isfile := false, plan := [.short 2] }
      bytesIORead (namedStream (exHash.digest [7, 8, 9]) [7, 8, 9, 255])).2.2 = .ok () ∧
    ∃ fs' p, emptyFs.run (looseStore exHash lightZlib 10 { tmp := some [1], isfile := false, plan := [.short 2] }
      bytesIORead (namedStream (exHash.digest [7, 8, 9]) [7, 8, 9, 255])).1 = some fs' ∧
      IsPathOf p (exHash.digest [7, 8, 9]) ∧ fs' p = some (.file [7, 8] 0o444) := by
  refine ⟨⟨by decide, by decide⟩, by decide +kernel, ?_⟩
  have hev : (looseStore exHash lightZlib 10 { tmp := some [1], isfile := false, plan := [.short 2] } bytesIORead
      (namedStream (exHash.digest [7, 8, 9]) [7, 8, 9, 255])).1 = [.create [[111, 98, 106, 1]],
        .append [[111, 98, 106, 1]] [7, 8],
        .mkdir (objectPath (binToHex (exHash.digest [7, 8, 9]))).dropLast,
        .isfile (objectPath (binToHex (exHash.digest [7, 8, 9]))) false,
        .rename [[111, 98, 106, 1]] (objectPath (binToHex (exHash.digest [7, 8, 9]))),
        .chmod (objectPath (binToHex (exHash.digest [7, 8, 9]))) 0o444] := by decide +kernel
  rw [hev]
  exact ⟨_, _, rfl, isPathOf_objectPath _, rfl⟩

/-! ## C36 -/

theorem looseWrite_name {H : Hash} {zl : Zlib} {fuel : Nat} {env : StoreEnv}
    {read : σ → Int → σ × Res Bytes} {i : IStream σ} {hex : Bytes}
    (h : storedName i.binsha (looseWrite H zl fuel env read i).2.2.2 = .ok hex) : ∃ b, hex = binToHex b := by
  rcases hb : i.binsha with _ | b
  · rw [hb] at h
    simp only [storedName, Except.ok.injEq] at h
    refine ⟨H.digest ((writeObject fuel i.type i.size read fdWrite looseChunk i.strm
      (FDCompressedSha1Writer.new zl { plan := env.plan })).2.1.close).1.sha1.hashed, ?_⟩
    rw [← h]
    unfold looseWrite
    rw [hb]
    rfl
  · rw [hb] at h
    unfold storedName at h
    split at h
    · simp_all
    · simp at h
    · exact ⟨_, by simpa using h.symm⟩

/-- The full statement. -/
def C36_full : Prop :=
  ∀ (H : Hash) (zl : Zlib) (fuel : Nat) (env : StoreEnv) (i : IStream Bytes) (fs fs' : Fs) (e : Err),
    ZlibLaws zl → fs.run (looseStore H zl fuel env bytesIORead i).1 = some fs' →
    (looseStore H zl fuel env bytesIORead i).2.2 = .error e →
    (∀ d f, fs' [d, f] = fs [d, f]) ∧ ∀ f, IsFile fs' [f] → IsFile fs [f]

/-- **C36** is false of the code: if `rename` fails the temporary file stays (nothing after
`writer.close()` is protected), and if `chmod` fails the object has been stored. -/
theorem C36_not_full : ¬ C36_full := by
  intro h
  have hev : (looseStore exHash lightZlib 10 { tmp := some [1], isfile := false, move := false } bytesIORead
      smallStream).1 = [.create [[111, 98, 106, 1]], .append [[111, 98, 106, 1]] [98, 108, 111, 98, 32, 50, 0],
        .append [[111, 98, 106, 1]] [1, 2], .append [[111, 98, 106, 1]] [255], .mkdir [[48, 57]],
        .isfile (objectPath (binToHex (exHash.digest (object blob [50] [1, 2])))) false] := by decide +kernel
  obtain ⟨fs', h1, h2⟩ : ∃ fs', emptyFs.run (looseStore exHash lightZlib 10
      { tmp := some [1], isfile := false, move := false } bytesIORead smallStream).1 = some fs' ∧
      IsFile fs' [[111, 98, 106, 1]] := by
    rw [hev]; exact ⟨_, rfl, _, _, rfl⟩
  obtain ⟨_, _, h⟩ := (h exHash lightZlib 10 { tmp := some [1], isfile := false, move := false } smallStream
    emptyFs fs' .osError lightZlib_laws h1 (by decide +kernel)).2 _ h2
  simp [emptyFs] at h

/-- A `chmod` failure leaves the object behind, although `store` raised. -/
theorem C36_chmod_failure :
    (looseStore exHash lightZlib 10 { tmp := some [1], isfile := false, chmods := [.fail] }
      bytesIORead smallStream).2.2 = .error .osError ∧
    ∃ fs' d f, emptyFs.run (looseStore exHash lightZlib 10 { tmp := some [1], isfile := false, chmods := [.fail] }
      bytesIORead smallStream).1 = some fs' ∧ IsFile fs' [d, f] := by
  refine ⟨by decide +kernel, ?_⟩
  have hev : (looseStore exHash lightZlib 10 { tmp := some [1], isfile := false, chmods := [.fail] } bytesIORead
      smallStream).1 = [.create [[111, 98, 106, 1]], .append [[111, 98, 106, 1]] [98, 108, 111, 98, 32, 50, 0],
        .append [[111, 98, 106, 1]] [1, 2], .append [[111, 98, 106, 1]] [255], .mkdir [[48, 57]],
        .isfile (objectPath (binToHex (exHash.digest (object blob [50] [1, 2])))) false,
        .rename [[111, 98, 106, 1]] (objectPath (binToHex (exHash.digest (object blob [50] [1, 2]))))] := by
    decide +kernel
  rw [hev]
  refine ⟨_, (binToHex (exHash.digest (object blob [50] [1, 2]))).take 2,
    (binToHex (exHash.digest (object blob [50] [1, 2]))).drop 2, rfl, _, _, Fs.set_same _ _ _⟩

/-- **C36** (partial: failures of reading, compressing, writing and closing, where the clean-up itself
works) a store which raises leaves the directory exactly as it was.  Missing: failures of `makedirs`,
`rename`, `chmod`, and the empty preset name, see `C36_not_full`. -/
theorem C36_partial (H : Hash) (zl : Zlib) (fuel : Nat) (env : StoreEnv)
    (read : σ → Int → σ × Res Bytes) (i : IStream σ) (fs fs' : Fs) (e : Err)
    (hrun : fs.run (looseStore H zl fuel env read i).1 = some fs')
    (herr : (looseStore H zl fuel env read i).2.2 = .error e)
    (h1 : env.cleanup = true) (h2 : env.mkdir = true) (h3 : env.move = true) (h4 : env.chmods = [])
    (h5 : i.binsha ≠ some []) : fs' = fs := by
  rcases store_effect hrun with ⟨_, h | ⟨_, _, _, _, h, _⟩ | ⟨_, _, _, _, _, _, h, _⟩⟩ |
    ⟨hex, c, m, k1, k2, k3, k4, k5, k6⟩
  · exact h
  · rcases h with h | h | h
    · rw [h1] at h; simp at h
    · exact absurd h h5
    · rw [h2] at h; simp at h
  · rw [h3] at h; simp at h
  · rcases k6 with ⟨k6, _⟩ | ⟨e', _, k6 | k6⟩
    · rw [herr] at k6; simp at k6
    · rw [h4] at k6; simp [chmodLoop] at k6
    · obtain ⟨b, rfl⟩ := looseWrite_name k1
      rw [hexToBin_binToHex] at k6; simp at k6

/-- **C36** as far as objects are concerned only a failing `chmod` matters: otherwise a store which raises
changes no object, whatever failed. -/
theorem C36_objects_partial (H : Hash) (zl : Zlib) (fuel : Nat) (env : StoreEnv)
    (read : σ → Int → σ × Res Bytes) (i : IStream σ) (fs fs' : Fs) (e : Err)
    (hrun : fs.run (looseStore H zl fuel env read i).1 = some fs')
    (herr : (looseStore H zl fuel env read i).2.2 = .error e) (h4 : env.chmods = []) :
    ∀ d f, fs' [d, f] = fs [d, f] := by
  intro d f
  rcases store_effect hrun with ⟨_, h | ⟨rnd, c, _, _, _, h⟩ | ⟨rnd, c, d', _, _, _, _, h⟩⟩ |
    ⟨hex, c, m, k1, k2, k3, k4, k5, k6⟩
  · rw [h]
  · rw [h, Fs.set_other _ _ (tmp_ne_two _ _ _).symm]
  · rw [h, Fs.set_other _ _ (tmp_ne_two _ _ _).symm, Fs.set_other _ _ (by simp)]
  · rcases k6 with ⟨k6, _⟩ | ⟨e', _, k6 | k6⟩
    · rw [herr] at k6; simp at k6
    · rw [h4] at k6; simp [chmodLoop] at k6
    · obtain ⟨b, rfl⟩ := looseWrite_name k1
      rw [hexToBin_binToHex] at k6; simp at k6

/-! ## C37 -/

/-- **C37** storing the same content a second time (from any stream) returns the same name and changes
nothing. -/
theorem C37_idempotent {τ : Type} (H : Hash) (zl : Zlib) (L : ZlibLaws zl) (fuel fuel' : Nat)
    (env env' : StoreEnv)
    (read : σ → Int → σ × Res Bytes) (Rep : σ → Bytes → Prop)
    (hr : FileReads read Rep ∨ ObjectReads read Rep)
    (read' : τ → Int → τ × Res Bytes) (Rep' : τ → Bytes → Prop)
    (hr' : FileReads read' Rep' ∨ ObjectReads read' Rep')
    (i : IStream σ) (j : IStream τ) (data : Bytes) (hty : i.type = j.type)
    (hs : Rep i.strm data) (hsz : i.size = data.length) (hb : i.binsha = none)
    (hs' : Rep' j.strm data) (hsz' : j.size = data.length) (hb' : j.binsha = none) (fs fs1 fs2 : Fs)
    (hok : (looseStore H zl fuel env read i).2.2 = .ok ())
    (hrun : fs.run (looseStore H zl fuel env read i).1 = some fs1)
    (hok' : (looseStore H zl fuel' env' read' j).2.2 = .ok ())
    (hrun' : fs1.run (looseStore H zl fuel' env' read' j).1 = some fs2)
    (hisf : env'.isfile = true) :
    fs2 = fs1 ∧ (looseStore H zl fuel' env' read' j).2.1.binsha =
      (looseStore H zl fuel env read i).2.1.binsha := by
  rcases store_effect hrun with ⟨⟨e, he⟩, _⟩ | ⟨hex, c, m, h1, h2, h3, h4, h5, h6⟩
  · rw [hok] at he; simp at he
  rcases store_effect hrun' with ⟨⟨e, he⟩, _⟩ | ⟨hex', c', m', h1', h2', h3', h4', h5', h6'⟩
  · rw [hok'] at he; simp at he
  have hlw : looseWrite H zl fuel env read i = writeNew H zl fuel env.plan read i := by
    unfold looseWrite; rw [hb]
  have hlw' : looseWrite H zl fuel' env' read' j = writeNew H zl fuel' env'.plan read' j := by
    unfold looseWrite; rw [hb']
  rw [hlw] at h1 h2
  rw [hlw'] at h1' h2'
  obtain ⟨x, hx, _, hn⟩ := writeNew_data L hr hs hsz h2
  obtain ⟨x', hx', _, hn'⟩ := writeNew_data L hr' hs' hsz' h2'
  have : x = x' := by rw [hx, hx', hty]
  subst this
  rw [hb, hn] at h1
  rw [hb', hn'] at h1'
  simp only [storedName, Except.ok.injEq] at h1 h1'
  subst h1; subst h1'
  rcases h6 with ⟨_, hm, b, h7, h8⟩ | ⟨e, he, _⟩
  rotate_left
  · rw [hok] at he; simp at he
  rcases h6' with ⟨_, hm', b', h7', h8'⟩ | ⟨e, he, _⟩
  rotate_left
  · rw [hok'] at he; simp at he
  rw [h7] at h7'
  simp only [Except.ok.injEq] at h7'
  refine ⟨?_, by rw [h8, h8', h7']⟩
  rcases h5' with ⟨_, m'', h5'⟩ | ⟨h5', _⟩
  · have hp : fs1 (objectPath (binToHex (H.digest x))) = some (.file c m) := by
      rw [h3, storedFs, Fs.set_same]
    rw [hp] at h5'
    simp only [Option.some.injEq, Node.file.injEq] at h5'
    rw [h3', storedFs, Fs.set_self fs1 _ (some .dir) (by
      rw [h3, storedFs, Fs.set_other _ _ (by simp [objectPath]), Fs.set_same])]
    apply Fs.set_self
    rw [hp, ← h5'.1, hm, hm']
  · rw [hisf] at h5'; simp at h5'

/-- **C37** a store, successful or not, of any source: no object other than the one stored changes, and
no object disappears; an existing object file keeps its contents. -/
theorem C37_additive (H : Hash) (zl : Zlib) (fuel : Nat) (env : StoreEnv)
    (read : σ → Int → σ × Res Bytes) (i : IStream σ) (fs fs' : Fs)
    (hrun : fs.run (looseStore H zl fuel env read i).1 = some fs') :
    ∃ name, ((looseStore H zl fuel env read i).2.2 = .ok () →
        (looseStore H zl fuel env read i).2.1.binsha = some name) ∧
      (∀ d f, ¬ IsPathOf [d, f] name → fs' [d, f] = fs [d, f]) ∧
      (∀ d f, IsFile fs [d, f] → IsFile fs' [d, f]) ∧
      (env.isfile = true → ∀ d f data m, fs [d, f] = some (.file data m) →
        ∃ m', fs' [d, f] = some (.file data m')) := by
  have easy : (∀ d f, fs' [d, f] = fs [d, f]) → (∃ e, (looseStore H zl fuel env read i).2.2 = .error e) →
      ∃ name, ((looseStore H zl fuel env read i).2.2 = .ok () →
        (looseStore H zl fuel env read i).2.1.binsha = some name) ∧
      (∀ d f, ¬ IsPathOf [d, f] name → fs' [d, f] = fs [d, f]) ∧
      (∀ d f, IsFile fs [d, f] → IsFile fs' [d, f]) ∧
      (env.isfile = true → ∀ d f data m, fs [d, f] = some (.file data m) →
        ∃ m', fs' [d, f] = some (.file data m')) := by
    rintro h ⟨e, he⟩
    refine ⟨[], by rw [he]; simp, fun d f _ => h d f, fun d f => ?_, fun _ d f data m hf => ⟨m, ?_⟩⟩
    · unfold IsFile; rw [h]; exact id
    · rw [h, hf]
  rcases store_effect hrun with ⟨he, h | ⟨rnd, c, _, _, _, h⟩ | ⟨rnd, c, d', _, _, _, _, h⟩⟩ |
    ⟨hex, c, m, k1, k2, k3, k4, k5, k6⟩
  · exact easy (fun d f => by rw [h]) he
  · exact easy (fun d f => by rw [h, Fs.set_other _ _ (tmp_ne_two _ _ _).symm]) he
  · exact easy (fun d f => by
      rw [h, Fs.set_other _ _ (tmp_ne_two _ _ _).symm, Fs.set_other _ _ (by simp)]) he
  · obtain ⟨b, rfl⟩ := looseWrite_name k1
    refine ⟨b, ?_, ?_, ?_, ?_⟩
    · intro hok
      rcases k6 with ⟨_, _, b', k7, k8⟩ | ⟨e, he, _⟩
      · rw [hexToBin_binToHex] at k7
        simp only [Except.ok.injEq] at k7
        rw [k8, k7]
      · rw [hok] at he; simp at he
    · intro d f hn
      rw [k3, storedFs, Fs.set_other _ _ (fun e => hn (by rw [e]; exact isPathOf_objectPath b)),
        Fs.set_other _ _ (by simp [objectPath])]
    · rintro d f ⟨data, m', hf⟩
      unfold IsFile
      rw [k3, storedFs]
      by_cases hp : ([d, f] : Path) = objectPath (binToHex b)
      · rw [hp, Fs.set_same]; exact ⟨_, _, rfl⟩
      · rw [Fs.set_other _ _ hp, Fs.set_other _ _ (by simp [objectPath])]; exact ⟨_, _, hf⟩
    · intro hisf d f data m' hf
      rw [k3, storedFs]
      by_cases hp : ([d, f] : Path) = objectPath (binToHex b)
      · rw [hp] at hf ⊢
        rw [Fs.set_same]
        rcases k5 with ⟨_, m'', k5⟩ | ⟨k5, _⟩
        · rw [k5] at hf
          simp only [Option.some.injEq, Node.file.injEq] at hf
          exact ⟨m, by rw [hf.1]⟩
        · rw [hisf] at k5; simp at k5
      · rw [Fs.set_other _ _ hp, Fs.set_other _ _ (by simp [objectPath])]; exact ⟨_, hf⟩

/-! ## C38 -/

/-- The hex form of the name starts with the abbreviation. -/
def Abbreviates (part name : Bytes) : Prop := ∃ h, IsHexOf h name ∧ part <+: h

/-- **C38** resolving an abbreviation in a database with the usual layout: the only object, or
`BadObject`, or `AmbiguousObjectName`. -/
theorem C38_partial_to_complete (base : Bytes) (fs : Fs) (walk : List (Path × List Bytes))
    (hw : IsWalk fs walk) (hl : ObjectLayout base fs) (part : Bytes) :
    (∀ name, loosePartial (seen base walk) part = .ok name ↔
      (name.length = 20 ∧ Contains fs name ∧ Abbreviates part name) ∧
        ∀ n, n.length = 20 → Contains fs n → Abbreviates part n → n = name) ∧
    (loosePartial (seen base walk) part = .error .badObject ↔
      ∀ n, n.length = 20 → Contains fs n → ¬ Abbreviates part n) ∧
    (loosePartial (seen base walk) part = .error .ambiguousObjectName ↔
      ∃ a b, a ≠ b ∧ (a.length = 20 ∧ Contains fs a ∧ Abbreviates part a) ∧
        (b.length = 20 ∧ Contains fs b ∧ Abbreviates part b)) := by
  obtain ⟨ns, h1, h2, h3⟩ := shaIter_names hw hl
  have hab : ∀ n, Abbreviates part n ↔ part.isPrefixOf (binToHex n) = true := by
    intro n
    rw [List.isPrefixOf_iff_prefix]
    constructor
    · rintro ⟨h, hh, hp⟩
      rwa [← isHexOf_unique hh (binToHex_isHexOf n)]
    · intro h; exact ⟨_, binToHex_isHexOf n, h⟩
  have hf : ∀ n, n ∈ ns.filter (fun b => part.isPrefixOf (binToHex b)) ↔
      n.length = 20 ∧ Contains fs n ∧ Abbreviates part n := by
    intro n
    rw [List.mem_filter, h3, hab, and_assoc]
  have hnd := h2.filter (fun b => part.isPrefixOf (binToHex b))
  unfold loosePartial
  rw [h1, partialLoop_none]
  rcases hl : ns.filter (fun b => part.isPrefixOf (binToHex b)) with _ | ⟨a, _ | ⟨b, l⟩⟩
  · rw [hl] at hf
    refine ⟨fun name => ?_, ?_, ?_⟩
    · simp only [reduceCtorEq, false_iff]
      rintro ⟨h, _⟩
      exact absurd ((hf name).mpr h) (by simp)
    · simp only [true_iff]
      intro n k1 k2 k3
      exact absurd ((hf n).mpr ⟨k1, k2, k3⟩) (by simp)
    · simp only [Except.error.injEq, reduceCtorEq, false_iff]
      rintro ⟨a, _, _, h, _⟩
      exact absurd ((hf a).mpr h) (by simp)
  · rw [hl] at hf
    have hone : ∀ n, n.length = 20 ∧ Contains fs n ∧ Abbreviates part n ↔ n = a := by
      intro n; rw [← hf n]; simp
    refine ⟨fun name => ?_, ?_, ?_⟩
    · simp only [Except.ok.injEq]
      constructor
      · rintro rfl
        exact ⟨(hone _).mpr rfl, fun n k1 k2 k3 => (hone n).mp ⟨k1, k2, k3⟩⟩
      · rintro ⟨k, _⟩; exact ((hone _).mp k).symm
    · simp only [reduceCtorEq, false_iff]
      intro h
      obtain ⟨k1, k2, k3⟩ := (hone a).mpr rfl
      exact h a k1 k2 k3
    · simp only [reduceCtorEq, false_iff]
      rintro ⟨x, y, hne, hx, hy⟩
      exact hne (((hone x).mp hx).trans ((hone y).mp hy).symm)
  · rw [hl] at hf hnd
    have hne : a ≠ b := by
      exact (List.pairwise_cons.mp hnd).1 b (by simp)
    have ka := (hf a).mp (by simp)
    have kb := (hf b).mp (by simp)
    refine ⟨fun name => ?_, ?_, ?_⟩
    · simp only [reduceCtorEq, false_iff]
      rintro ⟨_, h⟩
      exact hne ((h a ka.1 ka.2.1 ka.2.2).trans (h b kb.1 kb.2.1 kb.2.2).symm)
    · simp only [Except.error.injEq, reduceCtorEq, false_iff]
      intro h
      exact h a ka.1 ka.2.1 ka.2.2
    · simp only [true_iff]
      exact ⟨a, b, hne, ka, kb⟩

/-! ## C51 -/

/-- **C51** `sha_iter` of a loose database yields the names of the objects, each once and without raising;
`size` counts them. -/
theorem C51_sha_iter (base : Bytes) (fs : Fs) (walk : List (Path × List Bytes))
    (hw : IsWalk fs walk) (hl : ObjectLayout base fs) :
    ∃ ns : List Bytes, shaIter (seen base walk) = ns.map .ok ∧ ns.Nodup ∧
      (∀ b, b ∈ ns ↔ b.length = 20 ∧ Contains fs b) ∧ shaCount (shaIter (seen base walk)) = .ok ns.length := by
  obtain ⟨ns, h1, h2, h3⟩ := shaIter_names hw hl
  exact ⟨ns, h1, h2, h3, by rw [h1, shaCount_ok]⟩

/-! ## Examples -/

/-- A database with one object, `abcd00...`. -/
def oneFile : Bytes := [99, 100] ++ List.replicate 36 48
def oneFs : Fs := fun p =>
  if p = [[97, 98]] then some .dir else if p = [[97, 98], oneFile] then some (.file [255] 0o444) else none
def oneWalk : List (Path × List Bytes) := [([], []), ([[97, 98]], [oneFile])]

theorem oneFs_isFile (p : Path) : IsFile oneFs p ↔ p = [[97, 98], oneFile] := by
  unfold IsFile oneFs
  constructor
  · rintro ⟨d, m, h⟩
    split at h
    · simp at h
    · split at h
      · assumption
      · simp at h
  · rintro rfl
    exact ⟨[255], 0o444, by decide⟩

theorem oneFs_isDir (p : Path) : oneFs p = some .dir ↔ p = [[97, 98]] := by
  unfold oneFs
  constructor
  · intro h
    split at h
    · assumption
    · split at h <;> simp at h
  · rintro rfl; rfl

theorem oneWalk_isWalk : IsWalk oneFs oneWalk where
  once := by decide
  dirs p := by rw [oneFs_isDir]; simp [oneWalk]
  files_once := by decide
  files w hw f := by
    rw [oneFs_isFile]
    simp only [oneWalk, List.mem_cons, List.not_mem_nil, or_false] at hw
    rcases hw with rfl | rfl
    · simp
    · simp

theorem oneFs_layout : ObjectLayout [111] oneFs where
  root := by decide
  depth p d h _ := by
    rw [oneFs_isDir] at h
    have := congrArg List.length h
    simp at this
    exact this
  hex d f h1 _ h2 _ := by
    rw [oneFs_isFile] at h2
    simp only [List.cons.injEq, and_true] at h2
    rw [h2.1, h2.2]
    unfold LowerHex
    decide

/-- C38, C51: the hypotheses hold of this database; the abbreviation `abc` finds the object, `abd` does
not. -/
example : loosePartial (seen [111] oneWalk) [97, 98, 99] = .ok ([0xab, 0xcd] ++ List.replicate 18 0) ∧
    loosePartial (seen [111] oneWalk) [97, 98, 100] = .error .badObject ∧
    shaCount (shaIter (seen [111] oneWalk)) = .ok 1 := by decide +kernel

/-- The layout matters: a file name with 38 characters which are not hex digits makes `sha_iter` raise, and
an upper case name is listed although `has_object` does not find it. -/
example : shaCount (shaIter [([97, 98], [List.replicate 38 120])]) = .error .binasciiError := by decide +kernel
example : shaIter [([65, 66], [oneFile])] = [.ok ([0xab, 0xcd] ++ List.replicate 18 0)] := by decide +kernel

/-- C34: a store into the empty database; all the hypotheses of `C34_store_succeeds` and `C34_store` are
met. -/
example : ∃ fs' x p c, IsObject x blob [1, 2] ∧ IsPathOf p ((oneHash (object blob [50] [1, 2])).digest x) ∧
    fs' p = some (.file c 0o444) ∧ IsZip lightZlib c c.length x ∧
    emptyFs.run (looseStore (oneHash (object blob [50] [1, 2])) lightZlib 10
      { tmp := some [1], isfile := false } bytesIORead smallStream).1 = some fs' := by
  obtain ⟨h1, fs', h2⟩ := C34_store_succeeds (oneHash (object blob [50] [1, 2])) lightZlib lightZlib_laws 10
    bytesIORead (fun s rem => s = rem) (Or.inl bytesIO_reads) smallStream [1, 2] rfl rfl rfl (by decide)
    (by decide) emptyFs [1] rfl false (fun d f => ⟨Or.inl rfl, fun _ => rfl, Or.inl rfl⟩)
    (fun x p _ _ => by simp [IsFile, emptyFs])
  obtain ⟨x, p, c, k1, k2, k3, k4, k5, k6, k7⟩ := C34_store _ lightZlib lightZlib_laws 10 _ bytesIORead
    (fun s rem => s = rem) (Or.inl bytesIO_reads) smallStream [1, 2] rfl rfl rfl emptyFs fs'
    (empty_complete _ _) (oneHash_noCollision blob [1, 2]) h1 h2
  exact ⟨fs', x, p, c, k1, k3, k4, k5, h2⟩

/-- C34: looking the object up and reading it. -/
example :
    let c : Bytes := object blob [50] [1, 2] ++ [255]
    let name := exHash.digest (object blob [50] [1, 2])
    let fs : Fs := emptyFs.set (objectPath (binToHex name)) (some (.file c 0o444))
    looseInfo lightZlib fs false true name = .ok (blob, 2) ∧
      ∃ r r' ps, looseStream lightZlib fs false true name = .ok (blob, 2, r) ∧
        readMany (Reader.read lightZlib) r [1, -1] = (r', .ok ps) ∧ ps.flatten = [1, 2] := by
  intro c name fs
  have hz : IsZip lightZlib c c.length (object blob [50] [1, 2]) := ⟨by decide, by decide⟩
  have hx : IsObject (object blob [50] [1, 2]) blob [1, 2] := ⟨[50], by unfold IsDecimal; decide, rfl⟩
  have ht : ∀ b ∈ blob, b ≠ 0x20 ∧ b ≠ 0 := by decide
  exact ⟨(C34_lookup exHash lightZlib lightZlib_laws fs _ c blob [1, 2] _ _ (isPathOf_objectPath name)
    (Fs.set_same _ _ _) hz hx ht (by decide) (by decide) false true (Or.inr rfl)).2,
    C34_stream_small exHash lightZlib lightZlib_laws fs _ c blob [1, 2] _ _ (isPathOf_objectPath name)
      (Fs.set_same _ _ _) hz hx ht false true (Or.inr rfl) (by decide) (by decide) [1, -1]⟩

/-- C35: two processes store the same object; the hypotheses are met, and for instance the first process
can get as far as having created its temporary file. -/
example : ∃ s t : Sys Bool, ObjectsComplete exHash lightZlib s.fs ∧
    (∀ i, StoreTrace exHash lightZlib (s.todo i)) ∧ Sys.Reach s t ∧ IsFile t.fs [[111, 98, 106, 1]] := by
  let s : Sys Bool := { todo := fun i => (looseStore exHash lightZlib 10
    { tmp := some (if i then [1] else [2]), isfile := false } bytesIORead smallStream).1, fs := emptyFs }
  have hev : s.todo true = .create [[111, 98, 106, 1]] :: (s.todo true).tail := by decide +kernel
  have hr := Sys.Reach.step (s := s) .refl (Sys.Step.call s true (.create [[111, 98, 106, 1]]) _ _ hev rfl)
  exact ⟨s, _, empty_complete _ _, fun i => StoreTrace.mk 10 _ bytesIORead smallStream (.unnamed rfl), hr, _, _, rfl⟩

/-- C36: the second `write(2)` fails; the store raises and has removed its file. -/
example : (looseStore exHash lightZlib 10 { tmp := some [1], isfile := false, plan := [.full, .fail] }
      bytesIORead smallStream).2.2 = .error .osError ∧
    (looseStore exHash lightZlib 10 { tmp := some [1], isfile := false, plan := [.full, .fail] }
      bytesIORead smallStream).1 = [.create [[111, 98, 106, 1]],
        .append [[111, 98, 106, 1]] [98, 108, 111, 98, 32, 50, 0],
        .append [[111, 98, 106, 1]] [255], .remove [[111, 98, 106, 1]]] := by decide +kernel

/-- C37: storing twice; the second time the temporary file is discarded. -/
example : (looseStore exHash lightZlib 10 { tmp := some [1], isfile := true } bytesIORead smallStream).1 =
    [.create [[111, 98, 106, 1]], .append [[111, 98, 106, 1]] [98, 108, 111, 98, 32, 50, 0],
      .append [[111, 98, 106, 1]] [1, 2], .append [[111, 98, 106, 1]] [255], .mkdir [[48, 57]],
      .isfile (objectPath (binToHex (exHash.digest (object blob [50] [1, 2])))) true,
      .remove [[111, 98, 106, 1]],
      .chmod (objectPath (binToHex (exHash.digest (object blob [50] [1, 2])))) 0o444] := by decide +kernel

end GitDB.Props
