import Verif.Props.AnyBytes
import Verif.Props.OutStreams
import Verif.Props.Memory
/-!
# C83: objects of a memory database without a header

A `MemoryDB` takes a stream with a name as it is, compresses it, and looks for the header when the object is first read.  `stream_copy` from
one memory database to another stores such objects: what is given is the compressed form.
-/
set_option autoImplicit false

namespace GitDB.Props
open GitDB Spec Deflate

variable {σ : Type}

/-- The object `sha` was stored and has not been read yet; its compressed form is `m`, of the bytes `y`. -/
def StoredRaw (zl : Zlib) (db : MemDB) (sha ty : Bytes) (size : Nat) (m y : Bytes) : Prop :=
  nameGet sha db.cache = some { type := ty, size := size, reader := .ofMap m } ∧ IsZip zl m m.length y

/-- **C83** Storing a stream with a name keeps its bytes, whatever they are, under that name. -/
theorem C83_stored (H : Hash) (zl : Zlib) (L : ZlibLaws zl) (fuel : Nat) (read : σ → Int → σ × Res Bytes)
    (Rep : σ → Bytes → Prop) (hr : BoundedReads read Rep) (i : IStream σ) (y name : Bytes) (hs : Rep i.strm y)
    (hsize : (y.length : Int) ≤ maxsize) (hb : i.binsha = some name) (hn : name ≠ []) (db : MemDB)
    (hok : (db.store H zl fuel read i).2.2 = .ok ()) :
    ∃ m, StoredRaw zl (db.store H zl fuel read i).1 name i.type i.size m y := by
  unfold MemDB.store at hok ⊢
  simp only at hok ⊢
  rcases hx : looseStoreTo fuel read zippedWrite (fun w => w.sha1.sha H true) i (ZippedStoreShaWriter.new zl) with ⟨w, i', e | u⟩
  · rw [hx] at hok; simp at hok
  have h2 := C79_twice H zl L fuel read Rep hr i y name hs hsize hb (by rw [hx])
  rw [hx] at h2
  have hname : i'.binsha = some name := by
    unfold looseStoreTo streamCopy at hx
    simp only [hb] at hx
    rcases hl : streamCopyLoop read zippedWrite maxsize looseChunk fuel 0 i.strm (ZippedStoreShaWriter.new zl) with ⟨s1, v1, e1 | m1⟩
    · simp [hl] at hx
    · cases name with
      | nil => exact absurd rfl hn
      | cons c cs =>
        simp [hl, hexToBin_binToHex] at hx
        rw [← hx.2]
  have hseek : w.close.seek 0 0 = ({ w.close with buf := { w.close.buf with pos := 0 } }, .ok ()) := by
    unfold ZippedStoreShaWriter.seek
    rw [if_neg (by simp)]
  simp only [hseek, hname]
  exact ⟨_, nameGet_set_same _ _ _, h2⟩

/-- A read of 8192 bytes from a new reader. -/
theorem raw_whole {zl : Zlib} {m y : Bytes} (hm : IsZip zl m m.length y) (hx : m.length ≤ 8192 ∨ NoStall zl m) {n : Int} {r' : Reader}
    {d : Bytes} (st : ReadStep zl m m.length y 0 (Reader.ofSize m 8192) n r' d) (hw : (Reader.ofSize m 8192).want n = 8192) :
    d.length = min 8192 y.length ∧ d = y.take 8192 := by
  have hlen : d.length = min 8192 y.length := by
    have h1 := st.bounded rfl
    have h2 := st.data
    have h3 : d.length ≤ y.length := by
      have := congrArg List.length h2
      simp [Reader.ofSize] at this
      omega
    rw [hw] at h1
    rcases hx with hx | hx
    · have h4 := st.least rfl (.inr rfl)
      rw [hw] at h4
      have hout : zl.out (m.take ((Reader.ofSize m 8192).cwe - (Reader.ofSize m 8192).zip.tail.length + (8192 : Int).toNat)) = y := by
        rw [List.take_of_length_le (by simp [Reader.ofSize]; omega)]
        exact hm.out
      rw [hout] at h4
      simp [Reader.ofSize] at h4
      omega
    · have h4 := st.exact hx rfl
      rw [hw] at h4
      simp [Reader.ofSize] at h4
      omega
  refine ⟨hlen, ?_⟩
  have h2 := st.data
  simp only [Reader.ofSize, Nat.zero_add, Int.toNat_zero, List.drop_zero] at h2
  rw [h2, hlen]
  rcases Nat.le_total 8192 y.length with h | h
  · rw [Nat.min_eq_left h]
  · rw [Nat.min_eq_right h, List.take_length, List.take_of_length_le h]

/-- The first read of a header that cannot be parsed. -/
theorem raw_first {zl : Zlib} (L : ZlibLaws zl) {m y : Bytes} (hm : IsZip zl m m.length y)
    (hx : m.length ≤ 8192 ∨ NoStall zl m) (hno : ∀ typ size k, ¬ HeaderRead (y.take 8192) typ size k) (n : Int) :
    ∃ r', (Reader.ofMap m).read zl n = (r', .error .valueError) ∧ (r'.seek 0 0).1 = Reader.ofSize m 8192 ∧
      r'.hasS = true ∧ RInv zl m m.length y 0 r' ∧ r'.buf = none ∧ r'.phi = false ∧ r'.s = 8192 ∧
      r'.br = min 8192 y.length := by
  have h0 : RInv zl m m.length y 0 (Reader.ofSize m maxHeader) := rinv_ofSize L hm maxHeader (by omega)
  obtain ⟨r1, d, e1, st⟩ := readCore_fuel L hm 0 _ (maxHeader : Int) h0
  obtain ⟨hlen, hd⟩ := raw_whole hm hx st rfl
  have hp : parseObjectHeader d = .error .valueError := by
    rcases parseObjectHeader_any d with hp | ⟨typ, num, size, k, hp, -⟩
    · exact hp
    · exact absurd ((parseObjectHeader_iff _ _ _ _).1 hp) (by rw [hd]; exact hno typ size k)
  have hbuf : r1.buf = none := st.nobuf rfl
  have hbl : r1.buflen = 0 := by
    have := st.inv.buf_len
    rw [hbuf] at this
    simpa using this.symm
  have hs : r1.s = 8192 := st.s
  have hS : r1.hasS = true := st.hasS
  have hphi : r1.phi = false := st.phi
  refine ⟨r1, ?_, ?_, hS, st.inv, hbuf, hphi, hs, ?_⟩
  · unfold Reader.read Reader.needS
    rw [if_neg (by simp [Reader.ofMap])]
    have hpar : (Reader.ofMap m).parseHeaderInfo zl = (r1, .error .valueError) := by
      unfold Reader.parseHeaderInfo
      rw [show ({ Reader.ofMap m with s := (maxHeader : Int), hasS := true } : Reader) = Reader.ofSize m maxHeader from rfl]
      simp only [e1, hp]
    rw [hpar]
  · have hme := st.inv.m_eq
    unfold Reader.seek
    rw [if_neg (by simp)]
    obtain ⟨rm, rz, rb, rbl, rs, rS, rbr, rcws, rcwe, rcbr, rphi⟩ := r1
    simp only at hbuf hbl hs hS hphi hme
    subst hbuf hbl hs hS hphi hme
    rfl
  · rw [st.br, hlen]
    simp [Reader.ofSize]

/-- After that, each `seek` leads to a reader of the raw bytes. -/
theorem raw_again {zl : Zlib} (L : ZlibLaws zl) {m y : Bytes} (hm : IsZip zl m m.length y) (ns : List Int) :
    ∃ r' ps, readMany (Reader.read zl) (Reader.ofSize m 8192) ns = (r', .ok ps) ∧ (r'.seek 0 0).1 = Reader.ofSize m 8192 ∧
      ps.flatten <+: y ∧ ps.flatten.length ≤ 8192 := by
  have h0 : RInv zl m m.length y 0 (Reader.ofSize m 8192) := rinv_ofSize L hm 8192 (by omega)
  obtain ⟨r', ps, e1, e2, e3, e4, e5, e6, e7, e8, -⟩ := readMany_reader L hm 0 ns _ h0 rfl
  have hbuf := e8 rfl
  have hbl : r'.buflen = 0 := by
    have := e2.buf_len
    rw [hbuf] at this
    simpa using this.symm
  refine ⟨r', ps, e1, ?_, ?_, ?_⟩
  · have hme := e2.m_eq
    unfold Reader.seek
    rw [if_neg (by simp)]
    obtain ⟨rm, rz, rb, rbl, rs, rS, rbr, rcws, rcwe, rcbr, rphi⟩ := r'
    simp only [Reader.ofSize] at hbuf hbl e5 e6 e7 hme
    subst hbuf hbl e5 e6 e7 hme
    rfl
  · simp only [Reader.ofSize, Nat.zero_add, Int.toNat_zero, List.drop_zero] at e3
    rw [e3]
    exact List.take_prefix _ _
  · have := e2.br_le
    rw [e4, e5] at this
    simp only [Reader.ofSize] at this
    omega

/-- **C83** An object whose bytes have no header.  The first client that reads it gets a `ValueError`.  If it reads on, it
gets `b''`, as at the end of an empty object.  Every later client gets the bytes as they are, at most 8192 of them, without an exception. -/
theorem C83_read (zl : Zlib) (L : ZlibLaws zl) (db : MemDB) (sha ty : Bytes) (size : Nat) (m y : Bytes)
    (hst : StoredRaw zl db sha ty size m y) (hx : m.length ≤ 8192 ∨ NoStall zl m)
    (hno : ∀ typ size k, ¬ HeaderRead (y.take 8192) typ size k) (n : Int) (ns : List Int) :
    (memSession zl db sha (n :: ns)).2 = .error .valueError ∧
    (∀ n', ((memSession zl db sha (n :: ns)).1.read zl sha n').2 = .ok []) ∧
    ∀ (earlier : List (List Int)),
      let db' := earlier.foldl (fun db ns => (memSession zl db sha ns).1) (memSession zl db sha (n :: ns)).1
      (memSession zl db' sha [-1]).2 = .ok [y.take 8192] ∧
      ∀ ns', ∃ ps, (memSession zl db' sha ns').2 = .ok ps ∧ ps.flatten <+: y.take 8192 := by
  obtain ⟨hget, hm⟩ := hst
  obtain ⟨r', e1, e2, e3, e4, e5, e6, e7, e8⟩ := raw_first L hm hx hno n
  obtain ⟨s1, s2, s3⟩ := memSession_eq zl sha (n :: ns) db _ hget
  have hseek : ((Reader.ofMap m).seek 0 0).1 = Reader.ofMap m := rfl
  simp only [hseek, readMany, e1] at s1 s2
  refine ⟨s1, ?_, ?_⟩
  · intro n'
    unfold MemDB.read
    rw [s2]
    simp only
    obtain ⟨r2, d, k1, st⟩ := read_spec L hm 0 r' n' e4 e3
    rw [k1]
    have hd : d = [] := by
      have hb := st.inv.br_le
      rw [st.br, st.s, e7, e8] at hb
      have hdat := congrArg List.length st.data
      rw [List.length_take, List.length_drop, e8] at hdat
      apply List.eq_nil_of_length_eq_zero
      omega
    rw [hd]
  · have hinv : ∀ (earlier : List (List Int)) (db0 : MemDB) (o : MemObj), nameGet sha db0.cache = some o →
        (o.reader.seek 0 0).1 = Reader.ofSize m 8192 →
        ∃ o', nameGet sha (earlier.foldl (fun db ns => (memSession zl db sha ns).1) db0).cache = some o' ∧
          (o'.reader.seek 0 0).1 = Reader.ofSize m 8192 := by
      intro earlier
      induction earlier with
      | nil => intro db0 o h1 h2; exact ⟨o, h1, h2⟩
      | cons a earlier ih =>
        intro db0 o h1 h2
        obtain ⟨t1, t2, t3⟩ := memSession_eq zl sha a db0 o h1
        obtain ⟨r1, ps, k1, k2, -⟩ := raw_again L hm a
        rw [h2, k1] at t2
        exact ih _ _ t2 k2
    intro earlier
    obtain ⟨o', h1, h2⟩ := hinv earlier _ _ s2 e2
    refine ⟨?_, fun ns' => ?_⟩
    · obtain ⟨t1, -, -⟩ := memSession_eq zl sha [-1] _ o' h1
      rw [t1, h2]
      have hne : (readMany (Reader.read zl) (Reader.ofSize m 8192) [-1]).2 = .ok [y.take 8192] := by
        have h0 : RInv zl m m.length y 0 (Reader.ofSize m 8192) := rinv_ofSize L hm 8192 (by omega)
        obtain ⟨r1, d, k1, st⟩ := read_spec L hm 0 _ (-1) h0 rfl
        obtain ⟨-, hd⟩ := raw_whole hm hx st rfl
        simp only [readMany, k1, hd]
      exact hne
    · obtain ⟨t1, -, -⟩ := memSession_eq zl sha ns' _ o' h1
      obtain ⟨r1, ps, k1, k2, k3, k4⟩ := raw_again L hm ns'
      rw [h2, k1] at t1
      refine ⟨ps, t1, ?_⟩
      obtain ⟨t, rfl⟩ := k3
      rw [List.take_append, List.take_of_length_le k4]
      exact ⟨_, rfl⟩

/-- **C83** `stream_copy` into another memory database stores the compressed form of every object as its content. -/
theorem C83_copy (H : Hash) (zl : Zlib) (L : ZlibLaws zl) (fuel : Nat) (src tgt src' tgt' : MemDB) (sha : Bytes) (hn : sha ≠ []) (o : MemObj)
    (ho : nameGet sha src.cache = some o) (hlen : (o.reader.m.length : Int) ≤ maxsize) (hnot : nameGet sha tgt.cache = none) (n : Nat)
    (h : MemDB.streamCopy (fun t s => (t, MemDB.hasObject t s))
      (fun t i => let r := MemDB.store H zl fuel bytesIORead t i; (r.1, r.2.2)) [sha] 0 src tgt = (src', tgt', .ok n)) :
    n = 1 ∧ ∃ m, StoredRaw zl tgt' sha o.type o.size m o.reader.m := by
  have hsm := seek_m o.reader
  have hsk := seek_ok o.reader
  rcases hs : o.reader.seek 0 0 with ⟨r, e | u⟩
  · rw [hs] at hsk; simp at hsk
  rw [hs] at hsm
  simp only at hsm
  simp only [MemDB.streamCopy, MemDB.hasObject, hnot, Option.isSome_none, MemDB.stream, ho, hs] at h
  have hsto := C83_stored H zl L fuel bytesIORead _ bytesIO_reads.toBoundedReads
    { type := o.type, size := o.size, binsha := some sha, strm := r.m } o.reader.m sha hsm hlen rfl hn tgt
  rcases hst : MemDB.store H zl fuel bytesIORead tgt { type := o.type, size := o.size, binsha := some sha, strm := r.m } with ⟨t, i', e | u⟩
  · rw [hst] at h
    simp at h
  · rw [hst] at h hsto
    simp only [Prod.mk.injEq, Except.ok.injEq] at h
    obtain ⟨-, rfl, hn1⟩ := h
    exact ⟨by omega, hsto rfl⟩

/-- The copy of an object of two bytes, read three times. -/
example :
    let sha := exHash.digest (object blob [0x32] [1, 2])
    let db := doubled.2.1
    let db1 := (memSession toyZlib db sha [-1]).1
    doubled.2.2 = .ok 1 ∧ (memSession toyZlib db sha [-1]).2 = .error .valueError ∧ (db1.read toyZlib sha (-1)).2 = .ok [] ∧
    (nameGet sha doubled.1.cache).map (fun o => .ok [o.reader.m]) = some (memSession toyZlib db1 sha [-1]).2 := by
  decide +kernel

/-- A name of the wrong kind of content: three bytes without a header. -/
example :
    let db : MemDB := (MemDB.store exHash toyZlib 100 bytesIORead {} { type := blob, size := 7, binsha := some [1], strm := [5, 6, 7] }).1
    (∀ typ size k, ¬ HeaderRead [5, 6, 7] typ size k) ∧ (memSession toyZlib db [1] [2, 3]).2 = .error .valueError ∧
    (memSession toyZlib (memSession toyZlib db [1] [2, 3]).1 [1] [-1]).2 = .ok [[5, 6, 7]] := by
  refine ⟨fun typ size k h => ?_, by decide +kernel, by decide +kernel⟩
  have := (parseObjectHeader_iff _ _ _ _).2 h
  rw [show parseObjectHeader [5, 6, 7] = .error .valueError by decide] at this
  cases this

end GitDB.Props
