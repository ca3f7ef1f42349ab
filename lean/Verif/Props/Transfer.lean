import Verif.Model.Transfer
import Verif.Props.Loose
import Verif.Props.PackDelta
/-!
# C64: objects handed from one database to another
-/
set_option autoImplicit false

namespace GitDB.Props
open GitDB Spec

variable {σ ω ρ ω₂ ρ₂ : Type}

/-- Whatever calls are made, the stream returns what an ideal stream in front of `rem` returns. -/
def Ideal (read : σ → Int → σ × Res Bytes) (s : σ) (rem : Bytes) : Prop :=
  ∀ ns, ∃ s' ps, readMany read s ns = (s', .ok ps) ∧ ps.flatten = rem.take (readLen rem.length ns)

theorem ideal_step {read : σ → Int → σ × Res Bytes} {s : σ} {rem : Bytes} (h : Ideal read s rem) (n : Int) :
    ∃ s', read s n = (s', .ok (if n < 1 then rem else rem.take n.toNat)) ∧
      Ideal read s' (if n < 1 then [] else rem.drop n.toNat) := by
  obtain ⟨s1, ps, h1, h2⟩ := h [n]
  rcases hr : read s n with ⟨s', e | d⟩
  · simp [readMany, hr] at h1
  · simp only [readMany, hr, Prod.mk.injEq, Except.ok.injEq] at h1
    obtain ⟨rfl, rfl⟩ := h1
    have hd : d = if n < 1 then rem else rem.take n.toNat := by
      simp only [List.flatten_cons, List.flatten_nil, List.append_nil, readLen, Nat.add_zero] at h2
      rw [h2]
      split
      · exact List.take_length
      · rw [← List.take_eq_take_min]
    refine ⟨s', by rw [hd], fun ns => ?_⟩
    obtain ⟨s2, ps, k1, k2⟩ := h (n :: ns)
    simp only [readMany, hr] at k1
    rcases hm : readMany read s' ns with ⟨s3, e | qs⟩
    · simp [hm] at k1
    · simp only [hm, Prod.mk.injEq, Except.ok.injEq] at k1
      obtain ⟨rfl, rfl⟩ := k1
      refine ⟨s3, qs, rfl, ?_⟩
      simp only [List.flatten_cons, readLen] at k2
      rw [hd] at k2
      by_cases hn : n < 1
      · simp only [if_pos hn] at k2 ⊢
        have := congrArg List.length k2
        simp only [List.length_append, List.length_take] at this
        have h0 : qs.flatten.length = 0 := by omega
        rw [List.length_eq_zero_iff.1 h0]; simp
      · simp only [if_neg hn] at k2 ⊢
        have k3 := congrArg (List.drop (rem.take n.toNat).length) k2
        rw [List.drop_left, List.drop_take, List.length_take, Nat.add_sub_cancel_left] at k3
        rw [k3, List.length_drop]
        rcases Nat.le_total n.toNat rem.length with hle | hle
        · rw [Nat.min_eq_left hle]
        · rw [Nat.min_eq_right hle, List.drop_of_length_le (Nat.le_refl _), List.drop_of_length_le hle]; simp

theorem ideal_reads (read : σ → Int → σ × Res Bytes) : ObjectReads read (Ideal read) := by
  constructor
  · constructor
    intro s rem n h hn
    obtain ⟨s', h1, h2⟩ := ideal_step h n
    rw [if_neg (by omega)] at h1 h2
    exact ⟨s', h1, h2⟩
  · intro s rem n h hn
    obtain ⟨s', h1, h2⟩ := ideal_step h n
    rw [if_pos (by omega)] at h1 h2
    exact ⟨s', h1, h2⟩

/-- A database returned this object: name, type, size, and a stream of the data. -/
structure Offers (zl : Zlib) (fuel : Nat) (o : OStream) (name ty data : Bytes) : Prop where
  sha : o.sha = name
  type : o.type = .bytes ty
  size : o.getSize zl fuel = .ok data.length
  ideal : Ideal (PStream.read zl fuel) o.stream data

theorem readMany_base (zl : Zlib) (fuel : Nat) : ∀ (ns : List Int) (r : Reader),
    readMany (PStream.read zl fuel) (.base r) ns =
      (.base (readMany (Reader.read zl) r ns).1, (readMany (Reader.read zl) r ns).2)
  | [], r => rfl
  | n :: ns, r => by
    rcases hr : r.read zl n with ⟨r', e | d⟩
    · simp [readMany, PStream.read, PStream.open, hr]
    · have ih := readMany_base zl fuel ns r'
      rcases hm : readMany (Reader.read zl) r' ns with ⟨r2, e | ps⟩ <;>
        simp [readMany, PStream.read, PStream.open, hr, ih, hm]

/-! ## Sources -/

/-- **C64** a loose object of at most 8192 bytes (compressed form too) is returned as what it is. -/
theorem C64_from_loose (H : Hash) (zl : Zlib) (L : ZlibLaws zl) (fs : Fs) (x c ty data : Bytes)
    (m : Nat) (path : Path) (hp : IsPathOf path (H.digest x)) (hf : fs path = some (.file c m))
    (hz : IsZip zl c c.length x) (hx : IsObject x ty data) (ht : ∀ b ∈ ty, b ≠ 0x20 ∧ b ≠ 0)
    (noatime second : Bool) (ho : noatime = true ∨ second = true) (hlen : x.length ≤ 8192)
    (hcl : c.length ≤ 8192) (fuel : Nat) :
    ∃ o, looseOStream zl fs noatime second (H.digest x) = .ok o ∧ Offers zl fuel o (H.digest x) ty data := by
  obtain ⟨r, _, _, h1, _⟩ := C34_stream_small H zl L fs x c ty data m path hp hf hz hx ht noatime second ho hlen hcl []
  refine ⟨⟨H.digest x, .bytes ty, some data.length, .base r⟩, by simp [looseOStream, h1], rfl, rfl, rfl, fun ns => ?_⟩
  obtain ⟨r', r2, ps, h2, h3, h4⟩ :=
    C34_stream_small H zl L fs x c ty data m path hp hf hz hx ht noatime second ho hlen hcl ns
  rw [h1] at h2
  simp only [Except.ok.injEq, Prod.mk.injEq, true_and] at h2
  subst h2
  exact ⟨.base r2, ps, by rw [readMany_base, h3], h4⟩

/-- **C64** a deltified object of a pack (under the conditions of C32) is returned resolved. -/
theorem C64_from_delta {zl : Zlib} (L : ZlibLaws zl) (p : PackEntity) (find : Bytes → Option Nat)
    (hfi : Finds p.index find) (sha : Bytes) (hsha : sha.length = 20) (off : Nat) (hf : find sha = some off)
    (l : List (Nat × Packed)) (hc : Chain zl p.pack.data find off l) (hs : Straight l) (ds : List DeltaObj)
    (base : Bytes) (t : Nat) (hd : Deltified zl l ds base t) (nm : Bytes) (ht : typeName t = some nm) :
    ∃ F, ∀ fuel, F ≤ fuel → ∃ o, p.stream fuel sha = .ok o ∧ Offers zl fuel o sha nm (resolveChain base ds) := by
  obtain ⟨F, hF⟩ := C32_info_stream_partial L p find hfi sha hsha off hf l hc hs ds base t hd nm ht lenHash
  refine ⟨F, fun fuel hfu => ?_⟩
  obtain ⟨o, _, h1, h2, h3, h4, h5, _⟩ := hF fuel hfu
  exact ⟨o, h1, h2, h3, h4, h5⟩

/-! ## Targets -/

/-- **C64** what a database returned, stored in a loose database, gets the name of the object it is: the SHA-1 of
header and data, and its file is a compressed stream of both. -/
theorem C64_into_loose (H : Hash) (zl zl' : Zlib) (L' : ZlibLaws zl') (fuel fuel' : Nat) (env : StoreEnv) (o : OStream)
    (name ty data : Bytes) (ho : Offers zl fuel o name ty data) (fs fs' : Fs) (hfs : ObjectsComplete H zl' fs)
    (hcol : NoCollision H ty data) : ∃ i, o.toIStream zl fuel = .ok i ∧
      ((looseStore H zl' fuel' env (PStream.read zl fuel) i).2.2 = .ok () →
       fs.run (looseStore H zl' fuel' env (PStream.read zl fuel) i).1 = some fs' →
       ∃ x p c, IsObject x ty data ∧
         (looseStore H zl' fuel' env (PStream.read zl fuel) i).2.1.binsha = some (H.digest x) ∧
         IsPathOf p (H.digest x) ∧ fs' p = some (.file c 0o444) ∧ IsZip zl' c c.length x ∧
         ObjectsComplete H zl' fs') := by
  refine ⟨{ type := ty, size := data.length, strm := o.stream }, by simp [OStream.toIStream, ho.type, ho.size, PyName.text], ?_⟩
  intro hok hrun
  obtain ⟨x, p, c, h1, h2, h3, h4, h5, _, h6⟩ := C34_store H zl' L' fuel' env (PStream.read zl fuel) _
    (.inr (ideal_reads _)) _ data ho.ideal rfl rfl fs fs' hfs hcol hok hrun
  exact ⟨x, p, c, h1, h2, h3, h4, h5, h6⟩

/-- An object of a database with its type id, and what it is. -/
structure Given where
  o : OStream
  typeId : Nat
  ty : Bytes
  data : Bytes

/-- What `write_pack` sees of it. -/
def Given.packIn (g : Given) : PackIn PStream := ⟨g.typeId, g.data.length, g.o.sha, g.o.stream⟩

theorem typeToTypeId_name {t : Nat} {nm : Bytes} (h : typeName t = some nm) : typeToTypeId (.bytes nm) = .ok t := by
  unfold typeName at h
  split at h
  all_goals first
    | (simp at h; done)
    | (simp only [Option.some.injEq] at h; subst h; decide)

theorem mapM_packIn (zl : Zlib) (fuel : Nat) : ∀ (l : List Given),
    (∀ g ∈ l, ∃ name, Offers zl fuel g.o name g.ty g.data) → (∀ g ∈ l, typeName g.typeId = some g.ty) →
    (l.map Given.o).mapM (OStream.toPackIn zl fuel) = .ok (l.map Given.packIn)
  | [], _, _ => rfl
  | g :: l, h, ht => by
    obtain ⟨name, hg⟩ := h g (by simp)
    have h1 : g.o.toPackIn zl fuel = .ok g.packIn := by
      simp [OStream.toPackIn, hg.type, hg.size, typeToTypeId_name (ht g (by simp)), Given.packIn]
    have ih := mapM_packIn zl fuel l (fun x hx => h x (by simp [hx])) (fun x hx => ht x (by simp [hx]))
    simp only [List.map_cons, List.mapM_cons, h1, ih]
    rfl

/-- **C64** objects returned by databases of any kind, written to a pack, are returned by that pack: same names, types,
sizes and, if the new compressed form does not stall, the same data. -/
theorem C64_into_pack {write : ω → Bytes → ω × Res ρ} {iwrite : ω₂ → Bytes → ω₂ × Res ρ₂} {WRep : ω → Bytes → Prop}
    {IRep : ω₂ → Bytes → Prop} (H : Hash) (zl zl' : Zlib) (L' : ZlibLaws zl')
    (hw : ∀ cap, Stores write WRep cap) (hi : ∀ cap, Stores iwrite IRep cap) (fuel fuel' : Nat) (level : Int)
    (l : List Given) (hl : ∀ g ∈ l, Offers zl fuel g.o g.o.sha g.ty g.data) (ht : ∀ g ∈ l, typeName g.typeId = some g.ty)
    (hn : ∀ g ∈ l, g.o.sha.length = 20) (hd : (l.map fun g => g.o.sha).Nodup) (hc : l.length ≤ 2 ^ 31)
    (hfit : PackFits zl' level (l.map fun g => (g.packIn, g.data))) (hfu : ∀ g ∈ l, g.data.length < fuel')
    (w : ω) (ho : WRep w []) (iw : ω₂) (hio : IRep iw []) :
    ∃ ins w' iw' psha isha pk ix p x, (l.map Given.o).mapM (OStream.toPackIn zl fuel) = .ok ins ∧
      writePack H zl' fuel' (PStream.read zl fuel) write (some iwrite) ins none level w iw =
        (w', iw', .ok (psha, some isha)) ∧ WRep w' pk ∧ IRep iw' ix ∧
      PackFile.load pk = .ok p ∧ IndexFile.load ix = .ok x ∧
      ∀ g ∈ l, ∀ fuel2, ∃ o', PackEntity.stream ⟨x, p⟩ fuel2 g.o.sha = .ok o' ∧
        o'.sha = g.o.sha ∧ o'.type = g.o.type ∧ o'.getSize zl' fuel2 = g.o.getSize zl fuel ∧
        PackEntity.info zl' ⟨x, p⟩ fuel2 g.o.sha = .ok (.bytes g.ty, g.data.length) ∧
        (HoweverFed zl' level g.data (NoStall zl') → Offers zl' fuel2 o' g.o.sha g.ty g.data) := by
  have hp : Packable (Ideal (PStream.read zl fuel)) zl' level fuel' (l.map fun g => (g.packIn, g.data)) := by
    refine ⟨⟨?_, ?_, ?_, by simpa using hc, hfit⟩, ?_⟩
    · simp only [List.mem_map]
      rintro q ⟨g, hg, rfl⟩
      exact ⟨(hl g hg).ideal, rfl, hfu g hg⟩
    · simp only [List.mem_map]
      rintro q ⟨g, hg, rfl⟩
      simp [Given.packIn, ht g hg]
    · simp only [List.mem_map]
      rintro q ⟨g, hg, rfl⟩
      exact hn g hg
    · simpa [List.map_map, Function.comp_def, Given.packIn] using hd
  obtain ⟨w', iw', psha, isha, pk, ix, p, x, h1, h2, h3, h4, h5, h6⟩ := C26_roundtrip_partial zl' L'
    (ideal_reads (PStream.read zl fuel)).toBoundedReads hw hi H fuel' level _ hp w ho iw hio
  refine ⟨l.map Given.packIn, w', iw', psha, isha, pk, ix, p, x,
    mapM_packIn zl fuel l (fun g hg => ⟨_, hl g hg⟩) ht, ?_, h2, h3, h4, h5, ?_⟩
  · rw [List.map_map] at h1
    exact h1
  · intro g hg fuel2
    obtain ⟨o, nm, k1, k2, k3, k4, k5, k6, _, k8⟩ := h6 (g.packIn, g.data) (List.mem_map_of_mem hg) fuel2
    have hnm : nm = g.ty := by
      have := ht g hg
      simp only [Given.packIn] at k1
      rw [k1] at this
      exact Option.some.inj this
    subst hnm
    refine ⟨o, k2, k3, by rw [k4, (hl g hg).type], by rw [k5, (hl g hg).size], k6, fun hs => ⟨k3, k4, k5, k8 hs⟩⟩

/-! ## From one end to the other -/

/-- A loose object: in the database `fs` there is a file at the path of the SHA-1 of the object. -/
structure LooseAt (H : Hash) (zl : Zlib) (fs : Fs) (x c ty data : Bytes) : Prop where
  file : ∃ path m, IsPathOf path (H.digest x) ∧ fs path = some (.file c m)
  zip : IsZip zl c c.length x
  object : IsObject x ty data

theorem isObject_unique {x y ty data : Bytes} (hx : IsObject x ty data) (hy : IsObject y ty data) : x = y := by
  obtain ⟨a, ha, rfl⟩ := hx
  obtain ⟨b, hb, rfl⟩ := hy
  rw [isDecimal_eq _ a ha, isDecimal_eq _ b hb]

theorem typeName_clean {t : Nat} {nm : Bytes} (h : typeName t = some nm) : ∀ b ∈ nm, b ≠ 0x20 ∧ b ≠ 0 := by
  unfold typeName at h
  split at h
  all_goals first
    | (simp at h; done)
    | (simp only [Option.some.injEq] at h; subst h; decide)

/-- **C64** (partial: objects of at most 8192 bytes which do not stall when compressed again) a loose object, packed, read from
the pack and stored as a loose object of another database, has the name it had before; its file holds the same object.
Missing: larger loose objects, see `C64_not_full`. -/
theorem C64_loose_pack_loose_partial (H : Hash) (zl : Zlib) (L : ZlibLaws zl) (fuel : Nat) (level : Int) (fs : Fs)
    (t : Nat) (x c ty data : Bytes) (h : LooseAt H zl fs x c ty data) (ht : typeName t = some ty)
    (hlen : x.length ≤ 8192) (hcl : c.length ≤ 8192) (hflow : HoweverFed zl level data (NoStall zl))
    (hfit : ∀ pieces, pieces.flatten = data → (zl.emit (zl.cinit level) pieces).length < 2 ^ 60)
    (hfu : data.length < fuel) :
    ∃ o i w' iw' psha isha p q o' i', looseOStream zl fs true true (H.digest x) = .ok o ∧
      o.toPackIn zl fuel = .ok i ∧
      writePack H zl fuel (PStream.read zl fuel) sink (some sink) [i] none level {} {} = (w', iw', .ok (psha, some isha)) ∧
      PackFile.load w'.data = .ok p ∧ IndexFile.load iw'.data = .ok q ∧
      PackEntity.stream ⟨q, p⟩ fuel (H.digest x) = .ok o' ∧ o'.toIStream zl fuel = .ok i' ∧
      ∀ (env : StoreEnv) (fs2 fs2' : Fs), ObjectsComplete H zl fs2 → NoCollision H ty data →
        (looseStore H zl fuel env (PStream.read zl fuel) i').2.2 = .ok () →
        fs2.run (looseStore H zl fuel env (PStream.read zl fuel) i').1 = some fs2' →
        (looseStore H zl fuel env (PStream.read zl fuel) i').2.1.binsha = some (H.digest x) ∧
        ∃ c', LooseAt H zl fs2' x c' ty data := by
  obtain ⟨path, m, hp, hf⟩ := h.file
  obtain ⟨o, h1, h2⟩ := C64_from_loose H zl L fs x c ty data m path hp hf h.zip h.object (typeName_clean ht) true true
    (.inl rfl) hlen hcl fuel
  have hg : (⟨o, t, ty, data⟩ : Given).packIn = ⟨t, data.length, H.digest x, o.stream⟩ := by simp [Given.packIn, h2.sha]
  obtain ⟨ins, w', iw', psha, isha, pk, ix, p, q, k1, k2, k3, k4, k5, k6, k7⟩ := C64_into_pack H zl zl L sink_stores
    sink_stores fuel fuel level [⟨o, t, ty, data⟩] (by simpa using h2.sha ▸ h2) (by simpa using ht)
    (by simp [h2.sha, H.len]) (by simp) (by simp)
    (by
      intro es hes
      simp only [List.map_cons, List.map_nil] at hes
      cases hes with
      | cons he ht' =>
        cases ht'
        obtain ⟨a1, a2, a3, a4, a5, pieces, a6, a7⟩ := he
        rename_i e
        have hz := hfit pieces a6
        rw [← a7] at hz
        have hext := a4.ext
        rw [a2] at hext
        have hx0 : e.ext = [] := hext.2.2
        have hdl : data.length ≤ 8192 := by
          obtain ⟨ds, _, rfl⟩ := h.object
          simp only [List.length_append] at hlen
          omega
        have hh := a5 2 (by rw [a3]; simp only; omega)
        simp only [List.flatMap_cons, List.flatMap_nil, List.append_nil, Packed.bytes, List.length_append, hx0]
        omega) (by simpa using hfu) {} ⟨rfl, rfl⟩ {} ⟨rfl, rfl⟩
  obtain ⟨o', m1, m2, m3, m4, m5, m6⟩ := k7 _ (List.mem_singleton.2 rfl) fuel
  simp only [h2.sha] at m1 m6
  have hoff := m6 hflow
  have hins : o.toPackIn zl fuel = .ok ⟨t, data.length, H.digest x, o.stream⟩ := by
    simp [OStream.toPackIn, h2.type, h2.size, h2.sha, typeToTypeId_name ht]
  have hins' : ins = [⟨t, data.length, H.digest x, o.stream⟩] := by
    simp only [List.map_cons, List.map_nil, List.mapM_cons, List.mapM_nil, hins] at k1
    exact (Except.ok.inj k1).symm
  subst hins'
  have n1 : o'.toIStream zl fuel = .ok { type := ty, size := data.length, strm := o'.stream } := by
    simp [OStream.toIStream, hoff.type, hoff.size, PyName.text]
  refine ⟨o, _, w', iw', psha, isha, p, q, o', _, h1, hins, k2, by rw [k3.1]; exact k5, by rw [k4.1]; exact k6, m1, n1, ?_⟩
  intro env fs2 fs2' hfs2 hcol hok hrun
  obtain ⟨i2, q1, q2⟩ := C64_into_loose H zl zl L fuel fuel env o' _ ty data hoff fs2 fs2' hfs2 hcol
  rw [n1, Except.ok.injEq] at q1
  subst q1
  obtain ⟨y, path', c', r1, r2, r3, r4, r5, _⟩ := q2 hok hrun
  have hxy := isObject_unique r1 h.object
  subst hxy
  exact ⟨r2, c', ⟨path', _, r3, r4⟩, r5, r1⟩

/-- The full statement: every loose object whose stream does not stall can be packed. -/
def C64_full : Prop :=
  ∀ (H : Hash) (zl : Zlib) (fs : Fs) (t : Nat) (x c ty data : Bytes) (level : Int), ZlibLaws zl →
    LooseAt H zl fs x c ty data → typeName t = some ty → NoStall zl c → data.length < 2 ^ 32 →
    ∃ o i fuel w' iw' psha isha, looseOStream zl fs true true (H.digest x) = .ok o ∧ o.toPackIn zl fuel = .ok i ∧
      writePack H zl fuel (PStream.read zl fuel) sink (some sink) [i] none level {} {} = (w', iw', .ok (psha, some isha))

theorem big_read_chunk : ∃ r' d, (plainReader bigZip bigData 11).read toyZlib (chunkSize : Nat) = (r', .ok d) ∧
    d.length = 8190 := by
  have hwant : (plainReader bigZip bigData 11).want (chunkSize : Nat) = 16371 := by
    unfold Reader.want plainReader
    simp only [big_data_length, chunkSize, PAGESIZE]
    split <;> omega
  have h := read_plainReader (objHead blob bigDigits) bigData [] big_plain
    (by rw [big_head_length]; decide)
    (by rw [List.length_append, big_head_length, big_data_length]; decide) (chunkSize : Nat)
    (by
      rw [big_head_length]
      have := hwant
      unfold bigZip object at this
      rw [this]; simp only [maxHeader]; omega)
    (by
      rw [big_head_length]
      have := hwant
      unfold bigZip object at this
      rw [this]; simp only [maxHeader]; omega)
  obtain ⟨r', d, e, hd⟩ := h
  rw [big_head_length] at e hd
  refine ⟨r', d, e, ?_⟩
  have hw := hwant
  unfold bigZip object at hw
  simp only [hw, big_data_length, maxHeader] at hd
  rw [if_neg (by omega)] at hd
  omega

/-- The database with only the big object. -/
def bigFs (H : Hash) : Fs := fun p =>
  if p = objectPath (binToHex (H.digest (object blob bigDigits bigData))) then some (.file bigZip 0o444) else none

theorem bigFs_looseAt (H : Hash) : LooseAt H toyZlib (bigFs H) (object blob bigDigits bigData) bigZip blob bigData := by
  refine ⟨⟨_, 0o444, isPathOf_objectPath _, by simp [bigFs]⟩, ?_, bigDigits,
    by rw [big_data_length]; exact natToDec_isDecimal _, rfl⟩
  have := plain_isZip _ [] big_plain
  rw [show (object blob bigDigits bigData).length + 1 = bigZip.length by
    rw [bigZip, List.length_append (bs := [255]), List.length_singleton]] at this
  exact this

theorem big_exists : ∃ fs x c data r r' d, LooseAt lenHash toyZlib fs x c blob data ∧ NoStall toyZlib c ∧
    data.length = 16371 ∧ c ≠ [] ∧ Reader.new toyZlib c = .ok (blob, (16371 : Nat), r) ∧
    r.read toyZlib (chunkSize : Nat) = (r', .ok d) ∧ d.length = 8190 := by
  obtain ⟨r', d, h1, h2⟩ := big_read_chunk
  refine ⟨_, _, _, _, _, r', d, bigFs_looseAt lenHash, plain_noStall _ [] big_plain, big_data_length, ?_, ?_, h1, h2⟩
  · rw [bigZip]; exact List.append_ne_nil_of_right_ne_nil _ (by decide)
  · rw [big_new, big_data_length]

/-- A stream whose first piece is neither a whole chunk nor everything cannot be packed. -/
theorem writePack_short (H : Hash) (zl : Zlib) (fuel : Nat) (read : σ → Int → σ × Res Bytes) (i : PackIn σ) (level : Int)
    (s' : σ) (d : Bytes) (h : read i.strm (chunkSize : Nat) = (s', .ok d)) (h1 : d.length ≠ chunkSize)
    (h2 : d.length ≠ i.size) (w' iw' : BytesIO) (r : Bytes × Option Bytes) :
    writePack H zl fuel read sink (some sink) [i] none level {} {} ≠ (w', iw', .ok r) := by
  intro e
  unfold writePack at e
  simp only [List.length_singleton] at e
  split at e
  · simp at e
  split at e
  · simp at e
  split at e
  · simp at e
  rename_i f _ hpk
  exfalso
  revert hpk
  simp only [packObjects]
  split
  · simp
  split
  · simp
  split
  · simp
  rename_i hw
  rw [if_pos]
  · simp
  · intro hbr
    unfold writeStreamToPack at hw
    split at hw
    · simp at hw
    rename_i hloop
    simp only at hw
    split at hw
    · simp at hw
    simp only [Prod.mk.injEq, Except.ok.injEq] at hw
    cases fuel with
    | zero => simp [packCopyLoop] at hloop
    | succ k =>
      simp only [packCopyLoop, h] at hloop
      split at hloop
      · simp at hloop
      · rw [if_pos h1] at hloop
        simp only [Prod.mk.injEq, Except.ok.injEq] at hloop
        omega

/-- **C64** packing this loose object of 16371 bytes raises `AssertionError`: the first read of the stream is short, which ends
the copying, and the number of bytes read is not the size. -/
theorem C64_not_full : ¬ C64_full := by
  intro h
  obtain ⟨fs, x, c, data, r, r', d, k1, k2, k3, k4, k5, k6, k7⟩ := big_exists
  obtain ⟨o, i, fuel, w', iw', psha, isha, h1, h2, h3⟩ := h lenHash toyZlib fs 3 x c blob data 1 toyZlib_laws
    k1 rfl k2 (by rw [k3]; decide)
  obtain ⟨path, m, hp, hf⟩ := k1.file
  have hm := mapLooseObject_file hp hf k4 true true (.inl rfl)
  have ho : o = ⟨lenHash.digest x, .bytes blob, some 16371, .base r⟩ := by
    unfold looseOStream looseStream at h1
    rw [hm] at h1
    simp only [k5] at h1
    exact (Except.ok.inj h1).symm
  subst ho
  have hi : i = ⟨3, 16371, lenHash.digest x, .base r⟩ := by
    have : typeToTypeId (.bytes blob) = .ok 3 := by decide
    simp only [OStream.toPackIn, OStream.getSize, this] at h2
    exact (Except.ok.inj h2).symm
  subst hi
  exact writePack_short lenHash toyZlib fuel _ _ 1 (.base r') d (by simp [PStream.read, PStream.open, k6])
    (by rw [k7]; decide) (by rw [k7]; simp) _ _ _ h3

/-! ## Cases -/

/-- A database with one small object. -/
def smallFs : Fs := fun p =>
  if p = objectPath (binToHex (exHash.digest (object blob [50] [1, 2]))) then
    some (.file (object blob [50] [1, 2] ++ [255]) 0o444) else none

theorem smallFs_at : LooseAt exHash toyZlib smallFs (object blob [50] [1, 2]) (object blob [50] [1, 2] ++ [255]) blob [1, 2] :=
  ⟨⟨_, 0o444, isPathOf_objectPath _, by simp [smallFs]⟩, ⟨by decide, by decide⟩, [50], by unfold IsDecimal; decide, rfl⟩

example := C64_loose_pack_loose_partial exHash toyZlib toyZlib_laws 10 1 smallFs 3 _ _ blob [1, 2] smallFs_at rfl (by decide)
  (by decide) (toy_fed_noStall 1 _) (fun ps h => by
    rw [show toyZlib.emit (toyZlib.cinit 1) ps = toyEnc ps.flatten from toy_emit ps, h]; decide) (by decide)

/-- The small object, offered by its database, stored in an empty one; all conditions are met. -/
example : ∃ o i fs', looseOStream toyZlib smallFs false true (exHash.digest (object blob [50] [1, 2])) = .ok o ∧
    o.toIStream toyZlib 10 = .ok i ∧
    emptyFs.run (looseStore exHash lightZlib 10 { tmp := some [1], isfile := false } (PStream.read toyZlib 10) i).1 = some fs' ∧
    (looseStore exHash lightZlib 10 { tmp := some [1], isfile := false } (PStream.read toyZlib 10) i).2.2 = .ok () := by
  obtain ⟨path, m, hp, hf⟩ := smallFs_at.file
  obtain ⟨o, h1, h2⟩ := C64_from_loose exHash toyZlib toyZlib_laws smallFs _ _ blob [1, 2] m path hp hf smallFs_at.zip
    smallFs_at.object (by decide) false true (.inr rfl) (by decide) (by decide) 10
  obtain ⟨k1, fs', k2⟩ := C34_store_succeeds exHash lightZlib lightZlib_laws 10 (PStream.read toyZlib 10) _
    (.inr (ideal_reads _)) { type := blob, size := 2, strm := o.stream } [1, 2] h2.ideal rfl rfl
    (show ∀ b ∈ blob, b.toNat < 128 by decide) (by decide) emptyFs
    [1] rfl false (fun d f => ⟨Or.inl rfl, fun _ => rfl, Or.inl rfl⟩) (fun x p _ _ => by simp [IsFile, emptyFs])
  exact ⟨o, _, fs', h1, by simp [OStream.toIStream, h2.type, h2.size, PyName.text], k2, k1⟩

/-- The delta chain of `goodPack`, stored in a loose database. -/
example (env : StoreEnv) (fs fs' : Fs) (H : Hash) (hfs : ObjectsComplete H lightZlib fs)
    (hcol : NoCollision H blob (resolveChain exBase [exD1, exD2])) :
    ∃ F, ∀ fuel, F ≤ fuel → ∃ o i, (entityOf goodPack).stream fuel (List.replicate 20 3) = .ok o ∧
      o.toIStream toyZlib fuel = .ok i ∧
      ((looseStore H lightZlib fuel env (PStream.read toyZlib fuel) i).2.2 = .ok () →
       fs.run (looseStore H lightZlib fuel env (PStream.read toyZlib fuel) i).1 = some fs' →
       ∃ x p c, IsObject x blob (resolveChain exBase [exD1, exD2]) ∧ IsPathOf p (H.digest x) ∧
        fs' p = some (.file c 0o444)) := by
  obtain ⟨F, hF⟩ := C64_from_delta toyZlib_laws (entityOf goodPack) (offsetIn goodPack)
    (finds_lists (lists_written goodPack _ _ goodPack_indexable (by decide))) (List.replicate 20 3) rfl 46 (by decide)
    goodChain (goodChain_chain _)
    ⟨[(46, secondOfs)], [(17, firstRef), (12, blobE)], rfl, by simp [secondOfs, entry, Kind.isOfs],
      by simp [firstRef, blobE, entry, Kind.isOfs]⟩ _ _ _ goodChain_deltified blob rfl
  refine ⟨F, fun fuel hfu => ?_⟩
  obtain ⟨o, h1, h2⟩ := hF fuel hfu
  obtain ⟨i, h3, h4⟩ := C64_into_loose H toyZlib lightZlib lightZlib_laws fuel fuel env o _ blob _ h2 fs fs' hfs hcol
  refine ⟨o, i, h1, h3, fun a b => ?_⟩
  obtain ⟨x, p, c, k1, _, k3, k4, _⟩ := h4 a b
  exact ⟨x, p, c, k1, k3, k4⟩

end GitDB.Props
