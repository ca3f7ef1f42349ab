import Verif.Proofs.Memory
import Verif.Props.Loose
/-!
# C39-C41: the memory database
-/
set_option autoImplicit false

namespace GitDB.Props
open GitDB Spec

variable {σ : Type}

/-! ## C39 -/

/-- The history `ops` contains a store of the object with this name, type and data. -/
def StoredIn (H : Hash) (data : IStream σ → Bytes) (ops : List (MemOp σ)) (name ty d : Bytes) : Prop :=
  ∃ i x, MemOp.store i ∈ ops ∧ i.type = ty ∧ data i = d ∧ IsObject x ty d ∧ name = H.digest x

/-- Every store of the history is of an unnamed, well behaved stream of `data`. -/
def GoodHistory (fuel : Nat) (Rep : σ → Bytes → Prop) (data : IStream σ → Bytes) (ops : List (MemOp σ)) : Prop :=
  ∀ i, MemOp.store i ∈ ops → Rep i.strm (data i) ∧ i.size = (data i).length ∧ i.binsha = none ∧
    (∀ b ∈ i.type, b.toNat < 128) ∧ (data i).length < fuel

/-- What the database contains, seen from inside. -/
structure MemInv (H : Hash) (zl : Zlib) (db : MemDB) (S : Bytes → Bytes → Bytes → Prop) : Prop where
  nodup : db.shaIter.Nodup
  names : ∀ name, name ∈ db.shaIter ↔ ∃ ty d, S name ty d
  entries : ∀ name o, nameGet name db.cache = some o → ∃ d x, S name o.type d ∧ o.size = d.length ∧
    IsObject x o.type d ∧ name = H.digest x ∧ IsZip zl o.reader.m o.reader.m.length x

theorem MemInv.congr {H : Hash} {zl : Zlib} {db : MemDB} {S T : Bytes → Bytes → Bytes → Prop}
    (h : MemInv H zl db S) (hST : ∀ n t d, S n t d ↔ T n t d) : MemInv H zl db T := by
  have : S = T := by funext n t d; exact propext (hST n t d)
  rw [← this]; exact h

theorem memInv_reader {H : Hash} {zl : Zlib} {db : MemDB} {S : Bytes → Bytes → Bytes → Prop}
    (h : MemInv H zl db S) {sha : Bytes} {o : MemObj} {r : Reader} (hg : nameGet sha db.cache = some o)
    (hm : r.m = o.reader.m) :
    MemInv H zl { cache := nameSet sha { o with reader := r } db.cache } S := by
  have hk : sha ∈ db.cache.map Prod.fst := (nameGet_isSome sha db.cache).mp (by rw [hg]; rfl)
  have hkeys := nameSet_keys { o with reader := r } db.cache hk
  refine ⟨?_, ?_, ?_⟩
  · unfold MemDB.shaIter; rw [hkeys]; exact h.nodup
  · unfold MemDB.shaIter; rw [hkeys]; exact h.names
  · intro name o' ho'
    by_cases hn : name = sha
    · subst hn
      rw [nameGet_set_same] at ho'
      simp only [Option.some.injEq] at ho'
      subst ho'
      obtain ⟨d, x, h1, h2, h3, h4, h5⟩ := h.entries _ _ hg
      exact ⟨d, x, h1, h2, h3, h4, by simp only [hm]; exact h5⟩
    · rw [nameGet_set_other _ hn] at ho'
      exact h.entries _ _ ho'

theorem memInv_step {H : Hash} {zl : Zlib} (L : ZlibLaws zl) {fuel : Nat} {read : σ → Int → σ × Res Bytes}
    {Rep : σ → Bytes → Prop} (hr : FileReads read Rep ∨ ObjectReads read Rep) {data : IStream σ → Bytes}
    {db : MemDB} {S : Bytes → Bytes → Bytes → Prop} (h : MemInv H zl db S) (op : MemOp σ)
    (hg : GoodHistory fuel Rep data [op]) :
    MemInv H zl (db.step H zl fuel read op) (fun n t d => S n t d ∨ StoredIn H data [op] n t d) := by
  have hno : ∀ n t d, (∀ i, op ≠ .store i) → (S n t d ↔ (S n t d ∨ StoredIn H data [op] n t d)) := by
    intro n t d hop
    refine ⟨Or.inl, fun hh => hh.elim id ?_⟩
    rintro ⟨i, _, hi, _⟩
    simp only [List.mem_singleton] at hi
    exact absurd hi.symm (hop i)
  cases op with
  | stream sha =>
    refine MemInv.congr ?_ (fun n t d => hno n t d (by simp))
    simp only [MemDB.step, MemDB.stream]
    rcases ho : nameGet sha db.cache with _ | o
    · exact h
    · have hm := seek_m o.reader
      simp only
      split
      · exact h
      · rename_i hk; rw [hk] at hm; exact memInv_reader h ho hm
  | read sha n =>
    refine MemInv.congr ?_ (fun n t d => hno n t d (by simp))
    simp only [MemDB.step, MemDB.read]
    rcases ho : nameGet sha db.cache with _ | o
    · exact h
    · exact memInv_reader h ho (read_m _ _)
  | store i =>
    obtain ⟨g1, g2, g3, g4, g5⟩ := hg i (by simp)
    obtain ⟨x, m, hx, hz, _, e1, _, _⟩ := memStore_spec H L hr g1 g2 g3 g4 g5 db
    have hob : IsObject x i.type (data i) := ⟨_, natToDec_isDecimal _, hx⟩
    have hst : StoredIn H data [.store i] (H.digest x) i.type (data i) :=
      ⟨i, x, by simp, rfl, rfl, hob, rfl⟩
    simp only [MemDB.step, e1]
    refine ⟨nodup_nameSet _ _ _ h.nodup, ?_, ?_⟩
    · intro name
      refine (mem_nameSet _ _ _ _).trans ?_
      constructor
      · rintro (rfl | hn)
        · exact ⟨_, _, Or.inr hst⟩
        · obtain ⟨t, d, hn⟩ := (h.names name).mp hn
          exact ⟨t, d, Or.inl hn⟩
      · rintro ⟨t, d, hn | ⟨j, y, hj, rfl, rfl, hy, rfl⟩⟩
        · exact Or.inr ((h.names name).mpr ⟨t, d, hn⟩)
        · simp only [List.mem_singleton, MemOp.store.injEq] at hj
          subst hj
          exact Or.inl (by rw [isObject_unique hy hob])
    · intro name o ho
      by_cases hn : name = H.digest x
      · subst hn
        rw [nameGet_set_same] at ho
        simp only [Option.some.injEq] at ho
        subst ho
        exact ⟨data i, x, Or.inr hst, rfl, hob, rfl, hz⟩
      · rw [nameGet_set_other _ hn] at ho
        obtain ⟨d, y, h1, h2⟩ := h.entries _ _ ho
        exact ⟨d, y, Or.inl h1, h2⟩

theorem memInv_history {H : Hash} {zl : Zlib} (L : ZlibLaws zl) {fuel : Nat} {read : σ → Int → σ × Res Bytes}
    {Rep : σ → Bytes → Prop} (hr : FileReads read Rep ∨ ObjectReads read Rep) {data : IStream σ → Bytes} :
    ∀ (ops : List (MemOp σ)) (db : MemDB) (S : Bytes → Bytes → Bytes → Prop), MemInv H zl db S →
    GoodHistory fuel Rep data ops →
    MemInv H zl (ops.foldl (MemDB.step H zl fuel read) db) (fun n t d => S n t d ∨ StoredIn H data ops n t d)
  | [], db, S, h, _ => h.congr fun n t d => ⟨Or.inl, fun hh => hh.elim id (by rintro ⟨_, _, hi, _⟩; simp at hi)⟩
  | op :: ops, db, S, h, hg => by
    have h1 := memInv_step (read := read) L hr h op (fun i hi => hg i (by simp_all))
    have h2 := memInv_history L hr ops _ _ h1 (fun i hi => hg i (by simp [hi]))
    refine h2.congr fun n t d => ?_
    simp only [StoredIn, List.mem_cons, List.not_mem_nil, or_false]
    constructor
    · rintro ((hs | ⟨i, x, hi, hh⟩) | ⟨i, x, hi, hh⟩)
      · exact Or.inl hs
      · exact Or.inr ⟨i, x, Or.inl hi, hh⟩
      · exact Or.inr ⟨i, x, Or.inr hi, hh⟩
    · rintro (hs | ⟨i, x, hi | hi, hh⟩)
      · exact Or.inl (Or.inl hs)
      · exact Or.inl (Or.inr ⟨i, x, hi, hh⟩)
      · exact Or.inr ⟨i, x, hi, hh⟩

/-- **C39** after any history of stores, lookups and reads on a new memory database: the names are
exactly those of the stored objects, each once; `size()` counts them; `has_object` answers accordingly;
`stream` raises `BadObject` for other names, and for a name in the database it reports type and size of
an object stored under it, with a stream over its compressed form (what reads return is the subject of
C40). -/
theorem C39_history (H : Hash) (zl : Zlib) (L : ZlibLaws zl) (fuel : Nat) (read : σ → Int → σ × Res Bytes)
    (Rep : σ → Bytes → Prop) (hr : FileReads read Rep ∨ ObjectReads read Rep) (data : IStream σ → Bytes)
    (ops : List (MemOp σ)) (hg : GoodHistory fuel Rep data ops) (db : MemDB)
    (hdb : db = ops.foldl (MemDB.step H zl fuel read) {}) :
    db.shaIter.Nodup ∧ db.size = db.shaIter.length ∧
    (∀ name, name ∈ db.shaIter ↔ ∃ ty d, StoredIn H data ops name ty d) ∧
    (∀ name, db.hasObject name = true ↔ name ∈ db.shaIter) ∧
    (∀ name, name ∉ db.shaIter → (db.stream name).2 = .error .badObject) ∧
    ∀ name, name ∈ db.shaIter → ∃ o d x, (db.stream name).2 = .ok o ∧ StoredIn H data ops name o.type d ∧
      o.size = d.length ∧ IsObject x o.type d ∧ name = H.digest x ∧
      IsZip zl o.reader.m o.reader.m.length x := by
  subst hdb
  have hi := (memInv_history (H := H) (read := read) L hr ops {} (fun _ _ _ => False)
    ⟨List.nodup_nil, fun name => by simp [MemDB.shaIter], fun name o h => by simp [nameGet] at h⟩ hg).congr
    (T := StoredIn H data ops) (by simp)
  generalize ops.foldl (MemDB.step H zl fuel read) {} = db at hi ⊢
  have hhas : ∀ name, db.hasObject name = true ↔ name ∈ db.shaIter := fun name => nameGet_isSome name db.cache
  refine ⟨hi.nodup, by simp [MemDB.size, MemDB.shaIter], hi.names, hhas, ?_, ?_⟩
  · intro name hn
    rw [← hhas] at hn
    unfold MemDB.hasObject at hn
    unfold MemDB.stream
    rcases ho : nameGet name db.cache with _ | o
    · rfl
    · rw [ho] at hn; simp at hn
  · intro name hn
    rw [← hhas] at hn
    unfold MemDB.hasObject at hn
    rcases ho : nameGet name db.cache with _ | o
    · rw [ho] at hn; simp at hn
    · obtain ⟨d, x, h1, h2, h3, h4, h5⟩ := hi.entries _ _ ho
      have hsk := seek_ok o.reader
      have hm := seek_m o.reader
      rcases hs : o.reader.seek 0 0 with ⟨r, e | u⟩
      · rw [hs] at hsk; simp at hsk
      · rw [hs] at hm
        refine ⟨{ o with reader := r }, d, x, ?_, h1, h2, h3, h4, ?_⟩
        · unfold MemDB.stream; rw [ho]; simp only [hs]
        · simp only at hm ⊢; rw [hm]; exact h5

/-- **C39** a store returns the name of the object, and one that raises leaves the database as it was. -/
theorem C39_store (H : Hash) (zl : Zlib) (L : ZlibLaws zl) (fuel : Nat) (read : σ → Int → σ × Res Bytes)
    (i : IStream σ) (db : MemDB) :
    (∀ e, (db.store H zl fuel read i).2.2 = .error e → (db.store H zl fuel read i).1 = db) ∧
    ∀ (Rep : σ → Bytes → Prop) (data : Bytes), FileReads read Rep ∨ ObjectReads read Rep →
      Rep i.strm data → i.size = data.length → i.binsha = none → (∀ b ∈ i.type, b.toNat < 128) →
      data.length < fuel → ∃ x, IsObject x i.type data ∧ (db.store H zl fuel read i).2.2 = .ok () ∧
        (db.store H zl fuel read i).2.1.binsha = some (H.digest x) ∧
        (db.store H zl fuel read i).1.hasObject (H.digest x) = true ∧
        ∀ name, name ≠ H.digest x →
          (db.store H zl fuel read i).1.hasObject name = db.hasObject name := by
  constructor
  · intro e he
    unfold MemDB.store at he ⊢
    simp only at he ⊢
    split
    · rfl
    · split
      · rfl
      · split
        · rfl
        · simp_all
  · intro Rep data hr g1 g2 g3 g4 g5
    obtain ⟨x, m, hx, hz, _, e1, e2, e3⟩ := memStore_spec H L hr g1 g2 g3 g4 g5 db
    refine ⟨x, ⟨_, natToDec_isDecimal _, hx⟩, e3, e2, ?_, ?_⟩
    · rw [e1, MemDB.hasObject, nameGet_set_same]; rfl
    · intro name hn
      rw [e1, MemDB.hasObject, nameGet_set_other _ hn]; rfl

/-! ## C40 -/

/-- A client: `stream(sha)`, then `read` with these arguments. -/
def memSession (zl : Zlib) (db : MemDB) (sha : Bytes) (ns : List Int) : MemDB × Res (List Bytes) :=
  match db.stream sha with
  | (db, .error e) => (db, .error e)
  | (db, .ok _) => readMany (fun db n => db.read zl sha n) db ns

/-- Something done between the store of an object and a later lookup: a session with the same object, or
any operation. -/
inductive MemUse (σ : Type) where
  | session (ns : List Int)
  | other (op : MemOp σ)

/-- Carry it out. -/
def memUse (H : Hash) (zl : Zlib) (fuel : Nat) (read : σ → Int → σ × Res Bytes) (sha : Bytes) (db : MemDB) :
    MemUse σ → MemDB
  | .session ns => (memSession zl db sha ns).1
  | .other op => db.step H zl fuel read op

theorem memReadMany (zl : Zlib) (sha : Bytes) : ∀ (ns : List Int) (db : MemDB) (o : MemObj),
    nameGet sha db.cache = some o →
    (readMany (fun db n => MemDB.read zl db sha n) db ns).2 = (readMany (Reader.read zl) o.reader ns).2 ∧
    nameGet sha (readMany (fun db n => MemDB.read zl db sha n) db ns).1.cache =
      some { o with reader := (readMany (Reader.read zl) o.reader ns).1 } ∧
    ∀ k, k ≠ sha → nameGet k (readMany (fun db n => MemDB.read zl db sha n) db ns).1.cache =
      nameGet k db.cache
  | [], db, o, h => ⟨rfl, h, fun _ _ => rfl⟩
  | n :: ns, db, o, h => by
    have e1 : MemDB.read zl db sha n = ({ cache := nameSet sha { o with reader := (o.reader.read zl n).1 } db.cache },
        (o.reader.read zl n).2) := by
      unfold MemDB.read; rw [h]
    simp only [readMany, e1]
    rcases hr : o.reader.read zl n with ⟨r1, e | d⟩
    · simp only
      exact ⟨trivial, nameGet_set_same _ _ _, fun k hk => nameGet_set_other _ hk _⟩
    · simp only
      obtain ⟨i1, i2, i3⟩ := memReadMany zl sha ns
        { cache := nameSet sha { o with reader := r1 } db.cache } _ (nameGet_set_same _ _ _)
      simp only at i1 i2
      rcases h1 : readMany (fun db n => MemDB.read zl db sha n)
        { cache := nameSet sha { o with reader := r1 } db.cache } ns with ⟨db1, e1 | ds1⟩
      · rw [h1] at i1 i2 i3
        rcases h2 : readMany (Reader.read zl) r1 ns with ⟨r2, e2 | ds2⟩
        · rw [h2] at i1 i2
          simp only [Except.error.injEq] at i1
          exact ⟨by simp [i1], i2, fun k hk => (i3 k hk).trans (nameGet_set_other _ hk _)⟩
        · rw [h2] at i1; simp at i1
      · rw [h1] at i1 i2 i3
        rcases h2 : readMany (Reader.read zl) r1 ns with ⟨r2, e2 | ds2⟩
        · rw [h2] at i1; simp at i1
        · rw [h2] at i1 i2
          simp only [Except.ok.injEq] at i1
          exact ⟨by simp [i1], i2, fun k hk => (i3 k hk).trans (nameGet_set_other _ hk _)⟩

theorem memSession_eq (zl : Zlib) (sha : Bytes) (ns : List Int) (db : MemDB) (o : MemObj)
    (h : nameGet sha db.cache = some o) :
    (memSession zl db sha ns).2 = (readMany (Reader.read zl) (o.reader.seek 0 0).1 ns).2 ∧
    nameGet sha (memSession zl db sha ns).1.cache =
      some { o with reader := (readMany (Reader.read zl) (o.reader.seek 0 0).1 ns).1 } ∧
    ∀ k, k ≠ sha → nameGet k (memSession zl db sha ns).1.cache = nameGet k db.cache := by
  have hsk := seek_ok o.reader
  rcases hs : o.reader.seek 0 0 with ⟨r, e | u⟩
  · rw [hs] at hsk; simp at hsk
  · have e1 : db.stream sha = ({ cache := nameSet sha { o with reader := r } db.cache }, .ok { o with reader := r }) := by
      unfold MemDB.stream; rw [h]; simp only [hs]
    unfold memSession
    rw [e1]
    simp only
    obtain ⟨i1, i2, i3⟩ := memReadMany zl sha ns
      { cache := nameSet sha { o with reader := r } db.cache } _ (nameGet_set_same _ _ _)
    exact ⟨i1, i2, fun k hk => (i3 k hk).trans (nameGet_set_other _ hk _)⟩

/-- The object can be read from the start after the next `seek(0)`. -/
def MemReady (zl : Zlib) (db : MemDB) (sha ty x : Bytes) (len : Nat) : Prop :=
  ∃ o m, nameGet sha db.cache = some o ∧ o.type = ty ∧ o.size = len ∧ IsZip zl m m.length x ∧
    m.length ≤ 8192 ∧ Rewound m (o.reader.seek 0 0).1

/-- A session with a ready object delivers the data; it leaves the object ready if it has read nothing
or everything. -/
theorem memReady_session {zl : Zlib} (L : ZlibLaws zl) {db : MemDB} {sha ty data x : Bytes}
    (h : MemReady zl db sha ty x data.length) (hx : IsObject x ty data) (ht : ∀ b ∈ ty, b ≠ 0x20 ∧ b ≠ 0)
    (hlen : x.length ≤ 8192) (ns : List Int) :
    (∃ ps, (memSession zl db sha ns).2 = .ok ps ∧ ps.flatten = data.take (readLen data.length ns)) ∧
    (ns = [] ∨ readLen data.length ns = data.length → MemReady zl (memSession zl db sha ns).1 sha ty x data.length) := by
  obtain ⟨o, m, h1, h2, h3, hz, hm, hrw⟩ := h
  obtain ⟨ds, hds, rfl⟩ := hx
  obtain ⟨e1, e2, e3⟩ := memSession_eq zl sha ns db o h1
  obtain ⟨r0, r1, ps, k1, k2, k3⟩ := C14_small_objects zl L m m.length ty ds data hds ht hz hlen hm ns
  obtain ⟨j1, j2⟩ := rewound_readMany hrw k1 ns
  refine ⟨⟨ps, by rw [e1, j1, k2], k3⟩, fun hns => ?_⟩
  refine ⟨_, m, e2, h2, h3, hz, hm, ?_⟩
  simp only
  by_cases hn : ns = []
  · subst hn
    exact rewound_seek hrw
  · rw [j2 hn, k2]
    have hall : readLen data.length ns = data.length := by
      rcases hns with hns | hns
      · exact absurd hns hn
      · exact hns
    have hl : (ty ++ [0x20] ++ ds ++ [0]).length ≤ min 8192 (zl.out (m.take 8192)).length := by
      rw [List.take_of_length_le hm]
      have hout := hz.out
      rw [hout]
      simp only [List.length_append] at hlen ⊢
      omega
    obtain ⟨w1, w2⟩ := rewound_after L hds ht hz hl k1 k2
    exact w1 (w2 (by rw [k3, hall, List.take_length]))

theorem memReady_other {zl : Zlib} (H : Hash) (L : ZlibLaws zl) {fuel : Nat} {read : σ → Int → σ × Res Bytes}
    {Rep : σ → Bytes → Prop} (hr : FileReads read Rep ∨ ObjectReads read Rep) {data : IStream σ → Bytes}
    {db : MemDB} {ty x : Bytes} {len : Nat} (h : MemReady zl db (H.digest x) ty x len)
    (op : MemOp σ) (hg : GoodHistory fuel Rep data [op])
    (hop : match op with
      | .store i => ∀ y, IsObject y i.type (data i) → H.digest y = H.digest x → y = x ∧ i.type = ty ∧ (data i).length = len
      | .stream _ => True
      | .read sha _ => sha ≠ H.digest x)
    (hcl : ∀ ds : List Bytes, ds.flatten = x → (zl.emit (zl.cinit 1) ds).length ≤ 8192) :
    MemReady zl (db.step H zl fuel read op) (H.digest x) ty x len := by
  obtain ⟨o, m, h1, h2, h3, hz, hm, hrw⟩ := h
  cases op with
  | stream sha =>
    simp only [MemDB.step, MemDB.stream]
    rcases ho : nameGet sha db.cache with _ | o'
    · exact ⟨o, m, h1, h2, h3, hz, hm, hrw⟩
    · simp only
      have hsk := seek_ok o'.reader
      rcases hs : o'.reader.seek 0 0 with ⟨r, e | u⟩
      · rw [hs] at hsk; simp at hsk
      · simp only
        by_cases hn : H.digest x = sha
        · subst hn
          rw [h1] at ho
          simp only [Option.some.injEq] at ho
          subst ho
          rw [hs] at hrw
          exact ⟨_, m, nameGet_set_same _ _ _, h2, h3, hz, hm, rewound_seek hrw⟩
        · exact ⟨o, m, (nameGet_set_other _ hn _).trans h1, h2, h3, hz, hm, hrw⟩
  | read sha n =>
    simp only [MemDB.step, MemDB.read]
    rcases ho : nameGet sha db.cache with _ | o'
    · exact ⟨o, m, h1, h2, h3, hz, hm, hrw⟩
    · exact ⟨o, m, (nameGet_set_other _ (Ne.symm hop) _).trans h1, h2, h3, hz, hm, hrw⟩
  | store i =>
    obtain ⟨g1, g2, g3, g4, g5⟩ := hg i (by simp)
    obtain ⟨y, m', hy, hz', ⟨ds, hd1, hd2⟩, e1, _, _⟩ := memStore_spec H L hr g1 g2 g3 g4 g5 db
    simp only [MemDB.step, e1]
    by_cases hn : H.digest x = H.digest y
    · obtain ⟨rfl, rfl, rfl⟩ := hop y ⟨_, natToDec_isDecimal _, hy⟩ hn.symm
      exact ⟨_, m', nameGet_set_same _ _ _, rfl, rfl, hz', hd2 ▸ hcl ds hd1, rewound_seek (rewound_ofMap m')⟩
    · exact ⟨o, m, (nameGet_set_other _ hn _).trans h1, h2, h3, hz, hm, hrw⟩

/-- **C40** (partial: earlier sessions must have read nothing or everything; see `C40_not_full`.  Larger
objects have the deviations of C14.)  An object of at most 8192 bytes is stored; then come, in any
order, sessions with it which read nothing or everything, and any operations with other objects (and
further stores of anything without a SHA-1 collision).  A session after that gets the data like from a
new stream, whatever its read sizes. -/
theorem C40_partial (H : Hash) (zl : Zlib) (L : ZlibLaws zl) (fuel : Nat) (read : σ → Int → σ × Res Bytes)
    (Rep : σ → Bytes → Prop) (hr : FileReads read Rep ∨ ObjectReads read Rep) (data : IStream σ → Bytes)
    (i : IStream σ) (uses : List (MemUse σ)) (db : MemDB) (x : Bytes)
    (hg : GoodHistory fuel Rep data (.store i :: uses.filterMap fun | .other op => some op | _ => none))
    (hx : IsObject x i.type (data i)) (ht : ∀ b ∈ i.type, b ≠ 0x20 ∧ b ≠ 0) (hlen : x.length ≤ 8192)
    (hcl : ∀ ds : List Bytes, ds.flatten = x → (zl.emit (zl.cinit 1) ds).length ≤ 8192)
    (hcol : ∀ y, H.digest y = H.digest x → y = x)
    (hsess : ∀ ns, MemUse.session ns ∈ uses → ns = [] ∨ readLen (data i).length ns = (data i).length)
    (hother : ∀ n, MemUse.other (.read (H.digest x) n) ∉ uses)
    (hsame : ∀ j, MemUse.other (.store j) ∈ uses → IsObject x j.type (data j) → j.type = i.type ∧ data j = data i)
    (ns : List Int) :
    ∃ ps, (memSession zl (uses.foldl (memUse H zl fuel read (H.digest x)) (db.store H zl fuel read i).1)
        (H.digest x) ns).2 = .ok ps ∧ ps.flatten = (data i).take (readLen (data i).length ns) := by
  have hready : MemReady zl (db.store H zl fuel read i).1 (H.digest x) i.type x (data i).length := by
    obtain ⟨g1, g2, g3, g4, g5⟩ := hg i (by simp)
    obtain ⟨y, m', hy, hz', ⟨ds, hd1, hd2⟩, e1, _, _⟩ := memStore_spec H L hr g1 g2 g3 g4 g5 db
    have hyx : y = x := isObject_unique ⟨_, natToDec_isDecimal _, hy⟩ hx
    subst hyx
    rw [e1]
    exact ⟨_, m', nameGet_set_same _ _ _, rfl, rfl, hz', hd2 ▸ hcl ds hd1, rewound_seek (rewound_ofMap m')⟩
  have hall : ∀ (uses : List (MemUse σ)) (db : MemDB), MemReady zl db (H.digest x) i.type x (data i).length →
      GoodHistory fuel Rep data (uses.filterMap fun | .other op => some op | _ => none) →
      (∀ ns, MemUse.session ns ∈ uses → ns = [] ∨ readLen (data i).length ns = (data i).length) →
      (∀ n, MemUse.other (.read (H.digest x) n) ∉ uses) →
      (∀ j, MemUse.other (.store j) ∈ uses → IsObject x j.type (data j) → j.type = i.type ∧ data j = data i) →
      MemReady zl (uses.foldl (memUse H zl fuel read (H.digest x)) db) (H.digest x) i.type x (data i).length := by
    intro uses
    induction uses with
    | nil => intro db h _ _ _ _; exact h
    | cons u uses ih =>
      intro db h hg hs ho hj
      refine ih _ ?_ (fun k hk => hg k ?_) (fun n hn => hs n (by simp [hn])) (fun n hn => ho n (by simp [hn]))
        (fun j hj' => hj j (by simp [hj']))
      · cases u with
        | session n => exact (memReady_session L h hx ht hlen n).2 (hs n (by simp))
        | other op =>
          refine memReady_other (data := data) H L hr h op (fun k hk => hg k ?_) ?_ hcl
          · simp only [List.mem_singleton] at hk
            subst hk
            exact List.mem_filterMap.mpr ⟨_, List.mem_cons_self, rfl⟩
          · cases op with
            | stream sha => trivial
            | read sha n => intro hsha; subst hsha; exact ho n (by simp)
            | store j =>
              intro y hy hyx
              have := hcol y hyx
              subst this
              obtain ⟨p, q⟩ := hj j (by simp) hy
              exact ⟨rfl, p, by rw [q]⟩
      · rw [List.mem_filterMap] at hk ⊢
        obtain ⟨a, ha, hb⟩ := hk
        exact ⟨a, List.mem_cons_of_mem _ ha, hb⟩
  exact (memReady_session L (hall uses _ hready (fun k hk => hg k (by simp [hk])) hsess hother hsame) hx ht hlen ns).1

/-- The full statement for small objects. -/
def C40_full : Prop :=
  ∀ (H : Hash) (zl : Zlib) (fuel : Nat) (ty data x : Bytes) (earlier : List (List Int)),
    ZlibLaws zl → IsObject x ty data → (∀ b ∈ ty, b ≠ 0x20 ∧ b ≠ 0) → (∀ b ∈ ty, b.toNat < 128) →
    x.length ≤ 8192 → (∀ ds : List Bytes, ds.flatten = x → (zl.emit (zl.cinit 1) ds).length ≤ 8192) →
    data.length < fuel →
    let db : MemDB := (MemDB.store H zl fuel bytesIORead {} { type := ty, size := data.length, strm := data }).1
    (memSession zl (earlier.foldl (fun db ns => (memSession zl db (H.digest x) ns).1) db) (H.digest x) [-1]).2 =
      .ok [data]

/-- The object used against C40: data `a 1\\0Z`. -/
def trapData : Bytes := [0x61, 0x20, 0x31, 0, 0x5a]

/-- **C40** is false of the code: the header buffer of an abandoned stream is not discarded by `seek(0)`, so
the next header is parsed from the rest of the data.  After a client has read one byte of an object with the data
`a 1\\0Z`, `stream(sha).read()` returns `Z`. -/
theorem C40_not_full : ¬ C40_full := by
  intro h
  have := h exHash lightZlib 10 blob trapData (object blob [0x35] trapData) [[1]] lightZlib_laws
    ⟨[0x35], natToDec_isDecimal 5, rfl⟩ (by decide) (by decide) (by decide) ?_ (by decide)
  · revert this; decide +kernel
  · intro ds hds
    show (lightZlib.emit () ds).length ≤ 8192
    rw [lightZlib_emit_plain ds () (by rw [hds]; unfold Plain; decide), hds]
    decide

/-! ## C41 -/

/-- Where the loose object with this name is. -/
def loosePath (name : Bytes) : Path := objectPath (binToHex name)

/-- The cache of the target mentions only files that exist. -/
def CacheValid (t : LooseTarget) : Prop := ∀ h ∈ t.db.known, (t.fs (objectPath h)).isSome

theorem looseTarget_has (t : LooseTarget) (hv : CacheValid t) (sha : Bytes) :
    ((t.has sha).2 = true ↔ t.fs (loosePath sha) ≠ none) ∧ (t.has sha).1.fs = t.fs ∧
      (t.has sha).1.envs = t.envs ∧ CacheValid (t.has sha).1 := by
  unfold LooseTarget.has LooseDB.hasObject LooseDB.readablePath
  by_cases h1 : binToHex sha ∈ t.db.known
  · have := hv _ h1
    simp only [if_pos h1, true_iff]
    refine ⟨?_, trivial, trivial, hv⟩
    intro h; unfold loosePath at h; rw [h] at this; simp at this
  · by_cases h2 : (t.fs (objectPath (binToHex sha))).isSome
    · simp only [if_neg h1, if_pos h2, true_iff]
      refine ⟨?_, trivial, trivial, ?_⟩
      · intro h; unfold loosePath at h; rw [h] at h2; simp at h2
      · intro h hh
        simp only [List.mem_cons] at hh
        rcases hh with rfl | hh
        · exact h2
        · exact hv _ hh
    · simp only [if_neg h1, if_neg h2]
      refine ⟨?_, trivial, trivial, hv⟩
      simp only [Bool.false_eq_true, false_iff]
      intro h; apply h; simpa [loosePath] using h2

/-- The operating system makes no short writes. -/
def NoShortWrites (t : LooseTarget) : Prop := ∀ env ∈ t.envs, ∀ k, WriteOutcome.short k ∉ env.plan

theorem looseTarget_store {H : Hash} {zl : Zlib} {fuel : Nat} {t t' : LooseTarget} {ty m sha : Bytes} {size : Nat}
    (hp : NoShortWrites t) (hm : m.length < 2 ^ 63) (hn : t.fs (loosePath sha) = none) (hv : CacheValid t)
    (h : t.store H zl fuel { type := ty, size := size, binsha := some sha, strm := m } = (t', .ok ())) :
    t'.fs (loosePath sha) = some (.file m 0o444) ∧
      (∀ d f, ([d, f] : Path) ≠ loosePath sha → t'.fs [d, f] = t.fs [d, f]) ∧ NoShortWrites t' ∧ CacheValid t' := by
  unfold LooseTarget.store at h
  rcases he : t.envs with _ | ⟨env, envs⟩
  · rw [he] at h; simp at h
  · simp only [he] at h
    split at h
    · simp at h
    · rename_i fs' hrun
      simp only [Prod.mk.injEq] at h
      obtain ⟨rfl, hok⟩ := h
      rcases store_effect hrun with ⟨⟨e, he⟩, _⟩ | ⟨hex, c, mode, h1, h2, h3, h4, h5, h6⟩
      · rw [hok] at he; simp at he
      rcases h6 with ⟨_, hmode, b, h7, h8⟩ | ⟨e, he, _⟩
      rotate_left
      · rw [hok] at he; simp at he
      have hhex : hex = binToHex sha := by
        unfold storedName at h1
        split at h1
        · simp_all
        · simp at h1
        · simp_all
      subst hhex
      have hc : c = m := by
        rcases h5 with ⟨_, m', h5⟩ | ⟨_, rfl⟩
        · unfold loosePath at hn; rw [hn] at h5; simp at h5
        · have := writeRaw_ok (fuel := fuel) (plan := env.plan) bytesIO_reads.toBoundedReads
            (i := { type := ty, size := size, binsha := some sha, strm := m }) (rem := m) rfl
            (hp env (by rw [he]; simp)) hm h2
          exact this
      subst hc
      have hset : ∀ d f, fs' [d, f] = if ([d, f] : Path) = loosePath sha then some (.file c 0o444) else t.fs [d, f] := by
        intro d f
        rw [h3, storedFs]
        split
        · rename_i hh
          rw [hh, hmode]; exact Fs.set_same _ _ _
        · rename_i hh
          unfold loosePath at hh; rw [Fs.set_other _ _ hh, Fs.set_other _ _ (by simp [objectPath])]
      refine ⟨?_, fun d f hh => (hset d f).trans (if_neg hh), fun env' he' => hp env' (by rw [he]; simp [he']), ?_⟩
      · show fs' (objectPath (binToHex sha)) = _
        rw [objectPath, hset]; simp [loosePath, objectPath]
      · intro g hg
        have := hv g hg
        show (fs' (objectPath g)).isSome
        rw [objectPath, hset]
        split
        · rfl
        · exact this

/-- Streaming an object of the memory database changes nothing that matters here. -/
theorem memStream_m {db db' : MemDB} {sha : Bytes} {o : MemObj} (h : db.stream sha = (db', .ok o)) :
    (∃ o0, nameGet sha db.cache = some o0 ∧ o.reader.m = o0.reader.m ∧ o.type = o0.type ∧ o.size = o0.size) ∧
    ∀ k, (nameGet k db'.cache).map (fun o => (o.type, o.size, o.reader.m)) =
      (nameGet k db.cache).map (fun o => (o.type, o.size, o.reader.m)) := by
  unfold MemDB.stream at h
  rcases ho : nameGet sha db.cache with _ | o0
  · rw [ho] at h; simp at h
  · have hm := seek_m o0.reader
    rw [ho] at h
    simp only at h
    rcases hs : o0.reader.seek 0 0 with ⟨r, e | u⟩
    · rw [hs] at h; simp at h
    · rw [hs] at h hm
      simp only [Prod.mk.injEq, Except.ok.injEq] at h
      obtain ⟨rfl, rfl⟩ := h
      refine ⟨⟨o0, rfl, hm, rfl, rfl⟩, fun k => ?_⟩
      by_cases hk : k = sha
      · subst hk
        rw [nameGet_set_same, ho]
        simp only [Option.map_some] at hm ⊢
        rw [hm]
      · rw [nameGet_set_other _ hk]

/-- **C41** copying into a loose database.  If `stream_copy` returns `n` then there are `n` listed
objects, without repetition, that the target did not have; each of these is now a file with the
compressed data of the memory database (which by C39 is the object with that name, so C34 says
what lookups deliver); all other objects of the target are untouched.  No assumption about the order or
repetitions of the list, or failures of system calls, except that there are no short writes. -/
theorem C41_to_loose (H : Hash) (zl : Zlib) (fuel : Nat) (shas : List Bytes) (mem mem' : MemDB)
    (t t' : LooseTarget) (n : Nat) (hp : NoShortWrites t) (hv : CacheValid t)
    (hm : ∀ sha o, nameGet sha mem.cache = some o → o.reader.m.length < 2 ^ 63)
    (h : MemDB.streamCopy LooseTarget.has (LooseTarget.store H zl fuel) shas 0 mem t = (mem', t', .ok n)) :
    ∃ copied : List Bytes, copied.Nodup ∧ n = copied.length ∧
      (∀ sha, sha ∈ copied ↔ sha ∈ shas ∧ t.fs (loosePath sha) = none) ∧
      (∀ sha ∈ copied, ∃ o, nameGet sha mem.cache = some o ∧
        t'.fs (loosePath sha) = some (.file o.reader.m 0o444)) ∧
      ∀ d f, (∀ sha ∈ copied, loosePath sha ≠ [d, f]) → t'.fs [d, f] = t.fs [d, f] := by
  have gen : ∀ (shas : List Bytes) (count : Nat) (mem : MemDB) (t : LooseTarget), NoShortWrites t → CacheValid t →
      (∀ sha o, nameGet sha mem.cache = some o → o.reader.m.length < 2 ^ 63) →
      MemDB.streamCopy LooseTarget.has (LooseTarget.store H zl fuel) shas count mem t = (mem', t', .ok n) →
      ∃ copied : List Bytes, copied.Nodup ∧ n = count + copied.length ∧
        (∀ sha, sha ∈ copied ↔ sha ∈ shas ∧ t.fs (loosePath sha) = none) ∧
        (∀ sha ∈ copied, ∃ o, nameGet sha mem.cache = some o ∧
          t'.fs (loosePath sha) = some (.file o.reader.m 0o444)) ∧
        ∀ d f, (∀ sha ∈ copied, loosePath sha ≠ [d, f]) → t'.fs [d, f] = t.fs [d, f] := by
    intro shas
    induction shas with
    | nil =>
      intro count mem t _ _ _ h
      simp only [MemDB.streamCopy, Prod.mk.injEq, Except.ok.injEq] at h
      obtain ⟨rfl, rfl, rfl⟩ := h
      exact ⟨[], List.nodup_nil, rfl, by simp, by simp, fun _ _ _ => rfl⟩
    | cons sha shas ih =>
      intro count mem t hp hv hm h
      obtain ⟨b1, b2, b3, b4⟩ := looseTarget_has t hv sha
      unfold MemDB.streamCopy at h
      rcases hh : t.has sha with ⟨t1, b⟩
      rw [hh] at h b1 b2 b3 b4
      simp only at b1 b2 b3
      have hp1 : NoShortWrites t1 := fun env he => hp env (b3 ▸ he)
      cases b with
      | true =>
        obtain ⟨copied, c1, c2, c3, c4, c5⟩ := ih count mem t1 hp1 b4 hm h
        rw [b2] at c3 c5
        have hne := b1.mp rfl
        refine ⟨copied, c1, c2, ?_, c4, c5⟩
        intro s
        rw [c3 s]
        simp only [List.mem_cons]
        constructor
        · rintro ⟨p, q⟩; exact ⟨Or.inr p, q⟩
        · rintro ⟨rfl | p, q⟩
          · exact absurd q hne
          · exact ⟨p, q⟩
      | false =>
        have hnone : t.fs (loosePath sha) = none := by
          rcases ho : t.fs (loosePath sha) with _ | nd
          · rfl
          · exact absurd (b1.mpr (by rw [ho]; simp)) (by simp)
        simp only at h
        rcases hst : mem.stream sha with ⟨mem1, e | o⟩
        · rw [hst] at h; simp at h
        · rw [hst] at h
          simp only at h
          obtain ⟨⟨o0, ho0, hom, _, _⟩, hkeep⟩ := memStream_m hst
          rcases hs : LooseTarget.store H zl fuel t1
            { type := o.type, size := o.size, binsha := some sha, strm := o.reader.m } with ⟨t2, e | u⟩
          · rw [hs] at h; simp at h
          · rw [hs] at h
            simp only at h
            obtain ⟨d1, d2, d3, d4⟩ := looseTarget_store hp1 (by rw [hom]; exact hm _ _ ho0)
              (by rw [b2]; exact hnone) b4 hs
            have hm1 : ∀ k o, nameGet k mem1.cache = some o → o.reader.m.length < 2 ^ 63 := by
              intro k o' ho'
              have := hkeep k
              rw [ho'] at this
              rcases hk : nameGet k mem.cache with _ | o''
              · rw [hk] at this; simp at this
              · rw [hk] at this
                simp only [Option.map_some, Option.some.injEq, Prod.mk.injEq] at this
                rw [this.2.2]; exact hm _ _ hk
            obtain ⟨copied, c1, c2, c3, c4, c5⟩ := ih (count + 1) mem1 t2 d3 d4 hm1 h
            have hnotin : sha ∉ copied := by
              intro hc
              have := ((c3 sha).mp hc).2
              rw [d1] at this; simp at this
            refine ⟨sha :: copied, List.nodup_cons.mpr ⟨hnotin, c1⟩, by rw [c2]; simp; omega, ?_, ?_, ?_⟩
            · intro s
              simp only [List.mem_cons]
              constructor
              · rintro (rfl | hc)
                · exact ⟨Or.inl rfl, hnone⟩
                · obtain ⟨q1, q2⟩ := (c3 s).mp hc
                  refine ⟨Or.inr q1, ?_⟩
                  have hne : loosePath s ≠ loosePath sha := by
                    intro hq; rw [hq, d1] at q2; simp at q2
                  rw [← b2]; exact (d2 _ _ hne).symm.trans q2
              · rintro ⟨q1, q2⟩
                by_cases hss : s = sha
                · exact Or.inl hss
                · right
                  rw [c3 s]
                  refine ⟨q1.resolve_left hss, ?_⟩
                  have hne : loosePath s ≠ loosePath sha := by
                    intro hq
                    have hi1 : IsPathOf (loosePath s) s := isPathOf_objectPath s
                    unfold loosePath objectPath at hq
                    simp only [List.cons.injEq, and_true] at hq
                    apply hss
                    have : binToHex s = binToHex sha := by
                      rw [← List.take_append_drop 2 (binToHex s), hq.1, hq.2, List.take_append_drop]
                    exact isHexOf_injective (this ▸ binToHex_isHexOf s) (binToHex_isHexOf sha)
                  show t2.fs (loosePath s) = none
                  have := d2 ((binToHex s).take 2) ((binToHex s).drop 2) hne
                  unfold loosePath objectPath
                  rw [this, b2]; exact q2
            · intro s hs'
              simp only [List.mem_cons] at hs'
              rcases hs' with rfl | hs'
              · refine ⟨o0, ho0, ?_⟩
                have := c5 ((binToHex s).take 2) ((binToHex s).drop 2) (by
                  intro k hk hq
                  have := ((c3 k).mp hk).2
                  rw [hq] at this
                  have d1' : t2.fs [(binToHex s).take 2, (binToHex s).drop 2] = _ := d1
                  rw [d1'] at this; simp at this)
                show t'.fs [(binToHex s).take 2, (binToHex s).drop 2] = _
                rw [this, ← hom]; exact d1
              · obtain ⟨o', ho', hf⟩ := c4 s hs'
                have := hkeep s
                rw [ho'] at this
                rcases hk : nameGet s mem.cache with _ | o''
                · rw [hk] at this; simp at this
                · rw [hk] at this
                  simp only [Option.map_some, Option.some.injEq, Prod.mk.injEq] at this
                  exact ⟨o'', rfl, by rw [hf, this.2.2]⟩
            · intro d f hdf
              rw [c5 d f (fun k hk => hdf k (by simp [hk])), ← b2]
              exact d2 d f (fun hq => hdf sha (by simp) hq.symm)
  obtain ⟨copied, c1, c2, c3⟩ := gen shas 0 mem t hp hv hm h
  exact ⟨copied, c1, by omega, c3⟩

/-- The full statement, for copies of one small object into an empty `MemoryDB`: the copy can be read
in the target. -/
def C41_full : Prop :=
  ∀ (H : Hash) (zl : Zlib) (fuel : Nat) (ty data x : Bytes) (src tgt : MemDB) (src' tgt' : MemDB) (n : Nat),
    ZlibLaws zl → IsObject x ty data → (∀ b ∈ ty, b ≠ 0x20 ∧ b ≠ 0) → (∀ b ∈ ty, b.toNat < 128) →
    x.length ≤ 8192 → (∀ ds : List Bytes, ds.flatten = x → (zl.emit (zl.cinit 1) ds).length ≤ 8192) →
    data.length < fuel →
    src = (MemDB.store H zl fuel bytesIORead {} { type := ty, size := data.length, strm := data }).1 →
    tgt = {} →
    MemDB.streamCopy (fun t s => (t, MemDB.hasObject t s))
      (fun t i => let r := MemDB.store H zl fuel bytesIORead t i; (r.1, r.2.2)) [H.digest x] 0 src tgt =
      (src', tgt', .ok n) →
    n = 1 ∧ (memSession zl tgt' (H.digest x) [-1]).2 = .ok [data]

/-- The copy of the example. -/
def doubled : MemDB × MemDB × Res Nat :=
  MemDB.streamCopy (fun t s => (t, MemDB.hasObject t s))
    (fun t i => let r := MemDB.store exHash toyZlib 100 bytesIORead t i; (r.1, r.2.2))
    [exHash.digest (object blob [0x32] [1, 2])] 0
    (MemDB.store exHash toyZlib 100 bytesIORead {} { type := blob, size := 2, strm := [1, 2] }).1 {}

/-- **C41** is false of the code for a target which compresses what it is given, like `MemoryDB` itself: the
compressed bytes are stored compressed again, `stream_copy` reports success, and the copy cannot be read. -/
theorem C41_not_full : ¬ C41_full := by
  intro h
  have hn : doubled.2.2 = .ok 1 := by decide +kernel
  have hbad : (memSession toyZlib doubled.2.1 (exHash.digest (object blob [0x32] [1, 2])) [-1]).2 ≠
      .ok [[1, 2]] := by decide +kernel
  refine hbad (h exHash toyZlib 100 blob [1, 2] (object blob [0x32] [1, 2]) _ {} doubled.1 doubled.2.1 1
    toyZlib_laws ⟨[0x32], natToDec_isDecimal 2, rfl⟩ (by decide) (by decide) (by decide) ?_ (by decide) rfl rfl
    (by rw [← hn]; rfl)).2
  intro ds hd
  show (toyZlib.emit () ds).length ≤ 8192
  rw [toy_emit, hd]
  decide

/-- C39 and C40, concretely: two objects, one stored twice, one half read. -/
example :
    let ops : List (MemOp Bytes) := [.store { type := blob, size := 2, strm := [1, 2] },
      .store { type := blob, size := 5, strm := trapData }, .stream (exHash.digest (object blob [0x35] trapData)),
      .read (exHash.digest (object blob [0x35] trapData)) 3, .store { type := blob, size := 2, strm := [1, 2] }]
    GoodHistory 100 (fun s d => s = d) IStream.strm ops ∧
    ((ops.foldl (MemDB.step exHash lightZlib 100 bytesIORead) {}).size = 2) ∧
    (memSession lightZlib (ops.foldl (MemDB.step exHash lightZlib 100 bytesIORead) {})
      (exHash.digest (object blob [0x32] [1, 2])) [1, 5, -1]).2 = .ok [[1], [2], []] := by
  refine ⟨?_, by decide +kernel, by decide +kernel⟩
  intro i hi
  simp only [List.mem_cons, MemOp.store.injEq, reduceCtorEq, List.not_mem_nil, or_false, false_or] at hi
  rcases hi with rfl | rfl | rfl <;> refine ⟨rfl, by decide, rfl, by decide, by decide⟩

/-- C40, concretely: the next client after a complete read gets everything; after a partial read with
blanks in the rest the next one gets an exception. -/
example :
    let db : MemDB := (MemDB.store exHash lightZlib 100 bytesIORead {}
      { type := blob, size := 4, strm := [1, 2, 0x20, 0x20] }).1
    let sha := exHash.digest (object blob [0x34] [1, 2, 0x20, 0x20])
    (memSession lightZlib (memSession lightZlib db sha [2, 2]).1 sha [-1]).2 = .ok [[1, 2, 0x20, 0x20]] ∧
    (memSession lightZlib (memSession lightZlib db sha [2]).1 sha [-1]).2 = .error .valueError := by
  decide +kernel

/-- C41, concretely: one object, listed twice, into an empty loose database. -/
example :
    let db : MemDB := (MemDB.store exHash lightZlib 100 bytesIORead {} { type := blob, size := 2, strm := [1, 2] }).1
    let sha := exHash.digest (object blob [0x32] [1, 2])
    let t : LooseTarget := { fs := emptyFs, envs := [{ tmp := some [1], isfile := false }] }
    let r := MemDB.streamCopy LooseTarget.has (LooseTarget.store exHash lightZlib 100) [sha, sha] 0 db t
    NoShortWrites t ∧ CacheValid t ∧ r.2.2 = .ok 1 ∧
    r.2.1.fs (loosePath sha) = some (.file (object blob [0x32] [1, 2] ++ [255]) 0o444) := by
  refine ⟨?_, ?_, by decide +kernel, by decide +kernel⟩
  · intro env he; simp only [List.mem_singleton] at he; subst he; simp
  · intro h hh; simp at hh

end GitDB.Props
