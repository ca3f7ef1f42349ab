import Verif.Model.Memory
import Verif.Proofs.LooseIter
import Verif.Proofs.DecompUse
import Verif.Proofs.Stream
/-!
# Lemmas about the memory database
-/
set_option autoImplicit false

namespace GitDB
open Spec

variable {σ ω : Type} {zl : Zlib}

/-! ### dictionaries -/

section
variable {α : Type}

theorem nameGet_set_same (k : Bytes) (v : α) : ∀ d : List (Bytes × α), nameGet k (nameSet k v d) = some v
  | [] => by simp [nameSet, nameGet]
  | (k', v') :: r => by
    unfold nameSet
    split
    · simp [nameGet]
    · simp only [nameGet, *, if_false]; exact nameGet_set_same k v r

theorem nameGet_set_other {k k' : Bytes} (v : α) (h : k' ≠ k) : ∀ d : List (Bytes × α),
    nameGet k' (nameSet k v d) = nameGet k' d
  | [] => by simp [nameSet, nameGet, Ne.symm h]
  | (k'', v') :: r => by
    unfold nameSet
    split
    · rename_i e; subst e; simp [nameGet, Ne.symm h]
    · simp only [nameGet, nameGet_set_other v h r]

theorem mem_nameSet (k : Bytes) (v : α) : ∀ (d : List (Bytes × α)) (x : Bytes),
    x ∈ (nameSet k v d).map Prod.fst ↔ x = k ∨ x ∈ d.map Prod.fst
  | [], x => by simp [nameSet]
  | (k', v') :: r, x => by
    unfold nameSet
    split
    · rename_i e; subst e; simp
    · simp only [List.map_cons, List.mem_cons, mem_nameSet k v r x]
      constructor
      · rintro (h | h | h) <;> simp [h]
      · rintro (h | h | h) <;> simp [h]

theorem nodup_nameSet (k : Bytes) (v : α) : ∀ d : List (Bytes × α), (d.map Prod.fst).Nodup →
    ((nameSet k v d).map Prod.fst).Nodup
  | [], _ => by simp [nameSet]
  | (k', v') :: r, h => by
    unfold nameSet
    split
    · rename_i e; subst e; simpa using h
    · simp only [List.map_cons, List.nodup_cons] at h ⊢
      refine ⟨?_, nodup_nameSet k v r h.2⟩
      rw [mem_nameSet]
      rintro (e | e)
      · rename_i hne; exact hne e
      · exact h.1 e

theorem nameGet_isSome (k : Bytes) : ∀ d : List (Bytes × α), (nameGet k d).isSome = true ↔ k ∈ d.map Prod.fst
  | [] => by simp [nameGet]
  | (k', v') :: r => by
    unfold nameGet
    split
    · rename_i e; subst e; simp
    · rename_i hne
      rw [nameGet_isSome k r]
      simp [Ne.symm hne]

theorem nameSet_keys {k : Bytes} (v : α) : ∀ d : List (Bytes × α), k ∈ d.map Prod.fst →
    (nameSet k v d).map Prod.fst = d.map Prod.fst
  | [], h => by simp at h
  | (k', v') :: r, h => by
    unfold nameSet
    split
    · rename_i e; subst e; simp
    · rename_i hne
      simp only [List.map_cons, List.mem_cons] at h ⊢
      rcases h with h | h
      · exact absurd h.symm hne
      · rw [nameSet_keys v r h]
end

/-! ### the map under a reader never changes -/

theorem readZip_m (r : Reader) (n : Int) : (r.readZip zl n).1.m = r.m := by
  unfold Reader.readZip
  simp only
  split <;> rfl

theorem readCore_m : ∀ (fuel : Nat) (r : Reader) (n : Int), (r.readCore zl fuel n).1.m = r.m
  | 0, r, n => rfl
  | fuel + 1, r, n => by
    rw [readCore_succ]
    have hc : ∀ (r : Reader) (d : Bytes) (n : Int), (Reader.cont zl fuel r d n).1.m = r.m := by
      intro r d n
      unfold Reader.cont
      have h1 := readZip_m (zl := zl) r n
      rcases hz : r.readZip zl n with ⟨r1, e | new⟩
      · rw [hz] at h1; exact h1
      · rw [hz] at h1
        simp only at h1 ⊢
        split
        · have h2 := readCore_m fuel r1 (n - (d ++ new).length)
          rcases hz2 : r1.readCore zl fuel (n - (d ++ new).length) with ⟨r2, e | more⟩
          · rw [hz2] at h2; simp only at h2 ⊢; rw [h2, h1]
          · rw [hz2] at h2; simp only at h2 ⊢; rw [h2, h1]
        · exact h1
    split
    · rfl
    · split
      · split
        · rfl
        · rw [hc]
      · rw [hc]

theorem parse_m (r : Reader) : (r.parseHeaderInfo zl).1.m = r.m := by
  unfold Reader.parseHeaderInfo
  simp only
  have h := readCore_m (zl := zl) ({ r with s := maxHeader, hasS := true } : Reader).fuel
    { r with s := maxHeader, hasS := true } maxHeader
  split
  · rename_i h'; rw [h'] at h; exact h
  · rename_i h'; rw [h'] at h
    split <;> exact h

theorem read_m (r : Reader) (n : Int) : (r.read zl n).1.m = r.m := by
  unfold Reader.read Reader.needS
  by_cases hS : r.hasS = true
  · simp only [hS, if_true]; exact readCore_m _ _ _
  · simp only [hS]
    have h1 := parse_m (zl := zl) r
    rcases hp : r.parseHeaderInfo zl with ⟨r1, e | x⟩
    · rw [hp] at h1; exact h1
    · rw [hp] at h1
      simp only at h1 ⊢
      rw [if_neg (by simp)]
      simp only
      rw [readCore_m, h1]

theorem seek_m (r : Reader) : (r.seek 0 0).1.m = r.m := by
  unfold Reader.seek
  rw [if_neg (by simp)]
  simp only
  split <;> rfl

/-! ### rewinding -/

/-- Rewound, and nothing left in the header buffer. -/
structure Rewound (m : Bytes) (r : Reader) : Prop where
  m_eq : r.m = m
  zip : r.zip = {}
  buf : r.buf.getD [] = []
  buflen : r.buflen = 0
  hasS : r.hasS = false
  br : r.br = 0
  cws : r.cws = 0
  cwe : r.cwe = 0
  cbr : r.cbr = 0
  phi : r.phi = false

theorem seek_ok (r : Reader) : (r.seek 0 0).2 = .ok () := by
  unfold Reader.seek
  rw [if_neg (by simp)]

theorem rewound_ofMap (m : Bytes) : Rewound m (Reader.ofMap m) := ⟨rfl, rfl, rfl, rfl, rfl, rfl, rfl, rfl, rfl, rfl⟩

theorem rewound_seek {m : Bytes} {r : Reader} (h : Rewound m r) : Rewound m (r.seek 0 0).1 := by
  unfold Reader.seek
  rw [if_neg (by simp)]
  simp only [h.phi, Bool.false_eq_true, if_false]
  exact ⟨h.m_eq, rfl, h.buf, h.buflen, h.hasS, rfl, rfl, rfl, rfl, rfl⟩

theorem rewound_parse {m : Bytes} {r : Reader} (h : Rewound m r) :
    r.parseHeaderInfo zl = (Reader.ofSize m 0).parseHeaderInfo zl := by
  obtain ⟨rm, rz, rb, rbl, rs, rS, rbr, rcws, rcwe, rcbr, rphi⟩ := r
  obtain ⟨h1, h2, h3, h4, h5, h6, h7, h8, h9, h10⟩ := h
  simp only at h1 h2 h3 h4 h5 h6 h7 h8 h9 h10
  subst h1 h2 h4 h5 h6 h7 h8 h9 h10
  unfold Reader.parseHeaderInfo Reader.ofSize
  simp only
  have hcore : Reader.readCore zl ({ m := rm, buf := rb, s := maxHeader } : Reader).fuel
      { m := rm, buf := rb, s := maxHeader } maxHeader =
      Reader.readCore zl ({ m := rm, s := maxHeader } : Reader).fuel { m := rm, s := maxHeader } maxHeader := by
    rcases rb with _ | b
    · rfl
    · simp only [Option.getD_some] at h3
      subst h3
      unfold Reader.fuel
      simp only
      rw [readCore_succ, readCore_succ]
      unfold Reader.want
      simp [maxHeader]
  rw [hcore]

theorem new_eq {m : Bytes} {ty : Bytes} {n : Int} {r0 : Reader} (h : Reader.new zl m = .ok (ty, n, r0)) :
    (Reader.ofSize m 0).parseHeaderInfo zl = (r0, .ok (ty, n)) ∧ r0.hasS = true := by
  unfold Reader.new at h
  rcases hp : (Reader.ofSize m 0).parseHeaderInfo zl with ⟨r1, e | ⟨t, k⟩⟩
  · rw [hp] at h; simp at h
  · rw [hp] at h
    simp only [Except.ok.injEq, Prod.mk.injEq] at h
    obtain ⟨rfl, rfl, rfl⟩ := h
    refine ⟨rfl, ?_⟩
    unfold Reader.parseHeaderInfo at hp
    simp only at hp
    have hS : ∀ (fuel : Nat) (r : Reader) (n : Int), (r.readCore zl fuel n).1.hasS = r.hasS := by
      intro fuel
      induction fuel with
      | zero => intro r n; rfl
      | succ fuel ih =>
        intro r n
        rw [readCore_succ]
        have hz : ∀ (r : Reader) (n : Int), (r.readZip zl n).1.hasS = r.hasS := by
          intro r n
          unfold Reader.readZip
          simp only
          split <;> rfl
        have hc : ∀ (r : Reader) (d : Bytes) (n : Int), (Reader.cont zl fuel r d n).1.hasS = r.hasS := by
          intro r d n
          unfold Reader.cont
          have h1 := hz r n
          rcases hz : r.readZip zl n with ⟨r1, e | new⟩
          · rw [hz] at h1; exact h1
          · rw [hz] at h1
            simp only at h1 ⊢
            split
            · have h2 := ih r1 (n - (d ++ new).length)
              rcases hz2 : r1.readCore zl fuel (n - (d ++ new).length) with ⟨r2, e | more⟩
              · rw [hz2] at h2; simp only at h2 ⊢; rw [h2, h1]
              · rw [hz2] at h2; simp only at h2 ⊢; rw [h2, h1]
            · exact h1
        split
        · rfl
        · split
          · split
            · rfl
            · rw [hc]
          · rw [hc]
    have h1 := hS ({ Reader.ofSize m 0 with s := maxHeader, hasS := true } : Reader).fuel
      { Reader.ofSize m 0 with s := maxHeader, hasS := true } maxHeader
    split at hp
    · simp at hp
    · rename_i hh
      rw [hh] at h1
      split at hp
      · simp at hp
      · simp only [Prod.mk.injEq] at hp
        rw [← hp.1]
        exact h1

theorem rewound_read {m : Bytes} {r : Reader} (h : Rewound m r) {ty : Bytes} {k : Int} {r0 : Reader}
    (h0 : Reader.new zl m = .ok (ty, k, r0)) (n : Int) : r.read zl n = r0.read zl n := by
  obtain ⟨hp, hS⟩ := new_eq h0
  unfold Reader.read Reader.needS
  rw [h.hasS, hS]
  simp only [Bool.false_eq_true, if_false, if_true]
  rw [rewound_parse h, hp]

theorem rewound_readMany {m : Bytes} {r : Reader} (h : Rewound m r) {ty : Bytes} {k : Int} {r0 : Reader}
    (h0 : Reader.new zl m = .ok (ty, k, r0)) (ns : List Int) :
    (readMany (Reader.read zl) r ns).2 = (readMany (Reader.read zl) r0 ns).2 ∧
      (ns ≠ [] → readMany (Reader.read zl) r ns = readMany (Reader.read zl) r0 ns) := by
  cases ns with
  | nil => exact ⟨rfl, fun h => absurd rfl h⟩
  | cons n ns =>
    have : readMany (Reader.read zl) r (n :: ns) = readMany (Reader.read zl) r0 (n :: ns) := by
      simp only [readMany, rewound_read h h0]
    exact ⟨by rw [this], fun _ => this⟩

/-- After reads which have used up the header buffer, a reader can be rewound. -/
theorem rewound_after (L : ZlibLaws zl) {m : Bytes} {clen : Nat} {ty ds data : Bytes}
    (hd : IsDecimal ds data.length) (ht : ∀ c ∈ ty, c ≠ 0x20 ∧ c ≠ 0)
    (hm : IsZip zl m clen (ty ++ [0x20] ++ ds ++ [0] ++ data))
    (hl : (ty ++ [0x20] ++ ds ++ [0]).length ≤ min 8192 (zl.out (m.take 8192)).length) {ns : List Int}
    {r0 r : Reader} {ps : List Bytes} (h0 : Reader.new zl m = .ok (ty, (data.length : Int), r0))
    (h1 : readMany (Reader.read zl) r0 ns = (r, .ok ps)) :
    (r.buflen = 0 → Rewound m (r.seek 0 0).1) ∧ (ps.flatten = data → r.buflen = 0) := by
  obtain ⟨r0', e0, i0, i1, i2, i3, i4, i5, _⟩ := parseHeaderInfo_spec L ty ds data hd ht hm
    (Reader.ofSize m 0) (rinv_ofSize L hm maxHeader (by omega)) rfl rfl ⟨rfl, rfl⟩ hl
  have hr0 : r0 = r0' := by
    have := (new_eq h0).1
    rw [e0] at this
    simp at this
    exact this.symm
  subst hr0
  obtain ⟨r1, ps1, k1, k2, k3, k4, k5, k6, k7, _⟩ := readMany_reader L hm _ ns r0 i0 i3
  rw [h1] at k1
  simp only [Prod.mk.injEq, Except.ok.injEq] at k1
  obtain ⟨rfl, rfl⟩ := k1
  have hphi : r.phi = true := by rw [k7, i4]
  constructor
  · intro hb
    have hblen := k2.buf_len
    rw [hb] at hblen
    have hbe : r.buf.getD [] = [] := List.length_eq_zero_iff.mp (by omega)
    unfold Reader.seek
    rw [if_neg (by simp)]
    simp only [hphi, if_true]
    exact ⟨k2.m_eq, rfl, hbe, hb, rfl, rfl, rfl, rfl, rfl, rfl⟩
  · intro hall
    have hbr : r.br = data.length := by rw [k4, i1, hall]; simp
    have hp := k2.pos
    have hbl := k2.buf_len
    have hprod : r.zip.produced ≤ (ty ++ [0x20] ++ ds ++ [0] ++ data).length := by
      rcases hz : r.zip.eof with _ | _
      · obtain ⟨n, _, _, _, h4, _⟩ := k2.zinv.running hz
        exact Nat.le_trans h4 (zip_avail_le L hm n)
      · exact Nat.le_of_eq (k2.zinv.ended hz).1
    rw [List.length_append] at hprod
    omega

/-! ### storing -/

theorem zippedWrite_ok (w : ZippedStoreShaWriter zl) (d : Bytes) :
    zippedWrite w d = ((w.write d).1, .ok (some (d.length : Int))) := rfl

theorem zippedWrite_many (ds : List Bytes) (w : ZippedStoreShaWriter zl) :
    ∀ {w' : ZippedStoreShaWriter zl} {rs : List (Option Int)}, writeMany zippedWrite w ds = (w', .ok rs) →
    (writeMany ZippedStoreShaWriter.write w ds).1 = w' := by
  induction ds generalizing w with
  | nil => intro w' rs h; simp only [writeMany, Prod.mk.injEq] at h; exact h.1
  | cons d ds ih =>
    intro w' rs h
    simp only [writeMany, zippedWrite_ok] at h
    rcases hm : writeMany zippedWrite (w.write d).1 ds with ⟨w1, e | rs1⟩
    · rw [hm] at h; simp at h
    · rw [hm] at h
      simp only [Prod.mk.injEq] at h
      obtain ⟨rfl, _⟩ := h
      have := ih (w.write d).1 hm
      simp only [writeMany]
      have hw : w.write d = ((w.write d).1, .ok d.length) := rfl
      rw [hw]
      simp only
      rcases hm2 : writeMany ZippedStoreShaWriter.write (w.write d).1 ds with ⟨w2, e | rs2⟩
      · rw [hm2] at this; exact this
      · rw [hm2] at this; exact this

/-- Copying into a writer that always succeeds. -/
theorem writeObject_total {read : σ → Int → σ × Res Bytes} {write : ω → Bytes → ω × Res (Option Int)}
    {Rep : σ → Bytes → Prop} (hr : FileReads read Rep ∨ ObjectReads read Rep)
    (hw : ∀ w d, ∃ w' k, write w d = (w', .ok (some k))) {fuel : Nat} {ty : Bytes} {s : σ} {data : Bytes}
    (hs : Rep s data) (ha : ∀ b ∈ ty, b.toNat < 128) (hf : data.length < fuel) (chunk : Int) (hc : 1 ≤ chunk)
    (w : ω) : ∃ s' w' n, writeObject fuel ty data.length read write chunk s w = (s', w', .ok n) := by
  have hh : looseObjectHeader ty data.length = .ok (ty ++ [0x20] ++ natToDec data.length ++ [0]) := by
    rw [looseObjectHeader, if_pos (by simpa using ha)]
  obtain ⟨w1, k, e1⟩ := hw w (ty ++ [0x20] ++ natToDec data.length ++ [0])
  have hst : ∀ cap, Stores write (fun _ _ => True) cap := by
    intro cap w out d _ _
    obtain ⟨w', k, e⟩ := hw w d
    exact ⟨w', _, e, trivial⟩
  have hcopy : ∃ s' w' m, streamCopy fuel read write data.length chunk s w1 = (s', w', .ok m) := by
    by_cases h0 : data = []
    · subst h0
      rcases hr with hr | hr
      · obtain ⟨s', w', h1, _⟩ := streamCopy_zero_file hr (hst 0) chunk hc fuel s w1 []
          [] hs trivial (by omega) (Nat.le_refl _)
        exact ⟨s', w', _, h1⟩
      · obtain ⟨s', w', h1, _⟩ := streamCopy_zero_object hr (hst 0) chunk hc fuel s w1
          [] hs trivial (by omega) (Nat.le_refl _)
        exact ⟨s', w', _, h1⟩
    · have hb : BoundedReads read Rep := by
        rcases hr with hr | hr
        · exact hr.toBoundedReads
        · exact hr.toBoundedReads
      have hl : 1 ≤ data.length := List.length_pos_iff.mpr h0
      obtain ⟨s', w', h1, _⟩ := streamCopy_spec hb (hst (min data.length data.length))
        data.length chunk hc fuel s w1 data [] hs trivial hl (by omega) (by simp)
      exact ⟨s', w', _, h1⟩
  obtain ⟨s', w', m, e2⟩ := hcopy
  refine ⟨s', w', k + m, ?_⟩
  unfold writeObject
  simp only [hh, e1, e2]

/-- A store of an unnamed source always succeeds and adds one entry. -/
theorem memStore_spec (H : Hash) (L : ZlibLaws zl) {fuel : Nat} {read : σ → Int → σ × Res Bytes}
    {Rep : σ → Bytes → Prop} (hr : FileReads read Rep ∨ ObjectReads read Rep) {i : IStream σ} {data : Bytes}
    (hs : Rep i.strm data) (hsz : i.size = data.length) (hb : i.binsha = none)
    (ha : ∀ b ∈ i.type, b.toNat < 128) (hf : data.length < fuel) (db : MemDB) :
    ∃ x m, x = i.type ++ [0x20] ++ natToDec data.length ++ [0] ++ data ∧ IsZip zl m m.length x ∧
      (∃ ds, ds.flatten = x ∧ m = zl.emit (zl.cinit 1) ds) ∧
      (db.store H zl fuel read i).1 =
        { cache := nameSet (H.digest x) { type := i.type, size := data.length, reader := .ofMap m } db.cache } ∧
      (db.store H zl fuel read i).2.1.binsha = some (H.digest x) ∧
      (db.store H zl fuel read i).2.2 = .ok () := by
  have hw : ∀ (w : ZippedStoreShaWriter zl) d, ∃ w' k, zippedWrite w d = (w', .ok (some k)) :=
    fun w d => ⟨_, _, zippedWrite_ok w d⟩
  obtain ⟨s', w', n, e⟩ := writeObject_total hr hw hs ha hf looseChunk (by decide) (ZippedStoreShaWriter.new zl)
  obtain ⟨ds, rs, h1, h2, _⟩ := writeObject_ok (write := zippedWrite (zl := zl)) hr (by decide : 1 ≤ looseChunk)
    hs (n := n) (by rw [e])
  rw [e] at h1
  simp only at h1
  obtain ⟨w'', k1, k2, k3, k4⟩ := zipped_writeMany (zl := zl) ds (ZippedStoreShaWriter.new zl)
  have hww : w'' = w' := by
    have := zippedWrite_many ds _ h1
    rw [k1] at this; exact this
  subst hww
  have hsha : w''.sha1.sha H true = binToHex (H.digest ds.flatten) := by
    simp [Sha1Writer.sha, k2, ZippedStoreShaWriter.new]
  have hdata : w''.close.getvalue = zl.emit (zl.cinit 1) ds := by
    unfold ZippedStoreShaWriter.getvalue
    rw [k3]
    simp only [ZippedStoreShaWriter.new, BytesIO.write]
    by_cases he : zl.emit (zl.cinit 1) ds = []
    · simp [he]
    · simp [he]
  refine ⟨ds.flatten, zl.emit (zl.cinit 1) ds, h2, ⟨L.emit_stop 1 ds, L.emit_out 1 ds⟩, ⟨ds, rfl, rfl⟩, ?_⟩
  have hto : looseStoreTo fuel read zippedWrite (fun w => w.sha1.sha H true) i (ZippedStoreShaWriter.new zl) =
      (w'', { i with strm := s', binsha := some (H.digest ds.flatten) }, .ok ()) := by
    unfold looseStoreTo
    simp only [hb, hsz, e, hsha, hexToBin_binToHex]
  unfold MemDB.store
  simp only [hto]
  have hseek : w''.close.seek 0 0 = ({ w''.close with buf := { w''.close.buf with pos := 0 } }, .ok ()) := by
    unfold ZippedStoreShaWriter.seek
    rw [if_neg (by simp)]
  rw [hseek]
  simp only [hsz]
  refine ⟨?_, trivial, trivial⟩
  rw [← hdata]
  rfl

end GitDB
