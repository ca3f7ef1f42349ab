import Verif.Model.Pack
import Verif.Spec.Pack
import Verif.Proofs.Crc
import Verif.Proofs.Lists
import Verif.Proofs.Varint
import Verif.Proofs.IndexWrite
/-!
# What `write_pack` writes
-/
set_option autoImplicit false

namespace GitDB
open Spec

variable {σ ω ρ ω₂ ρ₂ : Type}

theorem chunkSize_pos : 1 ≤ chunkSize := by unfold chunkSize PAGESIZE; omega

theorem packCopyLoop_spec {read : σ → Int → σ × Res Bytes} {write : ω → Bytes → ω × Res ρ}
    {Rep : σ → Bytes → Prop} {WRep : ω → Bytes → Prop} (zl : Zlib) (hr : BoundedReads read Rep)
    (hw : ∀ cap, Stores write WRep cap) :
    ∀ (fuel : Nat) (s : σ) (w : ω) (z : zl.Comp) (br bw : Nat) (crc : Option Nat) (rem out : Bytes),
      Rep s rem → WRep w out → rem.length < fuel →
      ∃ s' w' pieces z' o, packCopyLoop zl read write fuel s w z br bw crc =
          (s', w', .ok (br + rem.length, bw + o.length, crc.map (crc32 o), z')) ∧
        pieces.flatten = rem ∧ zl.emit z pieces = o ++ zl.cflush z' ∧ WRep w' (out ++ o) := by
  intro fuel
  have hcp := chunkSize_pos
  generalize hC : chunkSize = C at hcp
  induction fuel with
  | zero => intros; omega
  | succ fuel ih =>
    intro s w z br bw crc rem out hs hwr hf
    obtain ⟨s1, e1, r1⟩ := hr.read_pos s rem C hs (by omega)
    simp only [Int.toNat_natCast] at e1 r1
    rcases hz : zl.ccompress z (rem.take C) with ⟨z1, d⟩
    obtain ⟨w1, r, e2, h2⟩ := hw _ w out d hwr (Nat.le_refl _)
    rw [packCopyLoop]
    simp only [hC, e1, hz, e2]
    by_cases hl : (rem.take C).length = C
    · rw [if_neg (by simpa using hl)]
      have hlen : C ≤ rem.length := by rw [List.length_take] at hl; omega
      obtain ⟨s', w', pieces, z', o, e3, h3, h4, h5⟩ := ih s1 w1 z1 (br + (rem.take C).length) (bw + d.length)
        (crc.map (crc32 d)) (rem.drop C) (out ++ d) r1 h2 (by rw [List.length_drop]; omega)
      refine ⟨s', w', rem.take C :: pieces, z', d ++ o, ?_, ?_, ?_, ?_⟩
      · rw [e3]
        have hb : br + (rem.take C).length + (rem.drop C).length = br + rem.length := by
          rw [hl, List.length_drop]; omega
        have hb2 : bw + d.length + o.length = bw + (d ++ o).length := by rw [List.length_append]; omega
        have hb3 : (crc.map (crc32 d)).map (crc32 o) = crc.map (crc32 (d ++ o)) := by
          cases crc with
          | none => rfl
          | some c => simp [crc32_append]
        rw [hb, hb2, hb3]
      · rw [List.flatten_cons, h3, List.take_append_drop]
      · rw [Zlib.emit, hz, h4, List.append_assoc]
      · rw [← List.append_assoc]; exact h5
    · rw [if_pos (by simpa using hl)]
      have hlen : rem.length < C := by rw [List.length_take] at hl; omega
      have ht : rem.take C = rem := List.take_of_length_le (by omega)
      refine ⟨s1, w1, [rem], z1, d, by rw [ht], by simp, ?_, h2⟩
      rw [ht] at hz
      simp [Zlib.emit, hz]

theorem writeStreamToPack_spec {read : σ → Int → σ × Res Bytes} {write : ω → Bytes → ω × Res ρ}
    {Rep : σ → Bytes → Prop} {WRep : ω → Bytes → Prop} (zl : Zlib) (hr : BoundedReads read Rep)
    (hw : ∀ cap, Stores write WRep cap) (fuel : Nat) (s : σ) (w : ω) (z : zl.Comp) (crc : Option Nat)
    (rem out : Bytes) (hs : Rep s rem) (hwr : WRep w out) (hf : rem.length < fuel) :
    ∃ s' w' pieces, writeStreamToPack zl fuel read write z crc s w =
        (s', w', .ok (rem.length, (zl.emit z pieces).length,
          (crc.map (crc32 (zl.emit z pieces))).getD 0)) ∧
      pieces.flatten = rem ∧ WRep w' (out ++ zl.emit z pieces) := by
  obtain ⟨s', w', pieces, z', o, e, h1, h2, h3⟩ := packCopyLoop_spec zl hr hw fuel s w z 0 0 crc rem out
    hs hwr hf
  obtain ⟨w'', r, e2, h4⟩ := hw _ w' _ (zl.cflush z') h3 (Nat.le_refl _)
  refine ⟨s', w'', pieces, ?_, h1, ?_⟩
  · unfold writeStreamToPack
    simp only [e, e2, h2]
    rw [List.length_append]
    have : (Option.map (crc32 (zl.cflush z')) (Option.map (crc32 o) crc)) =
        Option.map (crc32 (o ++ zl.cflush z')) crc := by
      cases crc with
      | none => rfl
      | some c => simp [crc32_append]
    rw [this]
    simp
  · rw [h2, ← List.append_assoc]; exact h4

/-- A hashing writer that has written and hashed the same. -/
def FRep (WRep : ω → Bytes → Prop) (f : FlexibleSha1Writer ω) (out : Bytes) : Prop :=
  WRep f.inner out ∧ f.sha1.hashed = out

theorem flexible_stores {write : ω → Bytes → ω × Res ρ} {WRep : ω → Bytes → Prop}
    (hw : ∀ cap, Stores write WRep cap) :
    ∀ cap, Stores (FlexibleSha1Writer.write write) (FRep WRep) cap := by
  rintro cap f out d ⟨h1, h2⟩ _
  obtain ⟨i', r, e, h'⟩ := hw _ f.inner out d h1 (Nat.le_refl _)
  refine ⟨{ sha1 := (f.sha1.write d).1, inner := i' }, none, ?_, h', ?_⟩
  · simp [FlexibleSha1Writer.write, e]
  · simp [Sha1Writer.write, h2]

/-- The index entries of a sequence of pack entries starting at an offset. -/
def idxOf : Nat → List Packed → List IdxObj
  | _, [] => []
  | ofs, e :: es => ⟨e.name, crc32 e.bytes 0, ofs⟩ :: idxOf (ofs + e.bytes.length) es

/-- An object to be written: its stream delivers the content, the packCount size is right, the type id
is not one of the deltas. -/
def GoodIn (Rep : σ → Bytes → Prop) (p : PackIn σ × Bytes) : Prop :=
  Rep p.1.strm p.2 ∧ p.1.size = p.2.length ∧ p.1.typeId < 6

/-- The header is no longer than necessary. -/
theorem createHeaderLoop_length : ∀ (k : Nat) (hdr : Bytes) (c objSize : Nat) (h : Bytes),
    createHeaderLoop hdr c objSize = .ok h → objSize < 2 ^ (7 * k) → h.length ≤ hdr.length + k + 1 := by
  have app : ∀ (hdr : Bytes) (c : Nat) (h : Bytes), bytearrayAppend hdr c = .ok h → h.length = hdr.length + 1 := by
    intro hdr c h e
    unfold bytearrayAppend at e
    split at e
    · simp only [Except.ok.injEq] at e; subst e; simp
    · simp at e
  intro k
  induction k with
  | zero =>
    intro hdr c n h e hn
    unfold createHeaderLoop at e
    rw [dif_pos (by simpa using hn)] at e
    have := app _ _ _ e
    omega
  | succ k ih =>
    intro hdr c n h e hn
    unfold createHeaderLoop at e
    split at e
    · have := app _ _ _ e; omega
    · rcases ha : bytearrayAppend hdr (c ||| 0x80) with e' | h'
      · simp [ha] at e
      · simp only [ha] at e
        have h1 := app _ _ _ ha
        have h2 := ih _ _ _ _ e (by
          rw [Nat.shiftRight_eq_div_pow]
          apply Nat.div_lt_of_lt_mul
          rw [← Nat.pow_add]
          have : 7 + 7 * k = 7 * (k + 1) := by omega
          rwa [this])
        omega

theorem createPackObjectHeader_length (k t n : Nat) (h : Bytes) (e : createPackObjectHeader t n = .ok h)
    (hn : n < 2 ^ (4 + 7 * k)) : h.length ≤ k + 1 := by
  have := createHeaderLoop_length k [] _ _ h e (by
    rw [Nat.shiftRight_eq_div_pow]
    apply Nat.div_lt_of_lt_mul
    rwa [← Nat.pow_add])
  simpa using this

/-- The entry written for an object; its header is as short as possible. -/
def EntryOf (zl : Zlib) (level : Int) (p : PackIn σ × Bytes) (e : Packed) : Prop :=
  e.name = p.1.sha ∧ e.kind = .whole p.1.typeId ∧ e.content = p.2 ∧ e.Valid zl ∧
    (∀ k, e.content.length < 2 ^ (4 + 7 * k) → e.hdr.length ≤ k + 1) ∧
    ∃ pieces, pieces.flatten = p.2 ∧ e.zip = zl.emit (zl.cinit level) pieces

theorem packObjects_spec {read : σ → Int → σ × Res Bytes} {write : ω → Bytes → ω × Res ρ}
    {Rep : σ → Bytes → Prop} {WRep : ω → Bytes → Prop} (zl : Zlib) (L : ZlibLaws zl)
    (hr : BoundedReads read Rep) (hw : ∀ cap, Stores write WRep cap) (fuel : Nat) (level : Int)
    (wantsIndex : Bool) (count : Nat) : ∀ (l : List (PackIn σ × Bytes)) (f : FlexibleSha1Writer ω)
    (actual ofs : Nat) (idx : List IdxObj) (out : Bytes),
    (∀ p ∈ l, GoodIn Rep p ∧ p.2.length < fuel) → FRep WRep f out → (actual < count ∨ l = []) →
    ∃ f' es, packObjects zl fuel read write level wantsIndex count (l.map Prod.fst) f actual ofs idx =
        (f', .ok (actual + min (count - actual) l.length,
          idx ++ if wantsIndex then idxOf ofs es else [])) ∧
      All2 (EntryOf zl level) (l.take (count - actual)) es ∧ FRep WRep f' (out ++ es.flatMap Packed.bytes) := by
  intro l
  induction l with
  | nil =>
    intro f actual ofs idx out _ hf _
    refine ⟨f, [], ?_, ?_, by simpa using hf⟩
    · simp [packObjects, idxOf]
    · rw [List.take_nil]; exact .nil
  | cons p l ih =>
    intro f actual ofs idx out hp hf hac
    obtain ⟨⟨hrep, hsize, htype⟩, hfuel⟩ := hp p (by simp)
    have hac : actual < count := by rcases hac with h | h; exact h; simp at h
    obtain ⟨b, bs, c1, c2, c3, c4⟩ := createPackObjectHeader_spec p.1.typeId p.1.size (by omega)
    obtain ⟨f1, r1, w1, h1⟩ := flexible_stores hw _ f out (b :: bs) hf (Nat.le_refl _)
    obtain ⟨s2, f2, pieces, e2, h2, h3⟩ := writeStreamToPack_spec zl hr (flexible_stores hw) fuel p.1.strm f1
      (zl.cinit level) (if wantsIndex then some (crc32 (b :: bs) 0) else none) p.2 _ hrep h1 hfuel
    generalize hz : zl.emit (zl.cinit level) pieces = z at e2 h3
    have hstop := L.emit_stop level pieces
    have hout := L.emit_out level pieces
    rw [hz] at hstop hout
    rw [h2] at hout
    rw [List.map_cons, packObjects]
    simp only [c1, w1, e2]
    rw [if_neg (by simp [hsize])]
    let e : Packed := ⟨p.1.sha, .whole p.1.typeId, p.2, b :: bs, [], z⟩
    have he : EntryOf zl level p e := ⟨rfl, rfl, rfl,
      ⟨⟨b, bs, rfl, c2, c3, by rw [c4, hsize]⟩, ⟨by omega, by omega, rfl⟩, hstop, hout⟩,
      fun k hk => createPackObjectHeader_length k _ _ _ c1 (by rw [hsize]; exact hk), pieces, h2, hz.symm⟩
    have hcrc : ∀ i : List IdxObj, (if wantsIndex = true then i ++ [⟨p.1.sha,
          (Option.map (crc32 z) (if wantsIndex = true then some (crc32 (b :: bs) 0) else none)).getD 0, ofs⟩]
        else i) = i ++ if wantsIndex = true then [⟨e.name, crc32 e.bytes 0, ofs⟩] else [] := by
      intro i
      cases wantsIndex with
      | false => simp
      | true => simp [Packed.bytes, e, ← crc32_append]
    rw [hcrc]
    have hofs : ofs + (b :: bs).length + z.length = ofs + e.bytes.length := by
      simp only [Packed.bytes, e, List.length_append, List.length_nil]; omega
    by_cases hlast : actual + 1 = count
    · rw [if_pos hlast]
      have hk : count - actual = 1 := by omega
      refine ⟨f2, [e], ?_, ?_, ?_⟩
      · rw [hk]
        have : min 1 (p :: l).length = 1 := by rw [List.length_cons]; omega
        rw [this]
        rfl
      · rw [hk]; exact .cons he .nil
      · simpa [Packed.bytes, e] using h3
    · rw [if_neg hlast, hofs]
      obtain ⟨f', es, e4, h4, h5⟩ := ih f2 (actual + 1) (ofs + e.bytes.length)
        (idx ++ if wantsIndex = true then [⟨e.name, crc32 e.bytes 0, ofs⟩] else [])
        (out ++ (b :: bs) ++ z) (fun q hq => hp q (by simp [hq])) h3 (Or.inl (by omega))
      have hk : count - actual = (count - (actual + 1)) + 1 := by omega
      refine ⟨f', e :: es, ?_, ?_, ?_⟩
      · rw [e4]
        have : actual + 1 + min (count - (actual + 1)) l.length = actual + min (count - actual) (p :: l).length := by
          rw [List.length_cons]; omega
        rw [this]
        cases wantsIndex <;> simp [idxOf]
      · rw [hk, List.take_succ_cons]; exact .cons he h4
      · have : out ++ (b :: bs) ++ z ++ es.flatMap Packed.bytes =
            out ++ (e :: es).flatMap Packed.bytes := by
          simp [Packed.bytes, e]
        rwa [this] at h5

/-- An object whose stated size is not what its stream delivers ends the writing. -/
theorem packObjects_mismatch {read : σ → Int → σ × Res Bytes} {write : ω → Bytes → ω × Res ρ}
    {Rep : σ → Bytes → Prop} {WRep : ω → Bytes → Prop} (zl : Zlib)
    (hr : BoundedReads read Rep) (hw : ∀ cap, Stores write WRep cap) (fuel : Nat) (level : Int)
    (wantsIndex : Bool) (count : Nat) (q : PackIn σ) (d : Bytes) (rest : List (PackIn σ)) (hq : Rep q.strm d)
    (hqs : q.size ≠ d.length) (hqt : q.typeId < 6) (hqf : d.length < fuel) :
    ∀ (l : List (PackIn σ × Bytes)) (f : FlexibleSha1Writer ω) (actual ofs : Nat) (idx : List IdxObj) (out : Bytes),
    (∀ p ∈ l, GoodIn Rep p ∧ p.2.length < fuel) → FRep WRep f out → actual + l.length < count →
    ∃ f', packObjects zl fuel read write level wantsIndex count (l.map Prod.fst ++ q :: rest) f actual ofs idx =
        (f', .error .assertionError) := by
  intro l
  induction l with
  | nil =>
    intro f actual ofs idx out _ hf _
    obtain ⟨b, bs, c1, -, -, -⟩ := createPackObjectHeader_spec q.typeId q.size (by omega)
    obtain ⟨f1, r1, w1, h1⟩ := flexible_stores hw _ f out (b :: bs) hf (Nat.le_refl _)
    obtain ⟨s2, f2, pieces, e2, h2, h3⟩ := writeStreamToPack_spec zl hr (flexible_stores hw) fuel q.strm f1
      (zl.cinit level) (if wantsIndex then some (crc32 (b :: bs) 0) else none) d _ hq h1 hqf
    refine ⟨f2, ?_⟩
    rw [List.map_nil, List.nil_append, packObjects]
    simp only [c1, w1, e2]
    rw [if_pos (fun h => hqs h.symm)]
  | cons p l ih =>
    intro f actual ofs idx out hp hf hac
    obtain ⟨⟨hrep, hsize, htype⟩, hfuel⟩ := hp p (by simp)
    rw [List.length_cons] at hac
    obtain ⟨b, bs, c1, -, -, -⟩ := createPackObjectHeader_spec p.1.typeId p.1.size (by omega)
    obtain ⟨f1, r1, w1, h1⟩ := flexible_stores hw _ f out (b :: bs) hf (Nat.le_refl _)
    obtain ⟨s2, f2, pieces, e2, h2, h3⟩ := writeStreamToPack_spec zl hr (flexible_stores hw) fuel p.1.strm f1
      (zl.cinit level) (if wantsIndex then some (crc32 (b :: bs) 0) else none) p.2 _ hrep h1 hfuel
    rw [List.map_cons, List.cons_append, packObjects]
    simp only [c1, w1, e2]
    rw [if_neg (by simp [hsize]), if_neg (by omega)]
    exact ih f2 _ _ _ _ (fun q hq => hp q (by simp [hq])) h3 (by omega)

theorem all2_len {α β : Type} {R : α → β → Prop} {l : List α} {m : List β} (h : All2 R l m) :
    l.length = m.length := by
  induction h with
  | nil => rfl
  | cons _ _ ih => simp [ih]

theorem packLLL_ok (count : Nat) (h : count < 2 ^ 32) :
    packLLL packSignature 2 count = .ok ([80, 65, 67, 75] ++ u32 2 ++ u32 count) := by
  have h1 : packL packSignature = .ok [80, 65, 67, 75] := by
    unfold packL
    rw [if_pos (by decide)]
    rfl
  have h2 : packL 2 = .ok (u32 2) := by
    unfold packL
    rw [if_pos (by decide), beBytes4_eq]
  have h3 : packL count = .ok (u32 count) := by
    unfold packL
    rw [if_pos h, beBytes4_eq]
  unfold packLLL
  rw [h1, h2, h3]

theorem packLLL_err (count : Nat) (h : ¬ count < 2 ^ 32) :
    packLLL packSignature 2 count = .error .structError := by
  have h1 : packL packSignature = .ok [80, 65, 67, 75] := by
    unfold packL
    rw [if_pos (by decide)]
    rfl
  have h2 : packL 2 = .ok (u32 2) := by
    unfold packL
    rw [if_pos (by decide), beBytes4_eq]
  have h3 : packL count = .error .structError := by
    unfold packL
    rw [if_neg h]
  unfold packLLL
  rw [h1, h2, h3]

section
variable {read : σ → Int → σ × Res Bytes} {write : ω → Bytes → ω × Res ρ}
  {Rep : σ → Bytes → Prop} {WRep : ω → Bytes → Prop} (zl : Zlib) (L : ZlibLaws zl)
  (hr : BoundedReads read Rep) (hw : ∀ cap, Stores write WRep cap) (H : Hash) (fuel : Nat) (level : Int)
  (l : List (PackIn σ × Bytes)) (hl : ∀ p ∈ l, GoodIn Rep p ∧ p.2.length < fuel)
  (objectCount : Option Nat) (w : ω) (ho : WRep w [])
include L hr hw hl ho

/-- Header and objects. -/
theorem writePack_start (wantsIndex : Bool) (count : Nat) (h32 : count < 2 ^ 32) (hc : 0 < count ∨ l = []) :
    ∃ f0 r f es, packLLL packSignature 2 count = .ok ([80, 65, 67, 75] ++ u32 2 ++ u32 count) ∧
      FlexibleSha1Writer.write write { inner := w } ([80, 65, 67, 75] ++ u32 2 ++ u32 count) = (f0, .ok r) ∧
      packObjects zl fuel read write level wantsIndex count (l.map Prod.fst) f0 0 12 [] =
        (f, .ok (min count l.length, if wantsIndex then idxOf 12 es else [])) ∧
      All2 (EntryOf zl level) (l.take count) es ∧
      FRep WRep f ([80, 65, 67, 75] ++ u32 2 ++ u32 count ++ es.flatMap Packed.bytes) := by
  obtain ⟨f0, r, e1, h1⟩ := flexible_stores hw _ ({ inner := w } : FlexibleSha1Writer ω) []
    ([80, 65, 67, 75] ++ u32 2 ++ u32 count) ⟨ho, rfl⟩ (Nat.le_refl _)
  rw [List.nil_append] at h1
  obtain ⟨f, es, e2, h2, h3⟩ := packObjects_spec zl L hr hw fuel level wantsIndex count l f0 0 12 []
    _ hl h1 hc
  rw [Nat.sub_zero] at e2 h2
  refine ⟨f0, r, f, es, packLLL_ok count h32, e1, ?_, h2, h3⟩
  rw [e2]
  simp

/-- Everything up to the index. -/
theorem writePack_core (wantsIndex : Bool)
    (h32 : packCount objectCount l.length < 2 ^ 32) (hc : packCount objectCount l.length ≤ l.length) :
    ∃ f0 r f es w' r', packLLL packSignature 2 (packCount objectCount l.length) =
        .ok ([80, 65, 67, 75] ++ u32 2 ++ u32 (packCount objectCount l.length)) ∧
      FlexibleSha1Writer.write write { inner := w }
        ([80, 65, 67, 75] ++ u32 2 ++ u32 (packCount objectCount l.length)) = (f0, .ok r) ∧
      packObjects zl fuel read write level wantsIndex (packCount objectCount l.length) (l.map Prod.fst) f0
        0 12 [] = (f, .ok (packCount objectCount l.length, if wantsIndex then idxOf 12 es else [])) ∧
      All2 (EntryOf zl level) (l.take (packCount objectCount l.length)) es ∧
      f.sha1.sha H false = H.digest (packBody es) ∧
      write f.inner (H.digest (packBody es)) = (w', .ok r') ∧
      WRep w' (packFile es (H.digest (packBody es))) := by
  obtain ⟨f0, r, f, es, e1, e2, e3, h4, h5⟩ := writePack_start zl L hr hw fuel level l hl w ho
    wantsIndex _ h32 (by
      rcases Nat.eq_zero_or_pos (packCount objectCount l.length) with h | h
      · right
        unfold packCount at h
        split at h
        · exact List.length_eq_zero_iff.1 h
        · exact List.length_eq_zero_iff.1 h
        · rename_i hk; exact absurd (by rw [h]) hk
      · exact Or.inl h)
  have hes := all2_len h4
  rw [List.length_take, Nat.min_eq_left hc] at hes
  rw [hes] at h5
  have hb : FRep WRep f (packBody es) := h5
  obtain ⟨w', r', e6, h6⟩ := hw _ f.inner _ (H.digest (packBody es)) hb.1 (Nat.le_refl _)
  refine ⟨f0, r, f, es, w', r', e1, e2, ?_, h4, ?_, e6, h6⟩
  · rw [e3, Nat.min_eq_left hc]
  · simp [Sha1Writer.sha, hb.2]

/-- Pack without index. -/
theorem writePack_noindex (iw : ω₂)
    (h32 : packCount objectCount l.length < 2 ^ 32) (hc : packCount objectCount l.length ≤ l.length) :
    ∃ w' es, All2 (EntryOf zl level) (l.take (packCount objectCount l.length)) es ∧
      WRep w' (packFile es (H.digest (packBody es))) ∧
      writePack H zl fuel read write (none : Option (ω₂ → Bytes → ω₂ × Res ρ₂)) (l.map Prod.fst) objectCount
        level w iw = (w', iw, .ok (H.digest (packBody es), none)) := by
  obtain ⟨f0, r, f, es, w', r', e1, e2, e3, h4, e5, e6, h7⟩ :=
    writePack_core zl L hr hw H fuel level l hl objectCount w ho false h32 hc
  refine ⟨w', es, h4, h7, ?_⟩
  unfold writePack
  simp only [List.length_map, e1, e2, Option.isSome_none, e3, ne_eq, not_true_eq_false, if_false, e5, e6]

/-- Pack and index. -/
theorem writePack_spec {iwrite : ω₂ → Bytes → ω₂ × Res ρ₂} {IRep : ω₂ → Bytes → Prop}
    (hi : ∀ cap, Stores iwrite IRep cap) (iw : ω₂) (hio : IRep iw [])
    (h32 : packCount objectCount l.length < 2 ^ 32) (hc : packCount objectCount l.length ≤ l.length) :
    ∃ w' es, All2 (EntryOf zl level) (l.take (packCount objectCount l.length)) es ∧
      WRep w' (packFile es (H.digest (packBody es))) ∧
      (Indexable (idxOf 12 es) → ∃ iw' isha,
        writePack H zl fuel read write (some iwrite) (l.map Prod.fst) objectCount level w iw =
          (w', iw', .ok (H.digest (packBody es), some isha)) ∧
        isha = H.digest (indexV2 ((sortObjs (idxOf 12 es)).map IdxObj.toEntry) (H.digest (packBody es)) []) ∧
        IRep iw' (indexV2 ((sortObjs (idxOf 12 es)).map IdxObj.toEntry) (H.digest (packBody es)) isha)) := by
  obtain ⟨f0, r, f, es, w', r', e1, e2, e3, h4, e5, e6, h7⟩ :=
    writePack_core zl L hr hw H fuel level l hl objectCount w ho true h32 hc
  refine ⟨w', es, h4, h7, fun hix => ?_⟩
  obtain ⟨iw', e8, h8⟩ := indexWrite_spec hi H (idxOf 12 es) (H.digest (packBody es)) hix (H.len _) iw [] hio
  refine ⟨iw', _, ?_, rfl, h8⟩
  unfold writePack
  simp only [List.length_map, e1, e2, Option.isSome_some, e3, ne_eq, not_true_eq_false, if_false, if_true, e5,
    e6, e8]

/-- Too few objects. -/
theorem writePack_missing (idxWrite : Option (ω₂ → Bytes → ω₂ × Res ρ₂)) (iw : ω₂)
    (h32 : packCount objectCount l.length < 2 ^ 32) (hc : l.length < packCount objectCount l.length) :
    ∃ w', writePack H zl fuel read write idxWrite (l.map Prod.fst) objectCount level w iw =
      (w', iw, .error .valueError) := by
  obtain ⟨f0, r, f, es, e1, e2, e3, h4, h5⟩ := writePack_start zl L hr hw fuel level l hl w ho
    idxWrite.isSome _ h32 (Or.inl (by omega))
  refine ⟨f.inner, ?_⟩
  unfold writePack
  simp only [List.length_map, e1, e2, e3]
  rw [if_pos (by omega)]
end

end GitDB
