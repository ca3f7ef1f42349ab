import Verif.Proofs.DecompUse
/-!
# `DecompressMemMapReader` on arbitrary bytes

Nothing is assumed about the compressed bytes `m`.
-/
set_option autoImplicit false

namespace GitDB
open Spec
variable {zl : Zlib}

/-- What is known of the state of the decompressor after any sequence of calls: `pos` bytes of `m` were passed to it and
not left over. -/
structure AnyZ (zl : Zlib) (m : Bytes) (z : ZDec) (pos : Nat) : Prop where
  run : z.eof = false → pos ≤ m.length ∧ z.fed = m.take pos ∧ z.produced ≤ (zl.out z.fed).length
  ended : z.eof = true → z.produced = (zl.out m).length
  broken : z.broken = true → zl.bad m = true

theorem out_take_prefix (L : ZlibLaws zl) (m : Bytes) (n : Nat) : zl.out (m.take n) <+: zl.out m := by
  have := L.out_append (m.take n) (m.drop n)
  rwa [List.take_append_drop] at this

theorem bad_of_take (L : ZlibLaws zl) (m : Bytes) (n : Nat) (h : zl.bad (m.take n) = true) : zl.bad m = true := by
  have := L.bad_append (m.take n) (m.drop n) h
  rwa [List.take_append_drop] at this

/-- A piece of a prefix. -/
theorem piece_of_prefix {x y : Bytes} (h : x <+: y) (p k : Nat) : (x.drop p).take k = (y.drop p).take ((x.drop p).take k).length := by
  obtain ⟨t, rfl⟩ := h
  rw [List.length_take, List.length_drop]
  by_cases hp : p ≤ x.length
  · rw [List.drop_append_of_le_length hp, List.take_append_of_le_length (by rw [List.length_drop]; omega)]
    by_cases hk : k ≤ x.length - p
    · rw [Nat.min_eq_left hk]
    · rw [Nat.min_eq_right (by omega), List.take_of_length_le (by rw [List.length_drop]; omega),
        List.take_of_length_le (by rw [List.length_drop]; omega)]
  · have h1 : x.drop p = [] := List.drop_eq_nil_of_le (by omega)
    rw [h1, show min k (x.length - p) = 0 by omega]
    simp

/-- One call of `decompress`. -/
theorem zdec_any (L : ZlibLaws zl) (m : Bytes) (z : ZDec) (n e : Nat) (hz : AnyZ zl m z n) (max : Int) (hmax : 1 ≤ max) :
    (∃ z', z.decompress zl (pySlice m n e) max = (z', .error .zlibError) ∧ zl.bad m = true ∧ z'.broken = true ∧ z'.eof = false) ∨
    ∃ z' d, z.decompress zl (pySlice m n e) max = (z', .ok d) ∧ d = ((zl.out m).drop z.produced).take d.length ∧
      z'.produced = z.produced + d.length ∧ (d.length : Int) ≤ max ∧
      (z'.eof = false → z'.tail.length ≤ (pySlice m n e).length) ∧
      AnyZ zl m z' (n + (pySlice m n e).length - z'.tail.length) := by
  unfold ZDec.decompress
  rw [if_neg (by omega)]
  by_cases he : z.eof = true
  · rw [if_pos he]
    refine .inr ⟨_, [], rfl, by simp, by simp, by simp; omega, by simp [he], by simp [he], ?_, hz.broken⟩
    intro _
    exact hz.ended he
  · rw [if_neg he]
    simp only [Bool.not_eq_true] at he
    by_cases hk : z.broken = true
    · rw [if_pos hk]
      exact .inl ⟨z, rfl, hz.broken hk, hk, he⟩
    rw [if_neg hk]
    simp only [Bool.not_eq_true] at hk
    obtain ⟨r1, r2, r3⟩ := hz.run he
    have hx : z.fed ++ pySlice m n e = m.take (n + (e - n)) := by
      rw [r2]; unfold pySlice; rw [List.take_add]
    have hlen : n + (pySlice m n e).length = min (n + (e - n)) m.length := by
      unfold pySlice; rw [List.length_take, List.length_drop]; omega
    have hx' : z.fed ++ pySlice m n e = m.take (n + (pySlice m n e).length) := by
      rw [hx, hlen]
      by_cases h : n + (e - n) ≤ m.length
      · rw [Nat.min_eq_left h]
      · rw [Nat.min_eq_right (by omega), List.take_length, List.take_of_length_le (by omega)]
    have hpre := out_take_prefix L m (n + (pySlice m n e).length)
    rw [← hx'] at hpre
    have hfx : (zl.out z.fed).length ≤ (zl.out (z.fed ++ pySlice m n e)).length := (L.out_append _ _).length_le
    simp only
    split
    · rename_i hc
      right
      refine ⟨_, _, rfl, piece_of_prefix hpre _ _, ?_, ?_, ?_, ?_⟩
      · simp only [List.length_take, List.length_drop]; omega
      · simp only [List.length_take, List.length_drop]; omega
      · intro _; simp
      · constructor
        · intro _
          have ht := L.taken_le z.fed (pySlice m n e) _ hc.2
          have hpos : n + (pySlice m n e).length - ((pySlice m n e).drop (zl.taken z.fed (pySlice m n e) (z.produced + max.toNat))).length =
              n + zl.taken z.fed (pySlice m n e) (z.produced + max.toNat) := by
            rw [List.length_drop]; omega
          simp only [hpos]
          refine ⟨by omega, ?_, L.taken_out _ _ _ hc.2⟩
          generalize zl.taken z.fed (pySlice m n e) (z.produced + max.toNat) = t at *
          rw [r2, List.take_add]
          congr 1
          unfold pySlice at ht ⊢
          rw [List.length_take, List.length_drop] at ht
          rw [List.take_take, Nat.min_eq_left (by omega)]
        · intro h; simp [he] at h
        · intro h; simp [hk] at h
    · rename_i hc
      split
      · rename_i hb
        left
        refine ⟨_, rfl, ?_, rfl, he⟩
        rw [hx'] at hb
        exact bad_of_take L m _ hb
      · right
        have hd : (zl.out (z.fed ++ pySlice m n e)).drop z.produced =
            ((zl.out m).drop z.produced).take ((zl.out (z.fed ++ pySlice m n e)).drop z.produced).length := by
          have := piece_of_prefix hpre z.produced ((zl.out (z.fed ++ pySlice m n e)).drop z.produced).length
          rwa [List.take_length] at this
        have hle : (((zl.out (z.fed ++ pySlice m n e)).drop z.produced).length : Int) ≤ max := by
          rw [List.length_drop]
          by_cases h0 : (z.produced + max.toNat) < (zl.out (z.fed ++ pySlice m n e)).length
          · exact absurd ⟨by omega, h0⟩ hc
          · omega
        split
        · rename_i k hk
          refine ⟨_, _, rfl, hd, ?_, hle, by simp, ⟨by simp, ?_, by simp⟩⟩
          · simp only [List.length_drop]; omega
          · intro _
            have := L.stop_out _ (m.drop (n + (pySlice m n e).length)) _ hk
            rw [hx', List.take_append_drop] at this
            simp only [hx']
            rw [this]
        · refine ⟨_, _, rfl, hd, ?_, hle, by simp, ⟨?_, by simp [he], by simp [hk]⟩⟩
          · simp only [List.length_drop]; omega
          · intro _
            simp only [List.length_nil, Nat.sub_zero]
            exact ⟨by omega, hx', Nat.le_refl _⟩

/-- What is known of a reader: its decompressor is at the end of the window, without what was left over; `h` bytes of output belong to
the header. -/
structure AnyR (zl : Zlib) (m : Bytes) (h : Nat) (r : Reader) : Prop where
  m_eq : r.m = m
  z : AnyZ zl m r.zip (r.cwe - r.zip.tail.length)
  br0 : 0 ≤ r.br
  br_le : r.br ≤ r.s
  plain : r.buf = none → (r.zip.produced : Int) = h + r.br
  buf : ∀ b, r.buf = some b → r.buflen = b.length ∧ (r.zip.produced : Int) = h + r.br + b.length ∧
    b = ((zl.out m).drop (r.zip.produced - b.length)).take b.length

/-- One window. -/
theorem readZip_any (L : ZlibLaws zl) (m : Bytes) (h : Nat) (r : Reader) (hr : AnyR zl m h r) (hb : r.buf = none) (size : Int) (h1 : 1 ≤ size)
    (h2 : size ≤ r.s - r.br) :
    (∃ r', r.readZip zl size = (r', .error .zlibError) ∧ zl.bad m = true) ∨
    ∃ r' d, r.readZip zl size = (r', .ok d) ∧ d = ((zl.out m).drop r.zip.produced).take d.length ∧
      (d.length : Int) ≤ size ∧ r'.br = r.br + d.length ∧ r'.s = r.s ∧ r'.hasS = r.hasS ∧ r'.buf = none ∧
      r'.zip.produced = r.zip.produced + d.length ∧ AnyR zl m h r' := by
  unfold Reader.readZip
  simp only
  have hcws : (if r.zip.tail ≠ [] then r.cwe - r.zip.tail.length else r.cwe) = r.cwe - r.zip.tail.length := by
    split
    · rfl
    · rename_i h; simp only [ne_eq, Decidable.not_not] at h; simp [h]
  simp only [hcws]
  generalize hE : (if (if r.zip.tail ≠ [] then (((r.cwe - r.zip.tail.length : Nat) : Int)) + size else r.cws + size) -
      ((r.cwe - r.zip.tail.length : Nat) : Int) < 8 then ((r.cwe - r.zip.tail.length : Nat) : Int) + 8
      else (if r.zip.tail ≠ [] then (((r.cwe - r.zip.tail.length : Nat) : Int)) + size else r.cws + size)) = E
  rw [hr.m_eq]
  rcases zdec_any L m r.zip _ E.toNat hr.z size h1 with ⟨z', e1, e2, _⟩ | ⟨z', d, e1, e2, e3, e4, e5, e6⟩
  · left
    simp only [e1]
    exact ⟨_, rfl, e2⟩
  · right
    simp only [e1]
    refine ⟨_, d, rfl, e2, e4, rfl, rfl, rfl, hb, e3, ⟨rfl, ?_, ?_, ?_, ?_, ?_⟩⟩
    · exact e6
    · simp only; have := hr.br0; omega
    · simp only; omega
    · intro _
      have := hr.plain hb
      simp only; omega
    · intro b hb'
      simp only [hb] at hb'
      cases hb'

/-- What a read does: bytes in order, or an exception of zlib. -/
structure AnyRead (zl : Zlib) (m : Bytes) (h : Nat) (r r' : Reader) (d : Bytes) : Prop where
  data : d = ((zl.out m).drop (h + r.br.toNat)).take d.length
  inv : AnyR zl m h r'
  br : r'.br = r.br + d.length
  s : r'.s = r.s
  hasS : r'.hasS = r.hasS
  buf : r.buf = none → r'.buf = none

theorem piece_append (x a b : Bytes) (p : Nat) (ha : a = (x.drop p).take a.length) (hb : b = (x.drop (p + a.length)).take b.length) :
    a ++ b = (x.drop p).take (a ++ b).length := by
  rw [List.length_append, List.take_add, ← ha, List.drop_drop, ← hb]

theorem cont_any (L : ZlibLaws zl) (m : Bytes) (h : Nat) (fuel : Nat)
    (ih : ∀ (r : Reader) (n : Int), AnyR zl m h r → (r.s - r.br).toNat + (if r.buf = none then 0 else 1) < fuel →
      (∃ r', r.readCore zl fuel n = (r', .error .zlibError) ∧ zl.bad m = true) ∨
      ∃ r' d, r.readCore zl fuel n = (r', .ok d) ∧ AnyRead zl m h r r' d)
    (r : Reader) (hr : AnyR zl m h r) (hb : r.buf = none) (size : Int) (h1 : 1 ≤ size) (h2 : size ≤ r.s - r.br) (dat : Bytes) (br0 : Int)
    (h0 : 0 ≤ br0) (hbr : r.br = br0 + dat.length) (hdat : dat = ((zl.out m).drop (h + br0.toNat)).take dat.length)
    (hf : (r.s - br0).toNat ≤ fuel) :
    (∃ r', Reader.cont zl fuel r dat size = (r', .error .zlibError) ∧ zl.bad m = true) ∨
    ∃ r' d, Reader.cont zl fuel r dat size = (r', .ok d) ∧ d = ((zl.out m).drop (h + br0.toNat)).take d.length ∧ AnyR zl m h r' ∧
      r'.br = br0 + d.length ∧ r'.s = r.s ∧ r'.hasS = r.hasS ∧ r'.buf = none := by
  unfold Reader.cont
  rcases readZip_any L m h r hr hb size h1 h2 with ⟨r1, e1, e2⟩ | ⟨r1, d, e1, e2, e3, e4, e5, e6, e7, e8, e9⟩
  · left; rw [e1]; exact ⟨r1, rfl, e2⟩
  · rw [e1]
    simp only
    have hp := hr.plain hb
    have hprod : r.zip.produced = h + br0.toNat + dat.length := by omega
    have hboth := piece_append (zl.out m) dat d (h + br0.toNat) hdat (by rw [← hprod]; exact e2)
    split
    · rename_i hc
      have hlt : (r1.s - r1.br).toNat + (if r1.buf = none then 0 else 1) < fuel := by
        rw [if_pos e7]
        have hpos : 0 < (dat ++ d).length := List.length_pos_iff.2 hc.1
        rw [List.length_append] at hpos
        omega
      rcases ih r1 (size - (dat ++ d).length) e9 hlt with ⟨r2, k1, k2⟩ | ⟨r2, more, k1, k2⟩
      · left; rw [k1]; exact ⟨r2, rfl, k2⟩
      · right
        rw [k1]
        simp only
        refine ⟨r2, _, rfl, ?_, k2.inv, ?_, by rw [k2.s, e5], by rw [k2.hasS, e6], k2.buf e7⟩
        · apply piece_append _ _ _ _ hboth
          have := k2.data
          have hb1 : r1.br.toNat = br0.toNat + (dat ++ d).length := by rw [List.length_append]; omega
          rw [hb1, ← Nat.add_assoc] at this
          exact this
        · rw [k2.br, e4, hbr]
          simp only [List.length_append]
          omega
    · right
      refine ⟨r1, _, rfl, hboth, e9, ?_, e5, e6, e7⟩
      rw [e4, hbr, List.length_append]
      omega

theorem readCore_any (L : ZlibLaws zl) (m : Bytes) (h : Nat) : ∀ (fuel : Nat) (r : Reader) (n : Int), AnyR zl m h r →
    (r.s - r.br).toNat + (if r.buf = none then 0 else 1) < fuel →
    (∃ r', r.readCore zl fuel n = (r', .error .zlibError) ∧ zl.bad m = true) ∨
    ∃ r' d, r.readCore zl fuel n = (r', .ok d) ∧ AnyRead zl m h r r' d := by
  intro fuel
  induction fuel with
  | zero => intro r n _ hf; omega
  | succ fuel ih =>
    intro r n hr hf
    rw [readCore_succ]
    have hw0 : 0 ≤ r.want n ∧ r.want n ≤ r.s - r.br := by
      have := hr.br_le
      unfold Reader.want
      split <;> omega
    have h0 := hr.br0
    split
    · exact .inr ⟨r, [], rfl, ⟨by simp, hr, by simp, rfl, rfl, id⟩⟩
    rename_i hw
    cases hb : r.buf with
    | none =>
      simp only
      rw [if_pos hb] at hf
      rcases cont_any L m h fuel ih r hr hb (r.want n) (by omega) (by omega) [] r.br h0 (by simp) (by simp) (by omega) with
        ⟨r', e1, e2⟩ | ⟨r', d, e1, e2, e3, e4, e5, e6, e7⟩
      · exact .inl ⟨r', e1, e2⟩
      · exact .inr ⟨r', d, e1, ⟨e2, e3, e4, e5, e6, fun _ => e7⟩⟩
    | some b =>
      obtain ⟨b1, b2, b3⟩ := hr.buf b hb
      have hpb : r.zip.produced - b.length = h + r.br.toNat := by omega
      rw [hpb] at b3
      simp only
      split
      · rename_i hge
        right
        rw [if_neg (by omega), if_neg (by omega)]
        have hlen : (b.take (r.want n).toNat).length = (r.want n).toNat := by rw [List.length_take]; omega
        refine ⟨_, _, rfl, ⟨?_, ⟨hr.m_eq, hr.z, ?_, ?_, ?_, ?_⟩, ?_, rfl, rfl, by simp [hb]⟩⟩
        · rw [hlen]
          conv => lhs; rw [b3]
          rw [List.take_take, Nat.min_eq_left (by omega)]
        · simp only; omega
        · simp only; omega
        · simp
        · intro b' hb'
          simp only [Option.some.injEq] at hb'
          subst hb'
          simp only [List.length_drop]
          refine ⟨by omega, by omega, ?_⟩
          conv => lhs; rw [b3]
          rw [List.drop_take, List.drop_drop]
          congr 2
          omega
        · simp only [hlen]; omega
      · rename_i hge
        rw [if_neg (by simp [hb])] at hf
        have hr' : AnyR zl m h { r with br := r.br + r.buflen, buflen := 0, buf := none } := by
          refine ⟨hr.m_eq, hr.z, ?_, ?_, ?_, ?_⟩
          · simp only; omega
          · simp only; omega
          · intro _; simp only; omega
          · intro b' hb'; simp at hb'
        rcases cont_any L m h fuel ih { r with br := r.br + r.buflen, buflen := 0, buf := none } hr' rfl (r.want n - r.buflen) (by omega)
          (by simp only; omega) b r.br h0 (by simp only; omega) b3 (by simp only; omega) with
          ⟨r', e1, e2⟩ | ⟨r', d, e1, e2, e3, e4, e5, e6, e7⟩
        · exact .inl ⟨r', e1, e2⟩
        · exact .inr ⟨r', d, e1, ⟨e2, e3, e4, e5, e6, fun _ => e7⟩⟩

theorem read_any (L : ZlibLaws zl) (m : Bytes) (h : Nat) (r : Reader) (n : Int) (hr : AnyR zl m h r) (hs : r.hasS = true) :
    (∃ r', r.read zl n = (r', .error .zlibError) ∧ zl.bad m = true) ∨ ∃ r' d, r.read zl n = (r', .ok d) ∧ AnyRead zl m h r r' d := by
  unfold Reader.read Reader.needS
  rw [if_pos hs]
  exact readCore_any L m h _ r n hr (by unfold Reader.fuel; split <;> omega)

/-- Any sequence of reads. -/
theorem readMany_any (L : ZlibLaws zl) (m : Bytes) (h : Nat) : ∀ (ns : List Int) (r : Reader), AnyR zl m h r → r.hasS = true →
    (∃ r', readMany (Reader.read zl) r ns = (r', .error .zlibError) ∧ zl.bad m = true) ∨
    ∃ r' ps, readMany (Reader.read zl) r ns = (r', .ok ps) ∧ ps.flatten = ((zl.out m).drop (h + r.br.toNat)).take ps.flatten.length ∧
      AnyR zl m h r' ∧ r'.br = r.br + ps.flatten.length ∧ r'.s = r.s ∧ r'.hasS = r.hasS := by
  intro ns
  induction ns with
  | nil => intro r hr _; exact .inr ⟨r, [], rfl, by simp, hr, by simp, rfl, rfl⟩
  | cons n ns ih =>
    intro r hr hs
    rw [readMany]
    rcases read_any L m h r n hr hs with ⟨r1, e1, e2⟩ | ⟨r1, d, e1, e2⟩
    · left; rw [e1]; exact ⟨r1, rfl, e2⟩
    · rw [e1]
      simp only
      have h0 := hr.br0
      rcases ih r1 e2.inv (by rw [e2.hasS]; exact hs) with ⟨r2, k1, k2⟩ | ⟨r2, ps, k1, k2, k3, k4, k5, k6⟩
      · left; rw [k1]; exact ⟨r2, rfl, k2⟩
      · right
        rw [k1]
        simp only
        refine ⟨r2, _, rfl, ?_, k3, ?_, by rw [k5, e2.s], by rw [k6, e2.hasS]⟩
        · rw [List.flatten_cons]
          apply piece_append _ _ _ _ e2.data
          have hb : r1.br.toNat = r.br.toNat + d.length := by rw [e2.br]; omega
          rw [hb, ← Nat.add_assoc] at k2
          exact k2
        · rw [k4, e2.br, List.flatten_cons, List.length_append]; omega

theorem anyZ_init (m : Bytes) : AnyZ zl m {} 0 := ⟨fun _ => ⟨by omega, rfl, by simp⟩, by simp, by simp⟩

theorem anyR_ofSize (m : Bytes) (size : Int) (hs : 0 ≤ size) : AnyR zl m 0 (Reader.ofSize m size) :=
  ⟨rfl, anyZ_init m, by simp [Reader.ofSize], hs, by simp [Reader.ofSize], by simp [Reader.ofSize]⟩

/-- What `split` says when it returns two pieces. -/
theorem pySplitSpace_ne : ∀ (t : Bytes), pySplitSpace t ≠ []
  | [] => by simp [pySplitSpace]
  | c :: cs => by
    rw [pySplitSpace]
    split
    · simp
    · split <;> simp

theorem pySplitSpace_one : ∀ (t a : Bytes), pySplitSpace t = [a] → t = a ∧ ∀ c ∈ a, c ≠ 0x20
  | [], a, h => by simp [pySplitSpace] at h; subst h; simp
  | c :: cs, a, h => by
    rw [pySplitSpace] at h
    split at h
    · simp at h; exact absurd h.2 (pySplitSpace_ne cs)
    · rename_i hc
      split at h
      · rename_i h0; exact absurd h0 (pySplitSpace_ne cs)
      · rename_i p ps h0
        simp only [List.cons.injEq] at h
        obtain ⟨h1, h2⟩ := h
        subst h1 h2
        obtain ⟨k1, k2⟩ := pySplitSpace_one cs p h0
        refine ⟨by rw [k1], ?_⟩
        intro x hx
        rcases List.mem_cons.1 hx with rfl | hx
        · exact hc
        · exact k2 x hx

theorem pySplitSpace_pair : ∀ (t a b : Bytes), pySplitSpace t = [a, b] →
    t = a ++ 0x20 :: b ∧ (∀ c ∈ a, c ≠ 0x20) ∧ ∀ c ∈ b, c ≠ 0x20
  | [], a, b, h => by simp [pySplitSpace] at h
  | c :: cs, a, b, h => by
    rw [pySplitSpace] at h
    split at h
    · rename_i hc
      simp only [List.cons.injEq] at h
      obtain ⟨h1, h2⟩ := h
      obtain ⟨k1, k2⟩ := pySplitSpace_one cs b h2
      subst h1
      exact ⟨by rw [hc, k1]; rfl, by simp, k2⟩
    · rename_i hc
      split at h
      · rename_i h0; exact absurd h0 (pySplitSpace_ne cs)
      · rename_i p ps h0
        simp only [List.cons.injEq] at h
        obtain ⟨h1, h2⟩ := h
        subst h1 h2
        obtain ⟨k1, k2, k3⟩ := pySplitSpace_pair cs p b h0
        refine ⟨by rw [k1]; rfl, ?_, k3⟩
        intro x hx
        rcases List.mem_cons.1 hx with rfl | hx
        · exact hc
        · exact k2 x hx

theorem pyInt_error (b : Bytes) (e : Err) (h : pyInt b = .error e) : e = .valueError := by
  unfold pyInt at h
  simp only at h
  split at h
  · cases h
  · exact (Except.error.inj h).symm

/-- What the parser of headers accepts. -/
theorem parseObjectHeader_any (hdr : Bytes) : parseObjectHeader hdr = .error .valueError ∨
    ∃ typ num size k, parseObjectHeader hdr = .ok (typ, size, k) ∧ k ≤ hdr.length ∧ pyInt num = .ok size ∧
      (∀ c ∈ typ, c ≠ 0x20) ∧ (∀ c ∈ num, c ≠ 0x20) ∧
      ((0 ∉ typ ∧ 0 ∉ num ∧ hdr.take k = typ ++ 0x20 :: num ++ [0]) ∨ (k = 0 ∧ 0 ∉ hdr ∧ hdr.dropLast = typ ++ 0x20 :: num)) := by
  unfold parseObjectHeader
  cases hi : hdr.findIdx? (· == 0) with
  | none =>
    simp only
    split
    · rename_i typ num hs
      obtain ⟨k1, k2, k3⟩ := pySplitSpace_pair _ _ _ hs
      cases hp : pyInt num with
      | error e => left; rw [pyInt_error _ _ hp]
      | ok n =>
        right
        refine ⟨typ, num, n, 0, rfl, by omega, hp, k2, k3, .inr ⟨rfl, ?_, ?_⟩⟩
        · rw [List.findIdx?_eq_none_iff] at hi
          intro h
          simpa using hi 0 h
        · rw [List.dropLast_eq_take, k1]
    · exact .inl rfl
  | some i =>
    simp only
    split
    · rename_i typ num hs
      obtain ⟨k1, k2, k3⟩ := pySplitSpace_pair _ _ _ hs
      cases hp : pyInt num with
      | error e => left; rw [pyInt_error _ _ hp]
      | ok n =>
        right
        rw [List.findIdx?_eq_some_iff_getElem] at hi
        obtain ⟨h1, h2, h3⟩ := hi
        have hno : (0 : UInt8) ∉ hdr.take i := by
          intro hm
          obtain ⟨j, hj, hj2⟩ := List.getElem_of_mem hm
          rw [List.length_take] at hj
          rw [List.getElem_take] at hj2
          have := h3 j (by omega)
          simp [hj2] at this
        rw [k1] at hno
        refine ⟨typ, num, n, i + 1, rfl, by omega, hp, k2, k3, .inl ⟨?_, ?_, ?_⟩⟩
        · intro h; exact hno (by simp [h])
        · intro h; exact hno (by simp [h])
        · rw [List.take_succ_eq_append_getElem h1, k1]
          simp only [beq_iff_eq] at h2
          rw [h2]
    · exact .inl rfl

/-- `new` on arbitrary bytes. -/
theorem new_any (L : ZlibLaws zl) (m : Bytes) :
    (Reader.new zl m = .error .zlibError ∧ zl.bad m = true) ∨
    ∃ hdr, hdr <+: zl.out m ∧ hdr.length ≤ 8192 ∧
      ((Reader.new zl m = .error .valueError ∧ parseObjectHeader hdr = .error .valueError) ∨
       ∃ typ size k r, Reader.new zl m = .ok (typ, size, r) ∧ parseObjectHeader hdr = .ok (typ, size, k) ∧ k ≤ hdr.length ∧
        r.s = size ∧ r.hasS = true ∧ r.br = 0 ∧ r.buf = some (hdr.drop k) ∧ r.buflen = hdr.length - k ∧
        (0 ≤ size → AnyR zl m k r)) := by
  have h0 : AnyR zl m 0 { Reader.ofSize m 0 with s := maxHeader, hasS := true } :=
    ⟨rfl, anyZ_init m, by simp [Reader.ofSize], by simp [Reader.ofSize], by simp [Reader.ofSize], by simp [Reader.ofSize]⟩
  unfold Reader.new Reader.parseHeaderInfo
  simp only
  rcases readCore_any L m 0 (Reader.fuel { Reader.ofSize m 0 with s := maxHeader, hasS := true }) _ (maxHeader : Int) h0
      (by unfold Reader.fuel; split <;> omega) with ⟨r', e1, e2⟩ | ⟨r', hdr, e1, e2⟩
  · left; rw [e1]; exact ⟨rfl, e2⟩
  · right
    rw [e1]
    simp only
    have hd := e2.data
    simp only [Reader.ofSize, Nat.zero_add, Int.toNat_zero, List.drop_zero] at hd
    have hbr := e2.br
    have hs := e2.s
    have hle := e2.inv.br_le
    have hbuf := e2.buf rfl
    have hpl := e2.inv.plain hbuf
    simp only [Reader.ofSize, maxHeader] at hbr hs
    have hpre : hdr <+: zl.out m := by rw [hd]; exact List.take_prefix _ _
    refine ⟨hdr, hpre, by omega, ?_⟩
    rcases parseObjectHeader_any hdr with hp | ⟨typ, num, size, k, hp, hk, -⟩
    · left; rw [hp]; exact ⟨rfl, rfl⟩
    · right
      rw [hp]
      refine ⟨typ, size, k, _, rfl, rfl, hk, rfl, e2.hasS, rfl, rfl, rfl, ?_⟩
      intro h0
      have hprod : r'.zip.produced = hdr.length := by omega
      refine ⟨e2.inv.m_eq, e2.inv.z, by simp, h0, by simp, ?_⟩
      intro b hb
      simp only [Option.some.injEq] at hb
      subst hb
      simp only [List.length_drop, hprod]
      refine ⟨by omega, by omega, ?_⟩
      rw [show hdr.length - (hdr.length - k) = k by omega]
      have := congrArg (List.drop k) hd
      rw [List.drop_take] at this
      exact this

/-- A reader whose size is negative: the first read delivers what is buffered, then nothing comes. -/
theorem readMany_done (r : Reader) (hs : r.hasS = true) (h : r.br = r.s) : ∀ (ns : List Int),
    ∃ ps, readMany (Reader.read zl) r ns = (r, .ok ps) ∧ ps.flatten = []
  | [] => ⟨[], rfl, rfl⟩
  | n :: ns => by
    obtain ⟨ps, h1, h2⟩ := readMany_done r hs h ns
    have hr : r.read zl n = (r, .ok []) := by
      unfold Reader.read Reader.needS
      rw [if_pos hs]
      simp only [Reader.fuel]
      rw [readCore_succ, if_pos]
      unfold Reader.want
      split <;> omega
    rw [readMany, hr]
    simp only
    rw [h1]
    exact ⟨_, rfl, by simpa using h2⟩

theorem readMany_negative (r : Reader) (hs : r.hasS = true) (hbr : r.br = 0) (hneg : r.s < 0) (b : Bytes) (hb : r.buf = some b)
    (hl : 0 ≤ r.buflen) (ns : List Int) :
    ∃ r' ps, readMany (Reader.read zl) r ns = (r', .ok ps) ∧ ps.flatten = if ns = [] then [] else b := by
  cases ns with
  | nil => exact ⟨r, [], rfl, rfl⟩
  | cons n ns =>
    have hw : r.want n = r.s := by unfold Reader.want; split <;> omega
    have hr : r.read zl n = ({ r with buf := some [], buflen := r.buflen - r.s, br := r.br + r.s }, .ok b) := by
      unfold Reader.read Reader.needS
      rw [if_pos hs]
      simp only [Reader.fuel]
      rw [readCore_succ, hw, if_neg (by omega), hb]
      simp only
      rw [if_pos (by omega), if_pos (by omega), if_pos (by omega)]
    rw [readMany, hr]
    simp only
    obtain ⟨ps, h1, h2⟩ := readMany_done (zl := zl) { r with buf := some [], buflen := r.buflen - r.s, br := r.br + r.s } hs
      (by simp only; omega) ns
    rw [h1]
    exact ⟨_, _, rfl, by simp [h2]⟩

end GitDB
