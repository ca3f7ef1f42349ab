import Verif.Model.Decomp
import Verif.Spec.Stream
import Verif.Spec.Zip
/-!
# Lemmas about the decompressing reader
-/
set_option autoImplicit false

namespace GitDB
open Spec

variable {zl : Zlib}

/-! ### streams -/

theorem take_append_drop_take (m : Bytes) (n e : Nat) (h : n ≤ e) :
    m.take n ++ (m.drop n).take (e - n) = m.take e := by
  conv => rhs; rw [show e = n + (e - n) by omega]
  rw [List.take_add]

section
variable (L : ZlibLaws zl) {m : Bytes} {clen : Nat} {content : Bytes} (hm : IsZip zl m clen content)
include L hm
set_option linter.unusedSectionVars false

theorem zip_clen_le : clen ≤ m.length := L.stop_le _ _ hm.stop

theorem zip_prefix (b : Nat) : zl.out (m.take b) = content.take (zl.out (m.take b)).length := by
  have h := L.out_append (m.take b) (m.drop b)
  rw [List.take_append_drop, hm.out] at h
  exact (List.prefix_iff_eq_take.mp h)

theorem zip_avail_le (b : Nat) : (zl.out (m.take b)).length ≤ content.length := by
  have := congrArg List.length (zip_prefix L hm b)
  rw [List.length_take] at this
  omega

theorem zip_avail_mono {a b : Nat} (h : a ≤ b) :
    (zl.out (m.take a)).length ≤ (zl.out (m.take b)).length := by
  have h1 := L.out_append (m.take a) ((m.drop a).take (b - a))
  rw [take_append_drop_take m a b h] at h1
  exact h1.length_le

theorem zip_stop_ge {b : Nat} (h : clen ≤ b) : zl.stop (m.take b) = some clen := by
  have h1 := L.stop_take _ _ hm.stop
  have h2 := L.stop_append _ ((m.drop clen).take (b - clen)) _ h1
  rwa [take_append_drop_take m clen b h] at h2

theorem zip_out_ge {b : Nat} (h : clen ≤ b) : zl.out (m.take b) = content := by
  have h1 := L.stop_out _ (m.drop b) _ (zip_stop_ge L hm h)
  rw [List.take_append_drop, hm.out] at h1
  exact h1.symm

theorem zip_stop_lt {b : Nat} (h : b < clen) : zl.stop (m.take b) = none := by
  rcases hs : zl.stop (m.take b) with _ | k
  · rfl
  · have h1 := L.stop_append _ (m.drop b) _ hs
    rw [List.take_append_drop, hm.stop] at h1
    have h2 := L.stop_le _ _ hs
    rw [List.length_take] at h2
    simp at h1
    omega

theorem zip_stop_none {b : Nat} (h : zl.stop (m.take b) = none) : b < clen := by
  apply Nat.lt_of_not_le
  intro hb
  rw [zip_stop_ge L hm hb] at h
  simp at h

theorem zip_good (b : Nat) : zl.bad (m.take b) = false := by
  rcases hb : zl.bad (m.take b) with _ | _
  · rfl
  · have h1 := L.bad_append _ (m.drop b) hb
    rw [List.take_append_drop, L.stop_good _ _ hm.stop] at h1
    simp at h1
end

/-! ### the invariant -/

/-- State of the decompressor between reads. -/
structure ZInv (zl : Zlib) (m : Bytes) (clen : Nat) (content : Bytes) (z : ZDec) (cwe : Nat) : Prop where
  cwe_le : cwe ≤ m.length
  sane : z.broken = false
  running : z.eof = false → ∃ n, z.fed = m.take n ∧ n < clen ∧ n + z.tail.length = cwe ∧
    z.produced ≤ (zl.out (m.take n)).length ∧ z.unused = []
  ended : z.eof = true → z.produced = content.length ∧ clen + z.tail.length ≤ cwe

/-- State of the reader between reads; `h` is the length of the header that was skipped. -/
structure RInv (zl : Zlib) (m : Bytes) (clen : Nat) (content : Bytes) (h : Nat) (r : Reader) : Prop where
  m_eq : r.m = m
  zinv : ZInv zl m clen content r.zip r.cwe
  br_nonneg : 0 ≤ r.br
  br_le : r.br ≤ r.s
  pos : (r.zip.produced : Int) = h + r.br + r.buflen
  buf_len : ((r.buf.getD []).length : Int) = r.buflen
  buf_eq : r.buf.getD [] = (content.drop (h + r.br.toNat)).take r.buflen.toNat
  cbr_eq : r.zip.eof = false → (r.cbr : Int) = r.zip.fed.length

/-- No tail, and the count of compressed bytes is right after the end. -/
structure Clean (clen : Nat) (r : Reader) : Prop where
  tail : r.zip.tail = []
  cbr_eof : r.zip.eof = true → r.cbr = clen ∧ r.cwe = clen + r.zip.unused.length

theorem List.take_drop_min {α : Type} (l : List α) (p q k : Nat) (h : p + k ≤ q) :
    ((l.take q).drop p).take k = (l.drop p).take k := by
  rw [List.drop_take, List.take_take, Nat.min_eq_left (by omega)]

/-- One call of zlib before the end of the stream: the output limit is hit, or the end of the stream
is reached, or all input is consumed. -/
theorem zdec_running (L : ZlibLaws zl) {m : Bytes} {clen : Nat} {content : Bytes}
    (hm : IsZip zl m clen content) (z : ZDec) (heof : z.eof = false) (hok : z.broken = false) (n : Nat)
    (hfed : z.fed = m.take n) (hn : n < clen) (e : Nat) (hne : n ≤ e) (max : Int) (hmax : 1 ≤ max) :
    (∃ t, z.produced + max.toNat < (zl.out (m.take e)).length ∧ n + t ≤ e ∧ n + t < clen ∧
      z.produced + max.toNat ≤ (zl.out (m.take (n + t))).length ∧
      z.decompress zl (pySlice m n e) max =
        ({ z with fed := m.take (n + t), produced := z.produced + max.toNat,
                  tail := (pySlice m n e).drop t }, .ok ((content.drop z.produced).take max.toNat))) ∨
    ((zl.out (m.take e)).length ≤ z.produced + max.toNat ∧ clen ≤ e ∧
      z.decompress zl (pySlice m n e) max =
        ({ fed := m.take clen, produced := content.length,
           tail := if z.tail = [] then [] else pySlice m clen e,
           unused := pySlice m clen e, eof := true }, .ok (content.drop z.produced))) ∨
    ((zl.out (m.take e)).length ≤ z.produced + max.toNat ∧ e < clen ∧
      z.decompress zl (pySlice m n e) max =
        ({ z with fed := m.take e, produced := (zl.out (m.take e)).length, tail := [] },
          .ok ((content.drop z.produced).take ((zl.out (m.take e)).length - z.produced)))) := by
  have hx : z.fed ++ pySlice m n e = m.take e := by
    rw [hfed, pySlice, take_append_drop_take m n e hne]
  have hcl := zip_clen_le L hm
  have hpre := zip_prefix L hm e
  have hmono := zip_avail_mono L hm hne
  by_cases hlim : z.produced + max.toNat < (zl.out (m.take e)).length
  · left
    have hlim' : z.produced + max.toNat < (zl.out (z.fed ++ pySlice m n e)).length := by rwa [hx]
    have ht := L.taken_le _ _ _ hlim'
    have ho := L.taken_out _ _ _ hlim'
    have hs := L.taken_stop _ _ _ hlim' (by rw [hfed]; exact zip_stop_lt L hm hn)
    have hdec : z.decompress zl (pySlice m n e) max =
        ({ z with fed := z.fed ++ (pySlice m n e).take (zl.taken z.fed (pySlice m n e) (z.produced + max.toNat)),
                  produced := z.produced + max.toNat,
                  tail := (pySlice m n e).drop (zl.taken z.fed (pySlice m n e) (z.produced + max.toNat)) },
          .ok (((zl.out (m.take e)).drop z.produced).take max.toNat)) := by
      unfold ZDec.decompress
      rw [if_neg (by omega), if_neg (by simp [heof]), if_neg (by simp [hok])]
      simp only [hx]
      rw [if_pos ⟨by omega, hlim⟩]
    generalize zl.taken z.fed (pySlice m n e) (z.produced + max.toNat) = t at ht ho hs hdec
    have hl : (pySlice m n e).length ≤ e - n := by
      rw [pySlice, List.length_take]; omega
    have hf : z.fed ++ (pySlice m n e).take t = m.take (n + t) := by
      rw [hfed, pySlice, List.take_take, List.take_add, Nat.min_eq_left (by omega)]
    rw [hf] at ho hs hdec
    refine ⟨t, hlim, by omega, zip_stop_none L hm hs, ho, ?_⟩
    rw [hdec, hpre]
    congr 2
    rw [List.take_drop_min _ _ _ _ (by omega)]
  · have hlim2 := Nat.le_of_not_lt hlim
    have hgood := zip_good L hm e
    right
    rcases Nat.lt_or_ge e clen with he | he
    · right
      refine ⟨hlim2, he, ?_⟩
      unfold ZDec.decompress
      rw [if_neg (by omega), if_neg (by simp [heof]), if_neg (by simp [hok])]
      simp only [hx]
      rw [if_neg (by omega), if_neg (by simp [hgood]), zip_stop_lt L hm he]
      simp only
      congr 2
      conv => lhs; rw [hpre]
      rw [List.drop_take]
    · left
      refine ⟨hlim2, he, ?_⟩
      unfold ZDec.decompress
      rw [if_neg (by omega), if_neg (by simp [heof]), if_neg (by simp [hok])]
      simp only [hx]
      rw [if_neg (by omega), if_neg (by simp [hgood]), zip_stop_ge L hm he]
      simp only [zip_out_ge L hm he]
      have h1 : (m.take e).take clen = m.take clen := by
        rw [List.take_take, Nat.min_eq_left he]
      have h2 : (m.take e).drop clen = pySlice m clen e := by
        rw [List.drop_take, pySlice]
      rw [h1, h2]

/-- One call of zlib after the end of the stream. -/
theorem zdec_ended (z : ZDec) (heof : z.eof = true) (w : Bytes) (max : Int) (hmax : 1 ≤ max) :
    z.decompress zl w max =
      ({ z with unused := z.unused ++ w, tail := if z.tail = [] then [] else w }, .ok []) := by
  unfold ZDec.decompress
  rw [if_neg (by omega), if_pos heof]

/-- The reader after a successful call of zlib with window `[a, e)`. -/
def Reader.after (r : Reader) (a e : Nat) (z : ZDec) (d : Bytes) : Reader :=
  { r with cws := a, cwe := a + (pySlice r.m a e).length, zip := z,
           cbr := r.cbr + ((pySlice r.m a e).length - ((z.tail.length : Int) + z.unused.length)),
           br := r.br + d.length }

/-- The window starts where zlib stopped and has at least 8 bytes. -/
theorem readZip_shape (r : Reader) (size : Int) :
    ∃ e, r.cwe - r.zip.tail.length + 8 ≤ e ∧
      ((r.zip.tail ≠ [] ∨ r.cws = r.cwe) → ((r.cwe - r.zip.tail.length : Nat) : Int) + size ≤ e) ∧
      ∀ z d, r.zip.decompress zl (pySlice r.m (r.cwe - r.zip.tail.length) e) size = (z, .ok d) →
        r.readZip zl size = (r.after (r.cwe - r.zip.tail.length) e z d, .ok d) := by
  have ha : (if r.zip.tail ≠ [] then r.cwe - r.zip.tail.length else r.cwe) =
      r.cwe - r.zip.tail.length := by
    split
    · rfl
    · rename_i h; simp only [ne_eq, Decidable.not_not] at h; simp [h]
  unfold Reader.readZip
  simp only [ha]
  generalize hc : (if r.zip.tail ≠ [] then ((r.cwe - r.zip.tail.length : Nat) : Int) + size
    else r.cws + size) = c
  generalize hw : (if c - ((r.cwe - r.zip.tail.length : Nat) : Int) < 8 then
    ((r.cwe - r.zip.tail.length : Nat) : Int) + 8 else c) = w
  refine ⟨w.toNat, ?_, ?_, ?_⟩
  · split at hw <;> omega
  · rintro h
    have : c = ((r.cwe - r.zip.tail.length : Nat) : Int) + size := by
      rcases h with h | h
      · rw [if_pos h] at hc; exact hc.symm
      · by_cases ht : r.zip.tail ≠ []
        · rw [if_pos ht] at hc; exact hc.symm
        · simp only [ne_eq, Decidable.not_not] at ht
          simp [ht] at hc ⊢
          omega
    split at hw <;> omega
  · intro z d hd
    rw [hd]
    rfl

theorem pySlice_length (m : Bytes) (a e : Nat) : (pySlice m a e).length = min e m.length - a := by
  rw [pySlice, List.length_take, List.length_drop]; omega

/-- What one call of zlib does to the reader. -/
structure ZipStep (zl : Zlib) (m : Bytes) (clen : Nat) (content : Bytes) (h : Nat) (r : Reader)
    (size : Int) (r' : Reader) (d : Bytes) : Prop where
  inv : RInv zl m clen content h r'
  data : d = (content.drop (h + r.br.toNat)).take d.length
  bounded : (d.length : Int) ≤ size
  br : r'.br = r.br + d.length
  s : r'.s = r.s
  buf : r'.buf = none
  hasS : r'.hasS = r.hasS
  phi : r'.phi = r.phi
  /-- an empty result is the end or a stall -/
  progress : d = [] → h + r.br.toNat = content.length ∨
    ∃ n, (zl.out (m.take n)).length = h + r.br.toNat ∧ h + r.br.toNat < content.length ∧
      (zl.out (m.take (n + 8))).length = (zl.out (m.take n)).length ∧
      ((r.zip.tail ≠ [] ∨ r.cws = r.cwe) → (zl.out (m.take (r.cwe - r.zip.tail.length + max 8 size.toNat))).length =
        (zl.out (m.take n)).length)
  /-- at least the output determined by the next `size` bytes comes out -/
  least : (r.zip.tail ≠ [] ∨ r.cws = r.cwe) →
    min size.toNat ((zl.out (m.take (r.cwe - r.zip.tail.length + size.toNat))).length -
      (h + r.br.toNat)) ≤ d.length
  clean : (content.length : Int) ≤ h + r.br + size → Clean clen r →
    (r.zip.eof = true → r.zip.unused = []) → Clean clen r'
  eof : r.zip.eof = true → r'.zip.eof = true ∧ d = [] ∧
    (clen < m.length → Clean clen r → r.zip.unused = [] → r'.zip.unused ≠ [])
  advance : r.zip.eof = false → r'.zip.eof = false → (content.length : Int) ≤ h + r.br + size →
    r.cbr < r'.cbr

theorem readZip_spec (L : ZlibLaws zl) {m : Bytes} {clen : Nat} {content : Bytes}
    (hm : IsZip zl m clen content) (h : Nat) (r : Reader) (hr : RInv zl m clen content h r)
    (hbuf : r.buf = none) (size : Int) (hsz : 1 ≤ size) (hss : size ≤ r.s - r.br) :
    ∃ r' d, r.readZip zl size = (r', .ok d) ∧ ZipStep zl m clen content h r size r' d := by
  obtain ⟨e, he8, hes, hshape⟩ := readZip_shape (zl := zl) r size
  have hcl := zip_clen_le L hm
  have hbl : r.buflen = 0 := by have := hr.buf_len; rw [hbuf] at this; simpa using this.symm
  have hpos := hr.pos
  have hb0 := hr.br_nonneg
  have hprod : r.zip.produced = h + r.br.toNat := by omega
  rw [hr.m_eq] at hshape
  generalize ha : r.cwe - r.zip.tail.length = a at *
  rcases heof : r.zip.eof with _ | _
  · obtain ⟨n, hfed, hn, hcwe, hp, hun⟩ := hr.zinv.running heof
    have han : a = n := by omega
    subst han
    have hcbr := hr.cbr_eq heof
    rw [hfed, List.length_take] at hcbr
    have hpc := zip_avail_le L hm a
    rcases zdec_running L hm r.zip heof hr.zinv.sane a hfed hn e (by omega) size hsz with
      ⟨t, h1, h2, h3, h4, h5⟩ | ⟨h1, h2, h5⟩ | ⟨h1, h2, h5⟩
    · -- limit
      have hdl : ((content.drop r.zip.produced).take size.toNat).length = size.toNat := by
        have := zip_avail_le L hm e
        rw [List.length_take, List.length_drop]; omega
      refine ⟨_, _, hshape _ _ h5, ?_⟩
      constructor
      · constructor
        · exact hr.m_eq
        · constructor
          · simp only [Reader.after, hr.m_eq, pySlice_length]; omega
          · first | exact hr.zinv.sane | rfl
          · intro _
            refine ⟨a + t, rfl, h3, ?_, h4, hun⟩
            simp only [Reader.after, hr.m_eq, List.length_drop, pySlice_length]; omega
          · simp [Reader.after, heof]
        · simp only [Reader.after]; omega
        · simp only [Reader.after, hdl]; omega
        · simp only [Reader.after, hdl]; omega
        · exact hr.buf_len
        · simp [Reader.after, hbuf, hbl]
        · intro _
          simp only [Reader.after, hr.m_eq, hun, hcbr, List.length_drop, pySlice_length,
            List.length_take, List.length_nil]
          omega
      · rw [hdl, hprod]
      · rw [hdl]; omega
      · simp only [Reader.after]
      · rfl
      · exact hbuf
      · rfl
      · rfl
      · intro hd
        have := congrArg List.length hd
        rw [hdl] at this; simp at this; omega
      · intro _; rw [hdl]; omega
      · intro hc
        have := zip_avail_le L hm e
        omega
      · intro h'; simp [heof] at h'
      · intro _ _ hc
        have := zip_avail_le L hm e
        omega
    · -- end of stream
      have hdl : (content.drop r.zip.produced).length = content.length - r.zip.produced :=
        List.length_drop
      have hout : (zl.out (m.take e)) = content := zip_out_ge L hm h2
      rw [hout] at h1
      have hpl : r.zip.produced ≤ content.length := by omega
      refine ⟨_, _, hshape _ _ h5, ?_⟩
      constructor
      · constructor
        · exact hr.m_eq
        · constructor
          · simp only [Reader.after, hr.m_eq, pySlice_length]; omega
          · first | exact hr.zinv.sane | rfl
          · simp [Reader.after]
          · intro _
            simp only [Reader.after, hr.m_eq, pySlice_length]
            refine ⟨trivial, ?_⟩
            split
            · simp only [List.length_nil]; omega
            · simp only [pySlice_length]; omega
        · simp only [Reader.after]; omega
        · simp only [Reader.after, hdl]; omega
        · simp only [Reader.after, hdl]; omega
        · exact hr.buf_len
        · simp [Reader.after, hbuf, hbl]
        · simp [Reader.after]
      · rw [hprod, List.take_length]
      · rw [hdl]; omega
      · simp only [Reader.after]
      · rfl
      · exact hbuf
      · rfl
      · rfl
      · intro hd
        have := congrArg List.length hd
        rw [hdl] at this; simp at this; left; omega
      · intro _
        have := zip_avail_le L hm (r.cwe - r.zip.tail.length + size.toNat)
        rw [hdl]; omega
      · intro _ hc _
        constructor
        · simp [Reader.after, hc.tail]
        · intro _
          simp only [Reader.after, hr.m_eq, hc.tail, hcbr, pySlice_length, if_true, List.length_nil]
          omega
      · intro h'; simp [heof] at h'
      · intro _ h'; simp [Reader.after] at h'
    · -- all consumed
      have hmono := zip_avail_mono L hm (show a ≤ e by omega)
      have hle := zip_avail_le L hm e
      have hdl : ((content.drop r.zip.produced).take
          ((zl.out (m.take e)).length - r.zip.produced)).length =
          (zl.out (m.take e)).length - r.zip.produced := by
        rw [List.length_take, List.length_drop]; omega
      refine ⟨_, _, hshape _ _ h5, ?_⟩
      constructor
      · constructor
        · exact hr.m_eq
        · constructor
          · simp only [Reader.after, hr.m_eq, pySlice_length]; omega
          · first | exact hr.zinv.sane | rfl
          · intro _
            refine ⟨e, rfl, h2, ?_, by simp only [Reader.after]; omega, hun⟩
            simp only [Reader.after, hr.m_eq, List.length_nil, pySlice_length]; omega
          · simp [Reader.after, heof]
        · simp only [Reader.after]; omega
        · simp only [Reader.after, hdl]; omega
        · simp only [Reader.after, hdl]; omega
        · exact hr.buf_len
        · simp [Reader.after, hbuf, hbl]
        · intro _
          simp only [Reader.after, hr.m_eq, hun, hcbr, pySlice_length,
            List.length_take, List.length_nil]
          omega
      · rw [hdl, hprod]
      · rw [hdl]; omega
      · simp only [Reader.after]
      · rfl
      · exact hbuf
      · rfl
      · rfl
      · intro hd
        have := congrArg List.length hd
        rw [hdl] at this; simp only [List.length_nil] at this
        rcases Nat.lt_or_ge (h + r.br.toNat) content.length with hlt | hge
        · right
          have h8 := zip_avail_mono L hm he8
          have h0 := zip_avail_mono L hm (show a ≤ a + 8 by omega)
          refine ⟨a, by omega, hlt, by omega, fun h7 => ?_⟩
          have := hes h7
          have := zip_avail_mono L hm (show a + max 8 size.toNat ≤ e by omega)
          have := zip_avail_mono L hm (show a ≤ a + max 8 size.toNat by omega)
          rw [ha]
          omega
        · left; omega
      · intro h7
        have := hes h7
        have := zip_avail_mono L hm (show r.cwe - r.zip.tail.length + size.toNat ≤ e by omega)
        rw [hdl]; omega
      · intro _ hc _
        exact ⟨rfl, by simp [Reader.after, heof]⟩
      · intro h'; simp [heof] at h'
      · intro _ _ _
        simp only [Reader.after, hr.m_eq, hun, pySlice_length, List.length_nil]
        omega
  · obtain ⟨hp, hcw⟩ := hr.zinv.ended heof
    have h5 := zdec_ended (zl := zl) r.zip heof (pySlice m a e) size hsz
    refine ⟨_, _, hshape _ _ h5, ?_⟩
    have hcwe := hr.zinv.cwe_le
    constructor
    · constructor
      · exact hr.m_eq
      · constructor
        · simp only [Reader.after, hr.m_eq, pySlice_length]; omega
        · exact hr.zinv.sane
        · simp [Reader.after, heof]
        · intro _
          simp only [Reader.after, hr.m_eq, pySlice_length]
          refine ⟨hp, ?_⟩
          split
          · simp only [List.length_nil]; omega
          · simp only [pySlice_length]; omega
      · simp only [Reader.after]; omega
      · simp only [Reader.after]; simp; omega
      · simp only [Reader.after]; simp; omega
      · exact hr.buf_len
      · simp [Reader.after, hbuf, hbl]
      · simp [Reader.after, heof]
    · simp
    · simp; omega
    · simp only [Reader.after]
    · rfl
    · exact hbuf
    · rfl
    · rfl
    · intro _; left; omega
    · intro _
      have := zip_avail_le L hm (r.cwe - r.zip.tail.length + size.toNat)
      omega
    · intro _ hc hu
      have := hc.cbr_eof heof
      have hu := hu heof
      have ht := hc.tail
      rw [hu] at this
      constructor
      · simp [Reader.after, hc.tail]
      · intro _
        simp only [Reader.after, hr.m_eq, hc.tail, hu, pySlice_length, if_true, List.length_nil,
          List.nil_append, this.1]
        simp only [List.length_nil] at this
        rw [ht] at ha
        simp at ha
        omega
    · intro _
      refine ⟨heof, rfl, ?_⟩
      intro hlt hc hu
      have := hc.cbr_eof heof
      have ht := hc.tail
      rw [hu] at this
      rw [ht] at ha
      simp at ha this
      simp only [Reader.after, hu, List.nil_append]
      intro h0
      have := congrArg List.length h0
      rw [pySlice_length] at this
      simp at this
      omega
    · intro h'; simp [heof] at h'

/-- Number of bytes a call `read(n)` aims at. -/
def Reader.want (r : Reader) (n : Int) : Int := if n < 1 then r.s - r.br else min n (r.s - r.br)

/-- The next window has output. -/
def FirstOk (zl : Zlib) (m : Bytes) (h : Nat) (r : Reader) (size : Int) : Prop :=
  (r.zip.tail ≠ [] ∨ r.cws = r.cwe) ∧
    h + r.br.toNat < (zl.out (m.take (r.cwe - r.zip.tail.length + max 8 size.toNat))).length

theorem noStallFrom_mono {m : Bytes} {p q : Nat} (h : NoStallFrom zl p m) (hq : p ≤ q) : NoStallFrom zl q m :=
  fun n h1 h2 => h n (by omega) h2

theorem noStall_from {m : Bytes} (h : NoStall zl m) (p : Nat) : NoStallFrom zl p m := fun n _ h2 => h n h2

/-- What one `read(n)` does. -/
structure ReadStep (zl : Zlib) (m : Bytes) (clen : Nat) (content : Bytes) (h : Nat) (r : Reader)
    (n : Int) (r' : Reader) (d : Bytes) : Prop where
  inv : RInv zl m clen content h r'
  data : d = (content.drop (h + r.br.toNat)).take d.length
  br : r'.br = r.br + d.length
  s : r'.s = r.s
  hasS : r'.hasS = r.hasS
  phi : r'.phi = r.phi
  /-- without header buffer a bounded read is bounded -/
  bounded : r.buf = none → (d.length : Int) ≤ r.want n
  nobuf : r.buf = none → r'.buf = none
  /-- reads served from the header buffer are exact -/
  buffered : r.buf ≠ none → r.want n ≤ r.buflen → (d.length : Int) = r.want n ∧ r'.buf ≠ none ∧
    r'.buflen = r.buflen - r.want n ∧ r'.zip = r.zip ∧ r'.cws = r.cws ∧ r'.cwe = r.cwe ∧ r'.cbr = r.cbr
  /-- without stalls an empty result means the end -/
  nonempty : NoStall zl m → d = [] → r.br = r.s ∨ h + r.br.toNat = content.length
  /-- without header buffer reads are exact, if there are no stalls, or none behind the first window -/
  exactFrom : NoStallFrom zl (h + r.br.toNat + 1) m → NoStallFrom zl (h + r.br.toNat) m ∨ FirstOk zl m h r (r.want n) →
    r.buf = none → (d.length : Int) = min (r.want n) (content.length - (h + r.br.toNat) : Nat)
  /-- at least the output determined by the next `want` bytes is returned -/
  least : r.buf = none → (r.zip.tail ≠ [] ∨ r.cws = r.cwe) →
    min (r.want n).toNat ((zl.out (m.take (r.cwe - r.zip.tail.length + (r.want n).toNat))).length -
      (h + r.br.toNat)) ≤ d.length
  /-- reads of everything keep the count of compressed bytes right -/
  clean : r.buf = none → h + r.s = content.length → r.want n = r.s - r.br → Clean clen r → Clean clen r'

/-- without stalls and header buffer reads are exact -/
theorem ReadStep.exact {m : Bytes} {clen : Nat} {content : Bytes} {h : Nat} {r : Reader} {n : Int} {r' : Reader} {d : Bytes}
    (st : ReadStep zl m clen content h r n r' d) (hns : NoStall zl m) (hb : r.buf = none) :
    (d.length : Int) = min (r.want n) (content.length - (h + r.br.toNat) : Nat) :=
  st.exactFrom (noStall_from hns _) (.inl (noStall_from hns _)) hb

theorem progress_end {m : Bytes} {clen : Nat} {content : Bytes} (hm : IsZip zl m clen content) {h : Nat} {r r' : Reader} {size : Int}
    {d : Bytes} (st : ZipStep zl m clen content h r size r' d)
    (hns : NoStallFrom zl (h + r.br.toNat) m ∨ FirstOk zl m h r size) (hd : d = []) : h + r.br.toNat = content.length := by
  rcases st.progress hd with h1 | ⟨n, h1, h2, h3, h4⟩
  · exact h1
  · rcases hns with hns | ⟨hf, hns⟩
    · have := hns n (by omega) (by rw [hm.out]; omega)
      omega
    · have := h4 hf
      omega

theorem take_take_drop {α : Type} (c : List α) (a b : List α) (p : Nat)
    (ha : a = (c.drop p).take a.length) (hb : b = (c.drop (p + a.length)).take b.length) :
    a ++ b = (c.drop p).take (a ++ b).length := by
  rw [List.length_append, List.take_add, ← ha, List.drop_drop, ← hb]

/-- The part of `read` after the header buffer was emptied. -/
def Reader.cont (zl : Zlib) (fuel : Nat) (r : Reader) (dat : Bytes) (size : Int) : Reader × Res Bytes :=
  match r.readZip zl size with
  | (r, .error e) => (r, .error e)
  | (r, .ok new) =>
    if dat ++ new ≠ [] ∧ ((dat ++ new).length : Int) - dat.length < size ∧ r.br < r.s then
      match readCore zl fuel r (size - (dat ++ new).length) with
      | (r, .error e) => (r, .error e)
      | (r, .ok more) => (r, .ok (dat ++ new ++ more))
    else (r, .ok (dat ++ new))

theorem readCore_succ (fuel : Nat) (r : Reader) (n : Int) :
    r.readCore zl (fuel + 1) n =
      if r.want n = 0 then (r, .ok [])
      else
        match r.buf with
        | some b =>
          if r.buflen ≥ r.want n then
            ({ r with buf := some (if r.want n < 0 then [] else b.drop (r.want n).toNat),
                      buflen := r.buflen - r.want n, br := r.br + r.want n },
              .ok (if r.want n < 0 then b else b.take (r.want n).toNat))
          else
            Reader.cont zl fuel { r with br := r.br + r.buflen, buflen := 0, buf := none } b
              (r.want n - r.buflen)
        | none => Reader.cont zl fuel r [] (r.want n) := by
  rw [Reader.readCore]
  rfl

theorem readCore_spec (L : ZlibLaws zl) {m : Bytes} {clen : Nat} {content : Bytes}
    (hm : IsZip zl m clen content) (h : Nat) : ∀ (fuel : Nat) (r : Reader) (n : Int),
    RInv zl m clen content h r → (r.s - r.br).toNat < fuel →
    ∃ r' d, r.readCore zl fuel n = (r', .ok d) ∧ ReadStep zl m clen content h r n r' d := by
  intro fuel
  induction fuel with
  | zero => intro r n _ hf; omega
  | succ fuel ih =>
    intro r n hr hf
    have hb0 := hr.br_nonneg
    have hbs := hr.br_le
    have hwle : r.want n ≤ r.s - r.br := by unfold Reader.want; split <;> omega
    have hw0 : 0 ≤ r.want n := by unfold Reader.want; split <;> omega
    rw [readCore_succ]
    by_cases hz : r.want n = 0
    · rw [if_pos hz]
      refine ⟨_, _, rfl, ?_⟩
      have hz' : r.br = r.s := by unfold Reader.want at hz; split at hz <;> omega
      constructor
      · exact hr
      · simp
      · simp
      · rfl
      · rfl
      · rfl
      · intro _; simp; omega
      · intro h'; exact h'
      · intro h' _; rw [hz]; simp [h']
      · intro _ _; exact Or.inl hz'
      · intro _ _ _; simp only [hz, List.length_nil]; omega
      · intro _ _; simp only [hz, List.length_nil]; omega
      · intro _ _ _ hc; exact hc
    · rw [if_neg hz]
      -- the common part
      have key : ∀ (r1 : Reader) (dat : Bytes) (size : Int), RInv zl m clen content h r1 →
          r1.buf = none → r1.s = r.s → r1.br = r.br + dat.length → 1 ≤ size → size ≤ r.s - r1.br →
          ∃ r' new more, Reader.cont zl fuel r1 dat size = (r', .ok (dat ++ (new ++ more))) ∧
            RInv zl m clen content h r' ∧
            new ++ more = (content.drop (h + r1.br.toNat)).take (new ++ more).length ∧
            r'.br = r1.br + (new ++ more).length ∧ r'.s = r1.s ∧ r'.hasS = r1.hasS ∧ r'.phi = r1.phi ∧
            r'.buf = none ∧
            (dat = [] → ((new ++ more).length : Int) ≤ size) ∧
            (NoStallFrom zl (h + r1.br.toNat) m ∨ FirstOk zl m h r1 size → new = [] → h + r1.br.toNat = content.length) ∧
            (NoStallFrom zl (h + r1.br.toNat + 1) m → NoStallFrom zl (h + r1.br.toNat) m ∨ FirstOk zl m h r1 size → dat = [] →
              ((new ++ more).length : Int) = min size (content.length - (h + r1.br.toNat) : Nat)) ∧
            ((r1.zip.tail ≠ [] ∨ r1.cws = r1.cwe) →
              min size.toNat ((zl.out (m.take (r1.cwe - r1.zip.tail.length + size.toNat))).length -
                (h + r1.br.toNat)) ≤ (new ++ more).length) ∧
            (h + r1.s = content.length → size = r1.s - r1.br → dat = [] → Clean clen r1 →
              Clean clen r') := by
        intro r1 dat size hr1 hbuf1 hs1 hbr1 hsz hss
        have hb10 := hr1.br_nonneg
        have hbs1 := hr1.br_le
        obtain ⟨r2, new, e2, st⟩ := readZip_spec L hm h r1 hr1 hbuf1 size hsz (by omega)
        have hst1 := st.s
        have hst2 := st.br
        have hst3 := st.bounded
        have hst4 := congrArg List.length st.data
        rw [List.length_take, List.length_drop] at hst4
        have hcl1 : h + r1.s = content.length → Clean clen r1 → r1.br < r1.s →
            r1.zip.eof = true → r1.zip.unused = [] := by
          intro h1 _ h3 h4
          have h5 := (hr1.zinv.ended h4).1
          have h6 := hr1.pos
          have h7 := hr1.buf_len
          rw [hbuf1] at h7; simp at h7
          omega
        by_cases hrec : dat ++ new ≠ [] ∧ ((dat ++ new).length : Int) - dat.length < size ∧ r2.br < r2.s
        · obtain ⟨hne, hshort, hlt⟩ := hrec
          have hlen : 1 ≤ (dat ++ new).length := by
            rcases hl : dat ++ new with _ | ⟨x, xs⟩
            · exact absurd hl hne
            · simp
          rw [List.length_append] at hlen hshort
          obtain ⟨r3, more, e3, st3⟩ := ih r2 (size - (dat ++ new).length) st.inv (by omega)
          have hs3b := st3.br
          have hcat : new ++ more = (content.drop (h + r1.br.toNat)).take (new ++ more).length := by
            apply take_take_drop _ _ _ _ st.data
            have := st3.data
            rwa [show h + r2.br.toNat = h + r1.br.toNat + new.length by omega] at this
          have hw2 : dat = [] → r2.want (size - (dat ++ new).length) = size - new.length := by
            intro hd
            unfold Reader.want
            simp only [hd, List.nil_append]
            rw [hd] at hshort hbr1
            simp at hshort hbr1
            rw [if_neg (by omega)]
            omega
          refine ⟨r3, new, more, ?_, st3.inv, hcat, ?_, ?_, ?_, ?_, ?_, ?_, ?_, ?_, ?_, ?_⟩
          · unfold Reader.cont
            rw [e2]
            simp only
            rw [if_pos ⟨hne, by rw [List.length_append]; exact hshort, hlt⟩, e3]
            simp
          · rw [List.length_append]; omega
          · rw [st3.s, st.s]
          · rw [st3.hasS, st.hasS]
          · rw [st3.phi, st.phi]
          · exact st3.nobuf st.buf
          · intro hd
            have := st3.bounded st.buf
            rw [hw2 hd] at this
            rw [List.length_append]; omega
          · intro hns hnew; exact progress_end hm st hns hnew
          · intro hns _ hd
            have hnew : 1 ≤ new.length := by rw [hd] at hlen; simpa using hlen
            have := st3.exactFrom (noStallFrom_mono hns (by omega)) (.inl (noStallFrom_mono hns (by omega))) st.buf
            rw [hw2 hd] at this
            rw [List.length_append]; omega
          · intro h1
            have h4 := st.least h1
            rw [List.length_append]
            omega
          · intro h1 h2 hd hc
            apply st3.clean st.buf (by omega)
            · rw [hw2 hd]; omega
            · apply st.clean (by omega) hc
              intro h4; exact hcl1 h1 hc (by omega) h4
        · refine ⟨r2, new, [], ?_, st.inv, ?_, ?_, ?_, ?_, ?_, ?_, ?_, ?_, ?_, ?_, ?_⟩
          · unfold Reader.cont
            rw [e2]
            simp only
            rw [if_neg hrec]; simp
          · rw [List.append_nil]; exact st.data
          · rw [List.append_nil]; exact st.br
          · exact st.s
          · exact st.hasS
          · exact st.phi
          · exact st.buf
          · intro _; rw [List.append_nil]; exact hst3
          · intro hns hnew; exact progress_end hm st hns hnew
          · intro _ hns hd
            rw [List.append_nil]
            rw [hd] at hrec hbr1
            simp at hrec hbr1
            rcases Classical.em (new = []) with hnew | hnew
            · have := progress_end hm st hns hnew
              omega
            · have := hrec hnew; omega
          · intro h1
            rw [List.append_nil]
            exact st.least h1
          · intro h1 h2 hd hc
            apply st.clean (by omega) hc
            intro h4; exact hcl1 h1 hc (by omega) h4
      rcases hb : r.buf with _ | b
      · simp only
        obtain ⟨r', new, more, e, k1, k2, k3, k4, k5, k6, k7, k8, k9, k10, k11, k12⟩ :=
          key r [] (r.want n) hr hb rfl (by simp) (by omega) hwle
        refine ⟨r', new ++ more, by rw [e]; simp, ?_⟩
        constructor
        · exact k1
        · exact k2
        · exact k3
        · exact k4
        · exact k5
        · exact k6
        · intro _; exact k8 rfl
        · intro _; exact k7
        · intro h'; exact absurd hb h'
        · intro hns hd
          have hnew : new = [] := (List.append_eq_nil_iff.mp hd).1
          exact Or.inr (k9 (.inl (noStall_from hns _)) hnew)
        · intro h1 h2 _; exact k10 h1 h2 rfl
        · intro _ h1; exact k11 h1
        · intro _ h1 h2 h3; exact k12 h1 h2 rfl h3
      · simp only
        have hbl := hr.buf_len
        have hbe := hr.buf_eq
        rw [hb] at hbl hbe
        simp at hbl hbe
        by_cases hge : r.buflen ≥ r.want n
        · rw [if_pos hge, if_neg (show ¬ r.want n < 0 by omega), if_neg (show ¬ r.want n < 0 by omega)]
          have hdl : ((b.take (r.want n).toNat).length : Int) = r.want n := by
            rw [List.length_take]; omega
          have hdl' : (b.take (r.want n).toNat).length = (r.want n).toNat := by omega
          refine ⟨_, _, rfl, ?_⟩
          constructor
          · constructor
            · exact hr.m_eq
            · exact hr.zinv
            · simp only; omega
            · simp only; omega
            · simp only; have := hr.pos; omega
            · simp only [Option.getD_some, List.length_drop]; omega
            · simp only [Option.getD_some]
              rw [hbe, List.drop_take, List.drop_drop]
              congr 1
              · omega
              · congr 1; omega
            · exact hr.cbr_eq
          · rw [hdl', hbe, List.take_take]
            congr 1
            omega
          · simp only; omega
          · rfl
          · rfl
          · rfl
          · intro h'; rw [hb] at h'; simp at h'
          · intro h'; rw [hb] at h'; simp at h'
          · intro _ _; exact ⟨hdl, by simp, rfl, rfl, rfl, rfl, rfl⟩
          · intro _ hd
            rw [hd] at hdl; simp at hdl; omega
          · intro _ _ h'; rw [hb] at h'; simp at h'
          · intro h'; rw [hb] at h'; simp at h'
          · intro h'; rw [hb] at h'; simp at h'
        · rw [if_neg hge]
          have hinv : RInv zl m clen content h { r with br := r.br + r.buflen, buflen := 0, buf := none } := by
            constructor
            · exact hr.m_eq
            · exact hr.zinv
            · simp only; omega
            · simp only; omega
            · simp only; have := hr.pos; omega
            · simp
            · simp
            · exact hr.cbr_eq
          obtain ⟨r', new, more, e, k1, k2, k3, k4, k5, k6, k7, k8, k9, k10, k11, k12⟩ :=
            key { r with br := r.br + r.buflen, buflen := 0, buf := none } b (r.want n - r.buflen) hinv rfl rfl
              (by simp only; omega) (by omega) (by simp only; omega)
          simp only at k2 k3
          refine ⟨r', b ++ (new ++ more), e, ?_⟩
          have hbt : b = (content.drop (h + r.br.toNat)).take b.length := by
            conv => lhs; rw [hbe]
            congr 1; omega
          constructor
          · exact k1
          · apply take_take_drop _ _ _ _ hbt
            rwa [show h + (r.br + r.buflen).toNat = h + r.br.toNat + b.length by omega] at k2
          · rw [k3, List.length_append (as := b)]; omega
          · exact k4
          · exact k5
          · exact k6
          · intro h'; rw [hb] at h'; simp at h'
          · intro h'; rw [hb] at h'; simp at h'
          · intro _ h'; omega
          · intro hns hd
            simp at hd
            have := k9 (.inl (noStall_from hns _)) hd.2.1
            simp only at this
            rw [hd.1] at hbl
            simp at hbl; right; omega
          · intro _ _ h'; rw [hb] at h'; simp at h'
          · intro h'; rw [hb] at h'; simp at h'
          · intro h'; rw [hb] at h'; simp at h'

end GitDB
