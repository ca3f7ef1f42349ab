import Verif.Proofs.Nest
/-!
# Which part of the file a read depends on
-/
set_option autoImplicit false

namespace GitDB
open Spec
variable {zl : Zlib}

/-- The first byte that zlib has not used. -/
def Reader.at (r : Reader) : Nat := r.cwe - r.zip.tail.length

/-- The same reader on another file. -/
def Reader.onto (r : Reader) (m2 : Bytes) : Reader := { r with m := m2 }

theorem pySlice_local {m m2 : Bytes} {B : Nat} (h : m2.take B = m.take B) (a e : Nat) (he : e ≤ B) : pySlice m2 a e = pySlice m a e := by
  have key : ∀ x : Bytes, pySlice x a e = ((x.take B).drop a).take (e - a) := by
    intro x
    unfold pySlice
    rw [List.drop_take, List.take_take, Nat.min_eq_left (by omega)]
  rw [key, key, h]

/-- One call of zlib depends on the file up to `max 8 size` bytes behind what zlib has used. -/
theorem readZip_local (r : Reader) (size : Int) (hw : r.cws ≤ r.cwe) (m2 : Bytes) (B : Nat) (hB : m2.take B = r.m.take B)
    (hle : (r.at : Int) + max 8 size ≤ B) :
    (r.onto m2).readZip zl size = ((r.readZip zl size).1.onto m2, (r.readZip zl size).2) := by
  unfold Reader.at at hle
  unfold Reader.readZip Reader.onto
  simp only
  have ha : (if r.zip.tail ≠ [] then r.cwe - r.zip.tail.length else r.cwe) = r.cwe - r.zip.tail.length := by
    split
    · rfl
    · rename_i h; simp only [ne_eq, Decidable.not_not] at h; simp [h]
  rw [ha]
  generalize hc : (if r.zip.tail ≠ [] then ((r.cwe - r.zip.tail.length : Nat) : Int) + size else r.cws + size) = c
  generalize hw' : (if c - ((r.cwe - r.zip.tail.length : Nat) : Int) < 8 then ((r.cwe - r.zip.tail.length : Nat) : Int) + 8 else c) = w
  have hc2 : c ≤ ((r.cwe - r.zip.tail.length : Nat) : Int) + size := by
    split at hc
    · omega
    · rename_i h; simp only [ne_eq, Decidable.not_not] at h
      rw [h]; simp; omega
  have hwB : w.toNat ≤ B := by split at hw' <;> omega
  rw [pySlice_local hB _ _ hwB]
  rcases r.zip.decompress zl (pySlice r.m (r.cwe - r.zip.tail.length) w.toNat) size with ⟨z, e | d⟩ <;> rfl

/-- Where the window is after a call. -/
theorem readZip_frame (r : Reader) (size : Int) (hw : r.cws ≤ r.cwe) (r' : Reader) (d : Bytes) (h : r.readZip zl size = (r', .ok d)) :
    r'.cws = r.at ∧ r'.cws ≤ r'.cwe ∧ (r'.cwe : Int) ≤ r.at + max 8 size := by
  unfold Reader.at
  unfold Reader.readZip at h
  simp only at h
  have ha : (if r.zip.tail ≠ [] then r.cwe - r.zip.tail.length else r.cwe) = r.cwe - r.zip.tail.length := by
    split
    · rfl
    · rename_i h; simp only [ne_eq, Decidable.not_not] at h; simp [h]
  rw [ha] at h
  generalize hc : (if r.zip.tail ≠ [] then ((r.cwe - r.zip.tail.length : Nat) : Int) + size else r.cws + size) = c at h
  generalize hw' : (if c - ((r.cwe - r.zip.tail.length : Nat) : Int) < 8 then ((r.cwe - r.zip.tail.length : Nat) : Int) + 8 else c) = w at h
  have hc2 : c ≤ ((r.cwe - r.zip.tail.length : Nat) : Int) + size := by
    split at hc
    · omega
    · rename_i h; simp only [ne_eq, Decidable.not_not] at h
      rw [h]; simp; omega
  rcases hz : r.zip.decompress zl (pySlice r.m (r.cwe - r.zip.tail.length) w.toNat) size with ⟨z, e | d'⟩
  · rw [hz] at h; simp at h
  · rw [hz] at h
    have := (Prod.mk.inj h).1
    subst this
    simp only
    have hlen := pySlice_length r.m (r.cwe - r.zip.tail.length) w.toNat
    refine ⟨trivial, by omega, ?_⟩
    split at hw' <;> omega

/-- Not far behind what was put out. -/
structure Near (content : Bytes) (g : Nat) (r : Reader) : Prop where
  win : r.cws ≤ r.cwe
  near : r.zip.produced < content.length → r.at ≤ 8 * r.zip.produced + g

theorem near_step (L : ZlibLaws zl) {m : Bytes} {clen : Nat} {content : Bytes} (hm : IsZip zl m clen content) (hns : NoStallFrom zl 1 m) (g : Nat)
    (hg : content = [] ∨ 0 < (zl.out (m.take g)).length)
    (h : Nat) (r : Reader) (hr : RInv zl m clen content h r) (hbuf : r.buf = none) (hn : Near content g r) (size : Int) (hsz : 1 ≤ size)
    (r' : Reader) (d : Bytes) (hz : r.readZip zl size = (r', .ok d)) (hp : r'.zip.produced = r.zip.produced + d.length) :
    Near content g r' := by
  obtain ⟨h1, h2, h3⟩ := readZip_frame r size hn.win r' d hz
  refine ⟨h2, fun hlt => ?_⟩
  have hat : r'.at ≤ r'.cwe := by unfold Reader.at; omega
  rcases readZip_dry L hm h r hr hbuf size hsz r' d hz with h4 | h4 | ⟨h4, -⟩
  · have := hn.near (by omega)
    omega
  · exfalso
    rcases heof : r.zip.eof with _ | _
    · obtain ⟨n, hfed, hnc, hcwe, hpp, hun⟩ := hr.zinv.running heof
      obtain ⟨e, he8, -, hshape⟩ := readZip_shape (zl := zl) r size
      have han : r.cwe - r.zip.tail.length = n := by omega
      rw [han, hr.m_eq] at hshape
      rcases zdec_running L hm r.zip heof hr.zinv.sane n hfed hnc e (by omega) size hsz with
        ⟨t, h1, h2, h3, h4', h5⟩ | ⟨h1, h2, h5⟩ | ⟨h1, h2, h5⟩
      · have := hshape _ _ h5
        rw [hz] at this
        rw [(Prod.mk.inj this).1] at h4
        simp [Reader.after, heof] at h4
      · have := hshape _ _ h5
        rw [hz] at this
        rw [(Prod.mk.inj this).1] at hlt
        simp [Reader.after] at hlt
      · have := hshape _ _ h5
        rw [hz] at this
        rw [(Prod.mk.inj this).1] at h4
        simp [Reader.after, heof] at h4
    · have := (hr.zinv.ended heof).1
      omega
  · have ho := h4.out
    have ht := h4.tail
    unfold Reader.at
    rw [ht]
    simp only [List.length_nil]
    rcases Nat.lt_or_ge r'.cwe g with hlt' | hge
    · omega
    · have hg1 : 0 < (zl.out (m.take g)).length := by
        rcases hg with hg | hg
        · rw [hg] at hlt; simp at hlt
        · exact hg
      have hrate := noStall_rate L hm hns g hg1 ((r'.cwe - g) / 8)
      have hmono := zip_avail_mono L hm (show g + 8 * ((r'.cwe - g) / 8) ≤ r'.cwe by omega)
      omega

theorem readCore_local (L : ZlibLaws zl) {m : Bytes} {clen : Nat} {content : Bytes} (hm : IsZip zl m clen content) (hns : NoStallFrom zl 1 m) (g : Nat)
    (hg : content = [] ∨ 0 < (zl.out (m.take g)).length)
    (h : Nat) (m2 : Bytes) (B : Nat) (hB : m2.take B = m.take B) : ∀ (f : Nat) (r : Reader) (n : Int), RInv zl m clen content h r →
    r.buf = none → Near content g r → (r.zip.produced < content.length → 8 * ((r.zip.produced : Int) + r.want n) + g + max 8 (r.want n) ≤ B) →
    (r.zip.produced = content.length → (r.at : Int) + max 8 (r.want n) ≤ B) →
    (r.onto m2).readCore zl f n = ((r.readCore zl f n).1.onto m2, (r.readCore zl f n).2) ∧
      Near content g (r.readCore zl f n).1 := by
  intro f
  induction f with
  | zero => intro r n _ _ hn _ _; exact ⟨rfl, hn⟩
  | succ f ih =>
    intro r n hr hbuf hn h1 h2
    have hb0 := hr.br_nonneg
    have hbs := hr.br_le
    have hwle : r.want n ≤ r.s - r.br := by unfold Reader.want; split <;> omega
    have hw0 : 0 ≤ r.want n := by unfold Reader.want; split <;> omega
    rw [readCore_succ, readCore_succ]
    have hw2 : (r.onto m2).want n = r.want n := rfl
    have hbuf2 : (r.onto m2).buf = none := hbuf
    rw [hw2]
    by_cases hz : r.want n = 0
    · rw [if_pos hz, if_pos hz]
      exact ⟨rfl, hn⟩
    · rw [if_neg hz, if_neg hz]
      rw [hbuf, hbuf2]
      simp only
      obtain ⟨r', d, e, st⟩ := readZip_spec L hm h r hr hbuf (r.want n) (by omega) hwle
      have hpos := hr.pos
      have hpos' := st.inv.pos
      have hbl := hr.buf_len
      have hbl' := st.inv.buf_len
      rw [hbuf] at hbl
      rw [st.buf] at hbl'
      simp at hbl hbl'
      have hbr := st.br
      have hprod : r.zip.produced ≤ content.length := by
        rcases hze : r.zip.eof with _ | _
        · obtain ⟨x, -, -, -, h9, -⟩ := hr.zinv.running hze
          have := zip_avail_le L hm x
          omega
        · exact Nat.le_of_eq (hr.zinv.ended hze).1
      have hprod' : r'.zip.produced ≤ content.length := by
        rcases hze : r'.zip.eof with _ | _
        · obtain ⟨x, -, -, -, h9, -⟩ := st.inv.zinv.running hze
          have := zip_avail_le L hm x
          omega
        · exact Nat.le_of_eq (st.inv.zinv.ended hze).1
      have hloc := readZip_local (zl := zl) r (r.want n) hn.win m2 B (by rw [hr.m_eq]; exact hB) (by
        rcases Nat.lt_or_ge r.zip.produced content.length with hlt | hge
        · have := h1 hlt; have := hn.near hlt; omega
        · exact h2 (by omega))
      have hn' := near_step L hm hns g hg h r hr hbuf hn (r.want n) (by omega) r' d e (by omega)
      obtain ⟨-, -, hfr⟩ := readZip_frame r _ hn.win r' d e
      simp only [Reader.cont, hloc, e, List.nil_append, List.length_nil, show (r'.onto m2).br = r'.br from rfl, show (r'.onto m2).s = r'.s from rfl]
      by_cases hrec : d ≠ [] ∧ (d.length : Int) - ((0 : Nat) : Int) < r.want n ∧ r'.br < r'.s
      · rw [if_pos hrec, if_pos hrec]
        obtain ⟨hne, hsh, hlt⟩ := hrec
        have hlen : 1 ≤ d.length := by
          rcases d with _ | ⟨x, xs⟩
          · exact absurd rfl hne
          · simp
        have hs := st.s
        have hw' : r'.want (r.want n - d.length) = r.want n - d.length := by
          generalize r.want n = w at *
          unfold Reader.want; rw [if_neg (by omega)]; omega
        have hun : r.zip.produced < content.length := by omega
        have hnear := hn.near hun
        have hat : r'.at ≤ r'.cwe := by unfold Reader.at; omega
        have hb := h1 hun
        obtain ⟨i1, i2⟩ := ih r' (r.want n - d.length) st.inv st.buf hn' (by intro _; rw [hw']; omega) (by intro _; rw [hw']; omega)
        rw [i1]
        rcases hx : r'.readCore zl f (r.want n - d.length) with ⟨r3, er | more⟩
        · rw [hx] at i2; exact ⟨rfl, i2⟩
        · rw [hx] at i2; exact ⟨rfl, i2⟩
      · rw [if_neg hrec, if_neg hrec]
        exact ⟨rfl, hn'⟩

end GitDB
