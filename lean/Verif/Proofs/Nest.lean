import Verif.Proofs.DecompUse
/-!
# How deep `DecompressMemMapReader.read` calls itself
-/
set_option autoImplicit false

namespace GitDB
open Spec
variable {zl : Zlib}

/-- More fuel changes nothing once there is enough. -/
theorem readCore_more : ∀ (f : Nat) (r : Reader) (n : Int), (r.readCore zl f n).2 ≠ .error .diverge →
    r.readCore zl (f + 1) n = r.readCore zl f n := by
  intro f
  induction f with
  | zero => intro r n h; exact absurd rfl h
  | succ f ih =>
    intro r n h
    have key : ∀ (r1 : Reader) (dat : Bytes) (size : Int), (Reader.cont zl f r1 dat size).2 ≠ .error .diverge →
        Reader.cont zl (f + 1) r1 dat size = Reader.cont zl f r1 dat size := by
      intro r1 dat size h
      unfold Reader.cont at h ⊢
      rcases hz : r1.readZip zl size with ⟨r2, e | new⟩
      · rfl
      · simp only [hz] at h ⊢
        by_cases hrec : dat ++ new ≠ [] ∧ ((dat ++ new).length : Int) - dat.length < size ∧ r2.br < r2.s
        · rw [if_pos hrec] at h
          rw [if_pos hrec, if_pos hrec, ih]
          rintro h'
          apply h
          rcases hx : r2.readCore zl f (size - (dat ++ new).length) with ⟨r3, e | more⟩
          · rw [hx] at h'; simp only at h' ⊢; exact h'
          · rw [hx] at h'; simp at h'
        · rw [if_neg hrec, if_neg hrec]
    rw [readCore_succ] at h
    rw [readCore_succ, readCore_succ]
    by_cases hz : r.want n = 0
    · rw [if_pos hz, if_pos hz]
    · rw [if_neg hz] at h
      rw [if_neg hz, if_neg hz]
      rcases hb : r.buf with _ | b
      · simp only [hb] at h ⊢
        exact key _ _ _ h
      · simp only [hb] at h ⊢
        by_cases hge : r.buflen ≥ r.want n
        · rw [if_pos hge, if_pos hge]
        · rw [if_neg hge] at h
          rw [if_neg hge, if_neg hge]
          exact key _ _ _ h

theorem readCore_add (f : Nat) (r : Reader) (n : Int) (h : (r.readCore zl f n).2 ≠ .error .diverge) :
    ∀ k, r.readCore zl (f + k) n = r.readCore zl f n
  | 0 => rfl
  | k + 1 => by
    have ih := readCore_add f r n h k
    rw [← Nat.add_assoc, readCore_more _ _ _ (by rw [ih]; exact h), ih]

theorem readCore_fine_mono {f g : Nat} (hfg : f ≤ g) (r : Reader) (n : Int) (h : (r.readCore zl f n).2 ≠ .error .diverge) :
    (r.readCore zl g n).2 ≠ .error .diverge := by
  have := readCore_add f r n h (g - f)
  rw [show f + (g - f) = g by omega] at this
  rw [this]; exact h

/-- The window of `readZip` when there is no tail. -/
theorem readZip_window (r : Reader) (size : Int) (ht : r.zip.tail = []) :
    ∃ e : Nat, (e : Int) = max ((r.cwe : Int) + 8) ((r.cws : Int) + size) ∧
      ∀ z d, r.zip.decompress zl (pySlice r.m r.cwe e) size = (z, .ok d) → r.readZip zl size = (r.after r.cwe e z d, .ok d) := by
  unfold Reader.readZip
  simp only [ht, ne_eq, not_true_eq_false, if_false]
  generalize hw : (if (r.cws : Int) + size - r.cwe < 8 then (r.cwe : Int) + 8 else r.cws + size) = w
  refine ⟨w.toNat, ?_, ?_⟩
  · split at hw <;> omega
  · intro z d hd
    rw [hd]
    rfl

/-- zlib has used all it was given, and all output of that was taken. -/
structure Dry (zl : Zlib) (m : Bytes) (r : Reader) : Prop where
  buf : r.buf = none
  eof : r.zip.eof = false
  tail : r.zip.tail = []
  win : r.cws ≤ r.cwe
  out : (zl.out (m.take r.cwe)).length = r.zip.produced

/-- After a call of zlib the output limit is hit, or the stream is at its end, or the reader is dry. -/
theorem readZip_dry (L : ZlibLaws zl) {m : Bytes} {clen : Nat} {content : Bytes}
    (hm : IsZip zl m clen content) (h : Nat) (r : Reader) (hr : RInv zl m clen content h r)
    (hbuf : r.buf = none) (size : Int) (hsz : 1 ≤ size) (r' : Reader) (d : Bytes) (hz : r.readZip zl size = (r', .ok d)) :
    (d.length : Int) = size ∨ r'.zip.eof = true ∨
      (Dry zl m r' ∧ (r.zip.tail = [] → r'.cws = r.cwe ∧ (r'.cwe : Int) = max ((r.cwe : Int) + 8) ((r.cws : Int) + size))) := by
  rcases heof : r.zip.eof with _ | _
  · obtain ⟨n, hfed, hn, hcwe, hp, hun⟩ := hr.zinv.running heof
    have hcl := zip_clen_le L hm
    have fin : ∀ (a e : Nat), a = n → a + 8 ≤ e →
        (∀ z d, r.zip.decompress zl (pySlice r.m a e) size = (z, .ok d) → r.readZip zl size = (r.after a e z d, .ok d)) →
        (d.length : Int) = size ∨ r'.zip.eof = true ∨ (Dry zl m r' ∧ r'.cws = a ∧ r'.cwe = e) := by
      intro a e ha he hshape
      subst ha
      rw [hr.m_eq] at hshape
      have hpc := zip_avail_le L hm a
      rcases zdec_running L hm r.zip heof hr.zinv.sane a hfed hn e (by omega) size hsz with
        ⟨t, h1, h2, h3, h4, h5⟩ | ⟨h1, h2, h5⟩ | ⟨h1, h2, h5⟩
      · left
        have := hshape _ _ h5
        rw [hz] at this
        have hd := (Prod.mk.inj this).2
        injection hd with hd
        have := zip_avail_le L hm e
        rw [hd, List.length_take, List.length_drop]
        omega
      · right; left
        have := hshape _ _ h5
        rw [hz] at this
        rw [(Prod.mk.inj this).1]
        rfl
      · right; right
        have := hshape _ _ h5
        rw [hz] at this
        rw [(Prod.mk.inj this).1]
        have hlen : (pySlice r.m a e).length = e - a := by rw [pySlice_length, hr.m_eq]; omega
        have hce : (r.after a e { r.zip with fed := m.take e, produced := (zl.out (m.take e)).length, tail := [] }
            ((content.drop r.zip.produced).take ((zl.out (m.take e)).length - r.zip.produced))).cwe = e := by
          simp only [Reader.after, hlen]; omega
        refine ⟨⟨?_, ?_, rfl, ?_, ?_⟩, rfl, hce⟩
        · exact hbuf
        · exact heof
        · rw [hce]; simp only [Reader.after]; omega
        · rw [hce]; rfl
    by_cases ht : r.zip.tail = []
    · obtain ⟨e, h1, h3⟩ := readZip_window (zl := zl) r size ht
      rw [ht] at hcwe
      simp at hcwe
      rcases fin r.cwe e (by omega) (by omega) h3 with h4 | h4 | ⟨h4, h5, h6⟩
      · exact .inl h4
      · exact .inr (.inl h4)
      · exact .inr (.inr ⟨h4, fun _ => ⟨h5, by omega⟩⟩)
    · obtain ⟨e, h1, -, h3⟩ := readZip_shape (zl := zl) r size
      rcases fin _ e (by omega) h1 h3 with h4 | h4 | ⟨h4, -, -⟩
      · exact .inl h4
      · exact .inr (.inl h4)
      · exact .inr (.inr ⟨h4, fun h' => absurd h' ht⟩)
  · right; left
    obtain ⟨e, -, -, h3⟩ := readZip_shape (zl := zl) r size
    have h5 := zdec_ended (zl := zl) r.zip heof (pySlice r.m (r.cwe - r.zip.tail.length) e) size hsz
    have := h3 _ _ h5
    rw [hz] at this
    rw [(Prod.mk.inj this).1]
    exact heof

/-- At the end of the content nothing is repeated. -/
theorem done_fine (L : ZlibLaws zl) {m : Bytes} {clen : Nat} {content : Bytes}
    (hm : IsZip zl m clen content) (h : Nat) (r : Reader) (hr : RInv zl m clen content h r)
    (hbuf : r.buf = none) (hend : h + r.br.toNat = content.length) (f : Nat) (n : Int) :
    (r.readCore zl (f + 1) n).2 ≠ .error .diverge := by
  have hb0 := hr.br_nonneg
  have hbs := hr.br_le
  have hwle : r.want n ≤ r.s - r.br := by unfold Reader.want; split <;> omega
  have hw0 : 0 ≤ r.want n := by unfold Reader.want; split <;> omega
  rw [readCore_succ]
  by_cases hz : r.want n = 0
  · rw [if_pos hz]; simp
  · rw [if_neg hz, hbuf]
    obtain ⟨r', d, e, st⟩ := readZip_spec L hm h r hr hbuf (r.want n) (by omega) hwle
    have hd : d = [] := by
      have := congrArg List.length st.data
      rw [List.length_take, List.length_drop] at this
      exact List.length_eq_zero_iff.mp (by omega)
    simp only [Reader.cont, e, hd]
    simp

/-- Output that comes out of `8 * k` further bytes. -/
theorem noStall_rate (L : ZlibLaws zl) {m : Bytes} {clen : Nat} {content : Bytes} (hm : IsZip zl m clen content) {p : Nat}
    (hns : NoStallFrom zl p m) (n : Nat) (hp : p ≤ (zl.out (m.take n)).length) : ∀ k,
    min content.length ((zl.out (m.take n)).length + k) ≤ (zl.out (m.take (n + 8 * k))).length
  | 0 => by simp only [Nat.mul_zero, Nat.add_zero]; omega
  | k + 1 => by
    have ih := noStall_rate L hm hns n hp k
    have hmono := zip_avail_mono L hm (show n ≤ n + 8 * k by omega)
    have hmono8 := zip_avail_mono L hm (show n + 8 * k ≤ n + 8 * (k + 1) by omega)
    rcases Nat.lt_or_ge (zl.out (m.take (n + 8 * k))).length content.length with hlt | hge
    · have := hns (n + 8 * k) (by omega) (by rw [hm.out]; exact hlt)
      rw [show n + 8 * k + 8 = n + 8 * (k + 1) by omega] at this
      omega
    · omega

/-- One level of the recursion in a dry reader. -/
theorem dry_step (L : ZlibLaws zl) {m : Bytes} {clen : Nat} {content : Bytes}
    (hm : IsZip zl m clen content) (h : Nat) (r : Reader) (hr : RInv zl m clen content h r) (hd : Dry zl m r) (f : Nat) (hf : 1 ≤ f)
    (n : Int)
    (next : ∀ r' : Reader, RInv zl m clen content h r' → Dry zl m r' → r.br < r'.br → r'.cws = r.cwe → r.cwe + 8 ≤ r'.cwe →
      (r.cws : Int) + r.want n ≤ r'.cwe → h + r'.br.toNat < content.length →
      r'.want (r.want n - (r'.br - r.br)) = r.want n - (r'.br - r.br) →
      (r'.readCore zl f (r.want n - (r'.br - r.br))).2 ≠ .error .diverge) :
    (r.readCore zl (f + 1) n).2 ≠ .error .diverge := by
  have hb0 := hr.br_nonneg
  have hbs := hr.br_le
  have hwle : r.want n ≤ r.s - r.br := by unfold Reader.want; split <;> omega
  have hw0 : 0 ≤ r.want n := by unfold Reader.want; split <;> omega
  rw [readCore_succ]
  by_cases hz : r.want n = 0
  · rw [if_pos hz]; simp
  · rw [if_neg hz, hd.buf]
    obtain ⟨r', d, e, st⟩ := readZip_spec L hm h r hr hd.buf (r.want n) (by omega) hwle
    have hbr := st.br
    simp only [Reader.cont, e, List.nil_append, List.length_nil]
    by_cases hrec : d ≠ [] ∧ (d.length : Int) - ((0 : Nat) : Int) < r.want n ∧ r'.br < r'.s
    · rw [if_pos hrec]
      obtain ⟨h1, h2, h3⟩ := hrec
      have hlen : 1 ≤ d.length := by
        rcases d with _ | ⟨x, xs⟩
        · exact absurd rfl h1
        · simp
      have hg : (r'.readCore zl f (r.want n - d.length)).2 ≠ .error .diverge := by
        rcases Nat.lt_or_ge (h + r'.br.toNat) content.length with hlt | hge
        · rcases readZip_dry L hm h r hr hd.buf _ (by omega) r' d e with h4 | h4 | ⟨h4, h5⟩
          · omega
          · exfalso
            have h5 := (st.inv.zinv.ended h4).1
            have h6 := st.inv.pos
            have h7 := st.inv.buf_len
            have h8 := st.inv.br_nonneg
            rw [st.buf] at h7; simp at h7
            omega
          · obtain ⟨h5, h6⟩ := h5 hd.tail
            have hw : r.want n - (r'.br - r.br) = r.want n - d.length := by omega
            have hs := st.s
            have := next r' st.inv h4 (by omega) h5 (by omega) (by omega) hlt (by
              rw [hw]; unfold Reader.want at h2 hwle ⊢; rw [if_neg (by omega)]; omega)
            rwa [hw] at this
        · obtain ⟨g, rfl⟩ : ∃ g, f = g + 1 := ⟨f - 1, by omega⟩
          apply done_fine L hm h r' st.inv st.buf
          have h6 := congrArg List.length st.data
          rw [List.length_take, List.length_drop] at h6
          omega
      rcases hx : r'.readCore zl f (r.want n - d.length) with ⟨r3, er | more⟩
      · rw [hx] at hg; simpa using hg
      · simp
    · rw [if_neg hrec]; simp

/-- Dry readers get along with `f` levels for `R` bytes. -/
def Fine (zl : Zlib) (m : Bytes) (clen : Nat) (content : Bytes) (h p f : Nat) (R : Int) : Prop :=
  ∀ (r : Reader) (n : Int), RInv zl m clen content h r → Dry zl m r → p ≤ h + r.br.toNat → r.want n ≤ R →
    (r.readCore zl f n).2 ≠ .error .diverge

theorem Fine.mono {m : Bytes} {clen : Nat} {content : Bytes} {h p f g : Nat} {R S : Int} (hf : Fine zl m clen content h p f R)
    (hfg : f ≤ g) (hR : S ≤ R) : Fine zl m clen content h p g S :=
  fun r n h1 h2 h3 h4 => readCore_fine_mono hfg r n (hf r n h1 h2 h3 (by omega))

theorem fine_one (L : ZlibLaws zl) {m : Bytes} {clen : Nat} {content : Bytes}
    (hm : IsZip zl m clen content) (h p f : Nat) (hf : 1 ≤ f) (R : Int) (hR : Fine zl m clen content h p f (R - 1)) :
    Fine zl m clen content h p (f + 1) R := by
  intro r n hr hd hp hw
  apply dry_step L hm h r hr hd f hf
  intro r' hr' hd' hlt _ _ _ _ hw'
  have := hr.br_nonneg
  apply hR r' _ hr' hd' (by omega)
  rw [hw']; omega

/-- Two levels read at least an eighth of what is left afterwards. -/
theorem fine_two (L : ZlibLaws zl) {m : Bytes} {clen : Nat} {content : Bytes}
    (hm : IsZip zl m clen content) (h p f : Nat) (hns : NoStallFrom zl p m) (hf : 1 ≤ f) (R : Int)
    (hR : ∀ S : Int, 9 * (S - 7) ≤ 8 * (R - 7) → Fine zl m clen content h p f S) :
    Fine zl m clen content h p (f + 2) R := by
  intro r n hr hd hp hw
  have hb0 := hr.br_nonneg
  apply dry_step L hm h r hr hd (f + 1) (by omega)
  intro r' hr' hd' hlt h1 h2 h3 h4 hw'
  apply dry_step L hm h r' hr' hd' f hf
  intro r'' hr'' hd'' hlt' h5 h6 h7 h8 hw''
  rw [hw'] at hw'' h7 ⊢
  have hpr := hr.pos
  have hpr'' := hr''.pos
  have hbl := hr.buf_len
  have hbl'' := hr''.buf_len
  rw [hd.buf] at hbl
  rw [hd''.buf] at hbl''
  simp at hbl hbl''
  have ho := hd.out
  have ho'' := hd''.out
  have hrate := noStall_rate L hm hns r.cwe (by omega) ((r''.cwe - r.cwe) / 8)
  have hmono := zip_avail_mono L hm (show r.cwe + 8 * ((r''.cwe - r.cwe) / 8) ≤ r''.cwe by omega)
  have hwin := hd.win
  apply hR _ _ r'' _ hr'' hd'' (by omega) (Int.le_of_eq hw'')
  omega

/-- Twelve levels halve. -/
theorem fine_twelve (L : ZlibLaws zl) {m : Bytes} {clen : Nat} {content : Bytes}
    (hm : IsZip zl m clen content) (h p f : Nat) (hns : NoStallFrom zl p m) (hf : 1 ≤ f) (R : Int) (hR0 : 7 ≤ R)
    (hR : ∀ S : Int, 2 * (S - 7) ≤ R - 7 → Fine zl m clen content h p f S) :
    Fine zl m clen content h p (f + 12) R := by
  apply fine_two L hm h p (f + 10) hns (by omega) R
  intro S1 h1
  apply fine_two L hm h p (f + 8) hns (by omega) S1
  intro S2 h2
  apply fine_two L hm h p (f + 6) hns (by omega) S2
  intro S3 h3
  apply fine_two L hm h p (f + 4) hns (by omega) S3
  intro S4 h4
  apply fine_two L hm h p (f + 2) hns (by omega) S4
  intro S5 h5
  apply fine_two L hm h p f hns (by omega) S5
  intro S6 h6
  apply hR
  omega

theorem fine_small (L : ZlibLaws zl) {m : Bytes} {clen : Nat} {content : Bytes}
    (hm : IsZip zl m clen content) (h p : Nat) : ∀ j : Nat, Fine zl m clen content h p (j + 1) j
  | 0 => by
    intro r n hr hd _ hw
    have hb0 := hr.br_nonneg
    have hbs := hr.br_le
    have hw0 : 0 ≤ r.want n := by unfold Reader.want; split <;> omega
    rw [readCore_succ, if_pos (by omega)]
    simp
  | j + 1 => fine_one L hm h p (j + 1) (by omega) _ (by
      have := fine_small L hm h p j
      exact this.mono (Nat.le_refl _) (by omega))

theorem fine_log (L : ZlibLaws zl) {m : Bytes} {clen : Nat} {content : Bytes}
    (hm : IsZip zl m clen content) (h p : Nat) (hns : NoStallFrom zl p m) : ∀ (k : Nat) (R : Int), R < 2 ^ k + 7 →
    Fine zl m clen content h p (12 * k + 8) R
  | 0, R, hR => (fine_small L hm h p 7).mono (by omega) (by simp at hR; omega)
  | k + 1, R, hR => by
    rcases Int.lt_or_le R 7 with hs | hs
    · exact (fine_small L hm h p 7).mono (by omega) (by omega)
    · refine (fine_twelve L hm h p (12 * k + 8) hns (by omega) R hs fun S hS => ?_).mono (by omega) (Int.le_refl _)
      apply fine_log L hm h p hns k
      rw [Int.pow_succ] at hR
      omega

/-- Levels of one `read`, in every state. -/
theorem read_fine (L : ZlibLaws zl) {m : Bytes} {clen : Nat} {content : Bytes}
    (hm : IsZip zl m clen content) (h : Nat) (hns : NoStallFrom zl 1 m) (r : Reader) (hr : RInv zl m clen content h r)
    (k : Nat) (hk : r.s - r.br < 2 ^ k + 7) (n : Int) : (r.readCore zl (12 * k + 9) n).2 ≠ .error .diverge := by
  have hb0 := hr.br_nonneg
  have hbs := hr.br_le
  have hwle : r.want n ≤ r.s - r.br := by unfold Reader.want; split <;> omega
  have hw0 : 0 ≤ r.want n := by unfold Reader.want; split <;> omega
  have key : ∀ (r1 : Reader) (dat : Bytes) (size : Int), RInv zl m clen content h r1 → r1.buf = none → r1.s = r.s →
      r1.br = r.br + dat.length → 1 ≤ size → size ≤ r.s - r1.br →
      (Reader.cont zl (12 * k + 8) r1 dat size).2 ≠ .error .diverge := by
    intro r1 dat size hr1 hb1 hs1 hbr1 hsz hss
    have hb10 := hr1.br_nonneg
    obtain ⟨r2, new, e2, st⟩ := readZip_spec L hm h r1 hr1 hb1 size hsz (by omega)
    have hbr2 := st.br
    have hs2 := st.s
    simp only [Reader.cont, e2]
    by_cases hrec : dat ++ new ≠ [] ∧ ((dat ++ new).length : Int) - dat.length < size ∧ r2.br < r2.s
    · rw [if_pos hrec]
      obtain ⟨h1, h2, h3⟩ := hrec
      have hlen : 1 ≤ (dat ++ new).length := by
        rcases hl : dat ++ new with _ | ⟨x, xs⟩
        · exact absurd hl h1
        · simp
      rw [List.length_append] at hlen h2
      have hg : (r2.readCore zl (12 * k + 8) (size - (dat ++ new).length)).2 ≠ .error .diverge := by
        rcases Nat.lt_or_ge (h + r2.br.toNat) content.length with hlt | hge
        · rcases readZip_dry L hm h r1 hr1 hb1 _ (by omega) r2 new e2 with h4 | h4 | ⟨h4, -⟩
          · omega
          · exfalso
            have h5 := (st.inv.zinv.ended h4).1
            have h6 := st.inv.pos
            have h7 := st.inv.buf_len
            rw [st.buf] at h7; simp at h7
            omega
          · apply fine_log L hm h 1 hns k (r2.s - r2.br) (by omega) r2 _ st.inv h4 (by omega)
            unfold Reader.want
            split <;> omega
        · apply done_fine L hm h r2 st.inv st.buf
          have h6 := congrArg List.length st.data
          have h7 := hr1.pos
          have h8 := hr1.buf_len
          rw [hb1] at h8; simp at h8
          rw [List.length_take, List.length_drop] at h6
          have h9 : r2.zip.produced ≤ content.length := by
            rcases hze : r2.zip.eof with _ | _
            · obtain ⟨x, -, -, -, h9, -⟩ := st.inv.zinv.running hze
              have := zip_avail_le L hm x
              omega
            · exact Nat.le_of_eq (st.inv.zinv.ended hze).1
          have h10 := st.inv.pos
          have h11 := st.inv.buf_len
          rw [st.buf] at h11; simp at h11
          omega
      rcases hx : r2.readCore zl (12 * k + 8) (size - (dat ++ new).length) with ⟨r3, er | more⟩
      · rw [hx] at hg; simpa using hg
      · simp
    · rw [if_neg hrec]; simp
  rw [readCore_succ]
  by_cases hz : r.want n = 0
  · rw [if_pos hz]; simp
  · rw [if_neg hz]
    rcases hb : r.buf with _ | b
    · exact key r [] _ hr hb rfl (by simp) (by omega) hwle
    · simp only
      have hbl := hr.buf_len
      have hbe := hr.buf_eq
      rw [hb] at hbl hbe
      simp at hbl hbe
      by_cases hge : r.buflen ≥ r.want n
      · rw [if_pos hge]; simp
      · rw [if_neg hge]
        refine key _ b _ ?_ rfl rfl (by simp only; omega) (by omega) (by simp only; omega)
        constructor
        · exact hr.m_eq
        · exact hr.zinv
        · simp only; omega
        · simp only; omega
        · have := hr.pos; simp only; omega
        · simp
        · simp
        · exact hr.cbr_eq

/-- A stream of which every window of a `read` has one byte of output. -/
theorem thin_deep (L : ZlibLaws zl) {m : Bytes} {clen : Nat} {content : Bytes} (hm : IsZip zl m clen content) (e : Nat → Nat)
    (he : ∀ i, i < content.length → e (i + 1) = max (e i + 8) (e (i - 1) + (content.length - i)))
    (hout : ∀ i, i < content.length → (zl.out (m.take (e i))).length = i) : ∀ (f i : Nat) (r : Reader) (n : Int),
    RInv zl m clen content 0 r → Dry zl m r → r.br = i → r.s = content.length → r.cws = e (i - 1) → r.cwe = e i →
    r.want n = (content.length : Int) - i → i + f < content.length → (r.readCore zl f n).2 = .error .diverge := by
  intro f
  induction f with
  | zero => intros; rfl
  | succ f ih =>
    intro i r n hr hd hbr hs hcs hce hw hi
    rw [readCore_succ, if_neg (by omega), hd.buf]
    obtain ⟨r', d, e1, st⟩ := readZip_spec L hm 0 r hr hd.buf (r.want n) (by omega) (by omega)
    have hbr' := st.br
    have hs' := st.s
    have hpos := hr.pos
    have hpos' := st.inv.pos
    have hbl := hr.buf_len
    have hbl' := st.inv.buf_len
    rw [hd.buf] at hbl
    rw [st.buf] at hbl'
    simp at hbl hbl'
    have hei := he i (by omega)
    have ho := hout (i + 1) (by omega)
    have hd1 : Dry zl m r' ∧ r'.cws = r.cwe ∧ r'.cwe = e (i + 1) ∧ d.length = 1 := by
      rcases readZip_dry L hm 0 r hr hd.buf _ (by omega) r' d e1 with h4 | h4 | ⟨h4, h5⟩
      · exfalso
        obtain ⟨n', h6, h7, h8, h9, -⟩ := hr.zinv.running hd.eof
        have ht := hd.tail
        rw [ht] at h8
        simp at h8
        obtain ⟨w, hw1, hw2⟩ := readZip_window (zl := zl) r (r.want n) ht
        have hwe : w = e (i + 1) := by omega
        rw [hr.m_eq] at hw2
        have h10 := zdec_running L hm r.zip hd.eof hr.zinv.sane n' h6 h7 w (by omega) (r.want n) (by omega)
        rw [hwe, ho, show n' = r.cwe by omega] at h10
        rw [hwe] at hw2
        rcases h10 with ⟨t, h11, -⟩ | ⟨h11, h12, h13⟩ | ⟨h11, h12, h13⟩
        · omega
        · have := congrArg List.length (zip_out_ge L hm h12)
          omega
        · have := hw2 _ _ h13
          rw [e1] at this
          have hd2 := (Prod.mk.inj this).2
          injection hd2 with hd2
          have := congrArg List.length hd2
          rw [List.length_take, List.length_drop] at this
          omega
      · exfalso
        have h5 := (st.inv.zinv.ended h4).1
        have h6 := st.bounded
        obtain ⟨n', h7, h8, h9, h10, -⟩ := hr.zinv.running hd.eof
        have ht := hd.tail
        rw [ht] at h9
        simp at h9
        obtain ⟨w, hw1, hw2⟩ := readZip_window (zl := zl) r (r.want n) ht
        have hwe : w = e (i + 1) := by omega
        rw [hr.m_eq] at hw2
        have h10 := zdec_running L hm r.zip hd.eof hr.zinv.sane n' h7 h8 w (by omega) (r.want n) (by omega)
        rw [hwe, ho, show n' = r.cwe by omega] at h10
        rw [hwe] at hw2
        rcases h10 with ⟨t, h11, -⟩ | ⟨h11, h12, h13⟩ | ⟨h11, h12, h13⟩
        · omega
        · have := congrArg List.length (zip_out_ge L hm h12)
          omega
        · have := hw2 _ _ h13
          rw [e1] at this
          rw [(Prod.mk.inj this).1] at h4
          have heof := hd.eof
          simp only [Reader.after] at h4
          rw [heof] at h4
          cases h4
      · obtain ⟨h5, h6⟩ := h5 hd.tail
        have h7 : r'.cwe = e (i + 1) := by omega
        refine ⟨h4, h5, h7, ?_⟩
        have h8 := h4.out
        rw [h7, ho] at h8
        omega
    obtain ⟨hd', hcs', hce', hdl⟩ := hd1
    have hne : d ≠ [] := by intro h0; rw [h0] at hdl; simp at hdl
    simp only [Reader.cont, e1, List.nil_append, List.length_nil]
    rw [if_pos ⟨hne, by omega, by omega⟩]
    have hw' : r'.want (r.want n - d.length) = (content.length : Int) - (i + 1 : Nat) := by
      unfold Reader.want
      rw [if_neg]
      · have : r.want n = (content.length : Int) - i := hw
        unfold Reader.want at this
        omega
      · have : r.want n = (content.length : Int) - i := hw
        unfold Reader.want at this
        omega
    have := ih (i + 1) r' (r.want n - d.length) st.inv hd' (by omega) (by omega) (by rw [hcs', hce]; rfl) hce' hw' (by omega)
    rcases hx : r'.readCore zl f (r.want n - d.length) with ⟨r3, er | more⟩
    · rw [hx] at this; simp at this; simp [this]
    · rw [hx] at this; simp at this

end GitDB
