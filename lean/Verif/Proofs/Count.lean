import Verif.Proofs.DecompUse
/-!
# The count of compressed bytes after any reads

After the end of the stream was seen the count is short by the length of `unconsumed_tail`, which is then empty or a copy of
`unused_data`.
-/
set_option autoImplicit false

namespace GitDB
open Spec

variable {zl : Zlib}

/-- The count after the end of the stream. -/
def Count (clen : Nat) (r : Reader) : Prop :=
  r.zip.eof = true → r.cbr = (clen : Int) - r.zip.tail.length ∧ r.cwe = clen + r.zip.unused.length ∧
    (r.zip.tail = [] ∨ r.zip.tail = r.zip.unused)

/-- What zlib does before the end of the stream. -/
theorem readZip_count (L : ZlibLaws zl) {m : Bytes} {clen : Nat} {content : Bytes} (hm : IsZip zl m clen content) (h : Nat) (r : Reader)
    (hr : RInv zl m clen content h r) (size : Int) (hsz : 1 ≤ size) (hc : Count clen r) (hu : r.zip.eof = true → r.zip.unused = [])
    (r' : Reader) (d : Bytes) (hz : r.readZip zl size = (r', .ok d)) : Count clen r' := by
  obtain ⟨e, he8, hes, hshape⟩ := readZip_shape (zl := zl) r size
  have hcl := zip_clen_le L hm
  rw [hr.m_eq] at hshape
  generalize ha : r.cwe - r.zip.tail.length = a at *
  rcases heof : r.zip.eof with _ | _
  · obtain ⟨n, hfed, hn, hcwe, hp, hun⟩ := hr.zinv.running heof
    have han : a = n := by omega
    subst han
    have hcbr := hr.cbr_eq heof
    rw [hfed, List.length_take] at hcbr
    rcases zdec_running L hm r.zip heof hr.zinv.sane a hfed hn e (by omega) size hsz with
      ⟨t, h1, h2, h3, h4, h5⟩ | ⟨h1, h2, h5⟩ | ⟨h1, h2, h5⟩
    · have := hshape _ _ h5
      rw [hz] at this
      cases this
      intro h'
      simp [Reader.after, heof] at h'
    · have := hshape _ _ h5
      rw [hz] at this
      cases this
      intro _
      simp only [Reader.after, hr.m_eq, pySlice_length, hcbr]
      split
      · simp only [List.length_nil]
        exact ⟨by omega, by omega, .inl trivial⟩
      · simp only [pySlice_length]
        exact ⟨by omega, by omega, .inr trivial⟩
    · have := hshape _ _ h5
      rw [hz] at this
      cases this
      intro h'
      simp [Reader.after, heof] at h'
  · have h5 := zdec_ended (zl := zl) r.zip heof (pySlice m a e) size hsz
    have := hshape _ _ h5
    rw [hz] at this
    cases this
    obtain ⟨c1, c2, c3⟩ := hc heof
    have hu := hu heof
    have ht : r.zip.tail = [] := by rcases c3 with c3 | c3 <;> simp [c3, hu]
    rw [hu] at c2
    rw [ht] at ha c1
    simp only [List.length_nil] at ha c1 c2
    intro _
    simp only [Reader.after, hr.m_eq, ht, hu, if_true, pySlice_length, List.nil_append, List.length_nil]
    have := hr.zinv.cwe_le
    exact ⟨by omega, by omega, .inl trivial⟩

/-- What calls of zlib keep, reads keep. -/
theorem readCore_keeps (L : ZlibLaws zl) {m : Bytes} {clen : Nat} {content : Bytes} (hm : IsZip zl m clen content) (h : Nat) (s : Int)
    (P : Reader → Prop) (hP : ∀ r b bl br, P r → P { r with buf := b, buflen := bl, br := br })
    (hz : ∀ r size r' d, RInv zl m clen content h r → r.buf = none → r.s = s → 1 ≤ size → size ≤ r.s - r.br → P r →
      r.readZip zl size = (r', .ok d) → P r') :
    ∀ (fuel : Nat) (r : Reader) (n : Int) (r' : Reader) (d : Bytes), RInv zl m clen content h r → r.s = s → P r →
      r.readCore zl fuel n = (r', .ok d) → P r' := by
  intro fuel
  induction fuel with
  | zero => intro r n r' d _ _ _ e; simp [Reader.readCore] at e
  | succ fuel ih =>
    intro r n r' d hr hs hp e
    have hb0 := hr.br_nonneg
    have hbs := hr.br_le
    have hwle : r.want n ≤ r.s - r.br := by unfold Reader.want; split <;> omega
    have hw0 : 0 ≤ r.want n := by unfold Reader.want; split <;> omega
    have key : ∀ (r1 : Reader) (dat : Bytes) (size : Int), RInv zl m clen content h r1 → r1.buf = none → r1.s = s → 1 ≤ size →
        size ≤ r1.s - r1.br → P r1 → Reader.cont zl fuel r1 dat size = (r', .ok d) → P r' := by
      intro r1 dat size hr1 hb1 hs1 h1 h2 hp1 e
      obtain ⟨r2, new, e2, st⟩ := readZip_spec L hm h r1 hr1 hb1 size h1 h2
      have hp2 := hz r1 size r2 new hr1 hb1 hs1 h1 h2 hp1 e2
      unfold Reader.cont at e
      rw [e2] at e
      simp only at e
      split at e
      · split at e
        · simp at e
        · rename_i e3
          simp only [Prod.mk.injEq] at e
          obtain ⟨rfl, -⟩ := e
          exact ih r2 _ _ _ st.inv (by rw [st.s, hs1]) hp2 e3
      · simp only [Prod.mk.injEq] at e
        obtain ⟨rfl, -⟩ := e
        exact hp2
    rw [readCore_succ] at e
    split at e
    · cases e; exact hp
    · rename_i hne
      rcases hb : r.buf with _ | b
      · simp only [hb] at e
        exact key r [] _ hr hb hs (by omega) hwle hp e
      · simp only [hb] at e
        split at e
        · simp only [Prod.mk.injEq] at e
          obtain ⟨rfl, -⟩ := e
          exact hP _ _ _ _ hp
        · rename_i hge
          have hbl := hr.buf_len
          rw [hb] at hbl
          simp at hbl
          refine key { r with br := r.br + r.buflen, buflen := 0, buf := none } b (r.want n - r.buflen) ?_ rfl hs (by omega)
            (by simp only; omega) (hP _ _ _ _ hp) e
          constructor
          · exact hr.m_eq
          · exact hr.zinv
          · simp only; omega
          · simp only; omega
          · simp only; have := hr.pos; omega
          · simp
          · simp
          · exact hr.cbr_eq

theorem readMany_keeps (L : ZlibLaws zl) {m : Bytes} {clen : Nat} {content : Bytes} (hm : IsZip zl m clen content) (h : Nat) (s : Int)
    (P : Reader → Prop) (hP : ∀ r b bl br, P r → P { r with buf := b, buflen := bl, br := br })
    (hz : ∀ r size r' d, RInv zl m clen content h r → r.buf = none → r.s = s → 1 ≤ size → size ≤ r.s - r.br → P r →
      r.readZip zl size = (r', .ok d) → P r') :
    ∀ (ns : List Int) (r r' : Reader) (ps : List Bytes), RInv zl m clen content h r → r.s = s → r.hasS = true → P r →
      readMany (Reader.read zl) r ns = (r', .ok ps) → P r'
  | [], r, r', ps, _, _, _, hp, e => by cases e; exact hp
  | n :: ns, r, r', ps, hr, hs, hS, hp, e => by
    obtain ⟨r1, d, e1, st⟩ := read_spec L hm h r n hr hS
    obtain ⟨r2, ps2, e2, -⟩ := readMany_reader L hm h ns r1 st.inv (by rw [st.hasS]; exact hS)
    simp only [readMany, e1, e2] at e
    cases e
    refine readMany_keeps L hm h s P hP hz ns r1 _ _ st.inv (by rw [st.s, hs]) (by rw [st.hasS]; exact hS) ?_ e2
    unfold Reader.read Reader.needS at e1
    rw [if_pos hS] at e1
    exact readCore_keeps L hm h s P hP hz _ _ _ _ _ hr hs hp e1

/-- Reads with the size of the content never call zlib after the end of the stream. -/
theorem count_keeps (L : ZlibLaws zl) {m : Bytes} {clen : Nat} {content : Bytes} (hm : IsZip zl m clen content) (h : Nat) (s : Int)
    (hs : h + s = content.length) (r : Reader) (size : Int) (r' : Reader) (d : Bytes) (hr : RInv zl m clen content h r) (hb : r.buf = none)
    (hrs : r.s = s) (h1 : 1 ≤ size) (h2 : size ≤ r.s - r.br) (hc : Count clen r) (e : r.readZip zl size = (r', .ok d)) : Count clen r' := by
  refine readZip_count L hm h r hr size h1 hc (fun h4 => ?_) r' d e
  have h5 := (hr.zinv.ended h4).1
  have h6 := hr.pos
  have h7 := hr.buf_len
  rw [hb] at h7
  simp at h7
  omega

/-- The loop that reads on until unused data shows up. -/
theorem scrub_count (L : ZlibLaws zl) {m : Bytes} {clen : Nat} {content : Bytes}
    (hm : IsZip zl m clen content) : ∀ (fuel : Nat) (r : Reader),
    RInv zl m clen content 0 { r with br := content.length, s := content.length } → r.br = 0 → 1 ≤ r.s →
    r.buf.getD [] = [] → Count clen r →
    (if r.zip.eof = true then (if r.zip.unused = [] then 2 else 1) else m.length + 3 - r.cbr.toNat) ≤ fuel →
    ∃ r', r.scrub zl fuel = (r', .ok ()) ∧ r'.zip.eof = true ∧ Count clen r' ∧ r'.cwe ≤ m.length ∧ r'.s = r.s := by
  intro fuel
  induction fuel with
  | zero =>
    intro r hr _ _ _ _ hf
    have hcl := zip_clen_le L hm
    split at hf
    · split at hf <;> omega
    · rename_i heof
      simp only [Bool.not_eq_true] at heof
      have h1 := hr.cbr_eq heof
      obtain ⟨n, h2, h3, _⟩ := hr.zinv.running heof
      simp only at h1 h2
      rw [h2, List.length_take] at h1
      omega
  | succ fuel ih =>
    intro r hr hbr hs hbuf hcl hf
    have hcle := zip_clen_le L hm
    have hm' := hr.m_eq
    simp only at hm'
    have hbl : r.buflen = 0 := by
      have := hr.buf_len
      simp only [hbuf, List.length_nil] at this
      exact this.symm
    rw [Reader.scrub]
    by_cases hstop : r.zip.unused = [] ∧ r.cbr ≠ r.m.length
    · rw [if_pos hstop]
      -- one more read
      have hw : r.want (PAGESIZE : Nat) = min ((PAGESIZE : Nat) : Int) r.s := by
        unfold Reader.want
        rw [if_neg (by simp [PAGESIZE]), hbr]
        simp
      have hw1 : 1 ≤ r.want (PAGESIZE : Nat) := by rw [hw]; simp only [PAGESIZE]; omega
      generalize hk : r.want (PAGESIZE : Nat) = k at hw hw1
      have hinv : RInv zl m clen content 0 { r with buf := none, br := content.length, s := content.length + k } := by
        constructor
        · exact hr.m_eq
        · exact hr.zinv
        · simp
        · simp only; omega
        · exact hr.pos
        · simp [hbl]
        · simp [hbl]
        · exact hr.cbr_eq
      obtain ⟨r1, d, e1, st⟩ := readZip_spec L hm 0 _ hinv rfl k hw1 (by simp only; omega)
      have hd : d = [] := by
        have := st.data
        rw [List.drop_eq_nil_of_le (by simp)] at this
        simpa using this
      subst hd
      have e2 := readZip_br { r with buf := none } _ _ _ _ _ e1
      have hc1 := readZip_count L hm 0 _ hinv k hw1 hcl (fun _ => hstop.1) _ _ e1
      have hcore : r.readCore zl r.fuel (PAGESIZE : Nat) =
          ({ r1 with br := r.br + ([] : Bytes).length, s := r.s }, .ok []) := by
        unfold Reader.fuel
        rw [readCore_succ, if_neg (by omega)]
        rcases hb : r.buf with _ | b
        · simp only
          rw [show r = { r with buf := none } by rw [← hb]] at hk ⊢
          unfold Reader.cont
          rw [hk, e2]
          simp
        · rw [hb] at hbuf
          have hbuf : b = [] := hbuf
          subst hbuf
          simp only
          rw [if_neg (by omega), hbl, Int.add_zero, Int.sub_zero,
            show ({ r with br := r.br, buflen := 0, buf := none } : Reader) = { r with buf := none } by rw [← hbl]]
          unfold Reader.cont
          rw [hk, e2]
          simp
      rw [hcore]
      simp only [List.length_nil, Int.natCast_zero, Int.add_zero]
      have hb := st.br
      simp only [List.length_nil, Int.natCast_zero, Int.add_zero] at hb
      obtain ⟨r', e3, e4, e5, e6, e7⟩ := ih { r1 with br := r.br, s := r.s } (by
          have := st.inv
          constructor
          · exact this.m_eq
          · exact this.zinv
          · simp
          · simp
          · have := this.pos; rw [hb] at this; exact this
          · exact this.buf_len
          · have := this.buf_eq; rw [hb] at this; exact this
          · exact this.cbr_eq)
        hbr hs (by simp only [st.buf]; rfl) hc1 (by
          simp only
          rcases heof : r.zip.eof with _ | _
          · rw [heof] at hf
            simp only [Bool.false_eq_true, if_false] at hf
            have h1 := hr.cbr_eq heof
            obtain ⟨n, h2, h3, _⟩ := hr.zinv.running heof
            simp only at h1 h2
            rw [h2, List.length_take] at h1
            rcases heof1 : r1.zip.eof with _ | _
            · have := st.advance heof heof1 (by simp only; omega)
              simp only at this
              simp only [Bool.false_eq_true, if_false]
              omega
            · simp only [if_true]
              split <;> omega
          · rw [heof] at hf
            have h1 := st.eof heof
            obtain ⟨c1, c2, c3⟩ := hcl heof
            have ht : r.zip.tail = [] := by rcases c3 with c3 | c3 <;> simp [c3, hstop.1]
            have h2 : r.cbr = clen := by rw [c1, ht]; simp
            have h3 := h1.2.2 (by
              rw [h2, hm'] at hstop
              omega) ⟨ht, fun _ => ⟨h2, c2⟩⟩ hstop.1
            rw [h1.1, if_pos rfl, if_neg h3]
            simp only [if_true, hstop.1] at hf
            omega)
      exact ⟨r', e3, e4, e5, e6, e7⟩
    · rw [if_neg hstop]
      refine ⟨r, rfl, ?_, hcl, hr.zinv.cwe_le, rfl⟩
      rcases heof : r.zip.eof with _ | _
      · obtain ⟨n, h1, h2, h3, h4, h5⟩ := hr.zinv.running heof
        have h6 := hr.cbr_eq heof
        simp only at h1 h5 h6
        rw [h1, List.length_take] at h6
        exact absurd ⟨h5, by rw [hm']; omega⟩ hstop
      · rfl

/-- The compressed size after everything was read. -/
theorem compressedBytesRead_count (L : ZlibLaws zl) {m : Bytes} {clen : Nat} {content : Bytes}
    (hm : IsZip zl m clen content) (h : Nat) (r : Reader) (hr : RInv zl m clen content h r) (hS : r.hasS = true)
    (hs : h + r.s = content.length) (hpos : 1 ≤ r.s) (hbr : r.br = r.s)
    (hcl : Count clen r) (fuel : Nat) (hf : m.length + 3 ≤ fuel) :
    ∃ r', r.compressedBytesRead zl fuel = (r', .ok ((clen : Int) - r'.zip.tail.length)) ∧ r'.zip.eof = true ∧
      r'.cwe = clen + r'.zip.unused.length ∧ r'.cwe ≤ m.length ∧ (r'.zip.tail = [] ∨ r'.zip.tail = r'.zip.unused) := by
  have hbl : r.buflen = 0 := by
    have h1 := hr.pos
    have h2 := hr.buf_len
    rcases heof : r.zip.eof with _ | _
    · obtain ⟨n, -, -, -, h3, -⟩ := hr.zinv.running heof
      have := zip_avail_le L hm n
      omega
    · have := (hr.zinv.ended heof).1
      omega
  unfold Reader.compressedBytesRead Reader.needS
  rw [if_pos hS]
  simp only
  by_cases hu : r.zip.unused = []
  · rw [if_pos ⟨hbr, hu⟩]
    obtain ⟨r', e1, e2, e3, e4, e5⟩ := scrub_count L hm fuel { r with br := 0 } (by
        constructor
        · exact hr.m_eq
        · exact hr.zinv
        · simp
        · simp
        · have := hr.pos; simp only; omega
        · exact hr.buf_len
        · have := hr.buf_eq; rw [hbl] at this ⊢; simpa using this
        · exact hr.cbr_eq) rfl hpos (by
          have := hr.buf_len
          rw [hbl] at this
          exact List.length_eq_zero_iff.mp (by simpa using this)) hcl (by
          simp only
          repeat' split
          all_goals omega)
    rw [e1]
    obtain ⟨c1, c2, c3⟩ := e3 e2
    exact ⟨{ r' with br := r'.s }, by simp only [c1], e2, c2, e4, c3⟩
  · rw [if_neg (by simp [hu])]
    have heof : r.zip.eof = true := by
      rcases h : r.zip.eof with _ | _
      · obtain ⟨n, _, _, _, _, h5⟩ := hr.zinv.running h
        exact absurd h5 hu
      · rfl
    obtain ⟨c1, c2, c3⟩ := hcl heof
    exact ⟨r, by rw [c1], heof, c2, hr.zinv.cwe_le, c3⟩

end GitDB
