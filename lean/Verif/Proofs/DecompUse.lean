import Verif.Proofs.Decomp
import Verif.Proofs.Names
/-!
# Using the decompressing reader: fresh readers, headers, rewinding, compressed size
-/
set_option autoImplicit false

namespace GitDB
open Spec

variable {zl : Zlib}

section
variable (L : ZlibLaws zl) {m : Bytes} {clen : Nat} {content : Bytes} (hm : IsZip zl m clen content)
include L hm
set_option linter.unusedSectionVars false

/-- The initial state of the decompressor. -/
theorem zinv_init (hpos : 0 < clen) : ZInv zl m clen content {} 0 where
  cwe_le := Nat.zero_le _
  sane := rfl
  running _ := ⟨0, by simp, hpos, by simp, by simp, rfl⟩
  ended h := by simp at h

/-- A complete stream is not empty, unless the empty string is one. -/
theorem zip_clen_pos : 0 < clen := by
  apply Nat.pos_of_ne_zero
  intro h
  have := zip_stop_ge L hm (b := 0) (by omega)
  simp [L.stop_nil] at this

/-- A new reader with given size. -/
theorem rinv_ofSize (size : Int) (hs : 0 ≤ size) :
    RInv zl m clen content 0 (Reader.ofSize m size) where
  m_eq := rfl
  zinv := zinv_init L hm (zip_clen_pos L hm)
  br_nonneg := Int.le_refl _
  br_le := hs
  pos := rfl
  buf_len := rfl
  buf_eq := by simp [Reader.ofSize]
  cbr_eq _ := rfl
end

theorem readCore_fuel (L : ZlibLaws zl) {m : Bytes} {clen : Nat} {content : Bytes}
    (hm : IsZip zl m clen content) (h : Nat) (r : Reader) (n : Int) (hr : RInv zl m clen content h r) :
    ∃ r' d, r.readCore zl r.fuel n = (r', .ok d) ∧ ReadStep zl m clen content h r n r' d :=
  readCore_spec L hm h _ r n hr (by unfold Reader.fuel; omega)

theorem read_spec (L : ZlibLaws zl) {m : Bytes} {clen : Nat} {content : Bytes}
    (hm : IsZip zl m clen content) (h : Nat) (r : Reader) (n : Int) (hr : RInv zl m clen content h r)
    (hs : r.hasS = true) :
    ∃ r' d, r.read zl n = (r', .ok d) ∧ ReadStep zl m clen content h r n r' d := by
  unfold Reader.read Reader.needS
  rw [if_pos hs]
  exact readCore_fuel L hm h r n hr

/-- A sequence of reads. -/
theorem readMany_reader (L : ZlibLaws zl) {m : Bytes} {clen : Nat} {content : Bytes}
    (hm : IsZip zl m clen content) (h : Nat) : ∀ (ns : List Int) (r : Reader),
    RInv zl m clen content h r → r.hasS = true →
    ∃ r' ps, readMany (Reader.read zl) r ns = (r', .ok ps) ∧ RInv zl m clen content h r' ∧
      ps.flatten = (content.drop (h + r.br.toNat)).take ps.flatten.length ∧
      r'.br = r.br + ps.flatten.length ∧ r'.s = r.s ∧ r'.hasS = true ∧ r'.phi = r.phi ∧
      (r.buf = none → r'.buf = none) ∧
      (r.buf = none → h + r.s = content.length → (∀ n ∈ ns, n < 1 ∨ r.s ≤ n) → Clean clen r →
        Clean clen r') := by
  intro ns
  induction ns with
  | nil =>
    intro r hr hs
    exact ⟨r, [], rfl, hr, by simp, by simp, rfl, hs, rfl, fun h => h, fun _ _ _ h => h⟩
  | cons n ns ih =>
    intro r hr hs
    obtain ⟨r1, d, e1, st⟩ := read_spec L hm h r n hr hs
    obtain ⟨r2, ps, e2, i1, i2, i3, i4, i5, i6, i7, i8⟩ := ih r1 st.inv (by rw [st.hasS]; exact hs)
    have hb0 := hr.br_nonneg
    have hbr := st.br
    refine ⟨r2, d :: ps, by simp only [readMany, e1, e2], i1, ?_, ?_, ?_, i5, ?_, ?_, ?_⟩
    · rw [List.flatten_cons]
      apply take_take_drop _ _ _ _ st.data
      rwa [show h + r1.br.toNat = h + r.br.toNat + d.length by omega] at i2
    · rw [i3, hbr, List.flatten_cons, List.length_append]; omega
    · rw [i4, st.s]
    · rw [i6, st.phi]
    · intro hb; exact i7 (st.nobuf hb)
    · intro hb hc hall hcl
      apply i8 (st.nobuf hb)
      · rw [st.s]; exact hc
      · intro k hk; rw [st.s]; exact hall k (List.mem_cons_of_mem _ hk)
      · apply st.clean hb hc _ hcl
        unfold Reader.want
        have := hall n List.mem_cons_self
        split <;> omega

/-- Parsing the header with an empty header buffer.  `hl` bytes of header must come out of the first
8192 bytes. -/
theorem parseHeaderInfo_size (L : ZlibLaws zl) {m : Bytes} {clen : Nat} (ty ds data : Bytes) (size : Nat)
    (hd : IsDecimal ds size) (ht : ∀ c ∈ ty, c ≠ 0x20 ∧ c ≠ 0)
    (hm : IsZip zl m clen (ty ++ [0x20] ++ ds ++ [0] ++ data)) (r : Reader)
    (hr : RInv zl m clen (ty ++ [0x20] ++ ds ++ [0] ++ data) 0 { r with s := maxHeader, hasS := true })
    (hbuf : r.buf = none) (hbr : r.br = 0) (hcw : r.cws = 0 ∧ r.cwe = 0)
    (hl : (ty ++ [0x20] ++ ds ++ [0]).length ≤ min maxHeader (zl.out (m.take maxHeader)).length) :
    ∃ r', r.parseHeaderInfo zl = (r', .ok (ty, (size : Int))) ∧
      RInv zl m clen (ty ++ [0x20] ++ ds ++ [0] ++ data) (ty ++ [0x20] ++ ds ++ [0]).length r' ∧
      r'.br = 0 ∧ r'.s = size ∧ r'.hasS = true ∧ r'.phi = true ∧ r'.buf ≠ none ∧
      (NoStall zl m ∨ clen ≤ maxHeader → r'.buflen =
        min (maxHeader : Int) (ty ++ [0x20] ++ ds ++ [0] ++ data).length -
          (ty ++ [0x20] ++ ds ++ [0]).length) := by
  obtain ⟨r1, hdr, e1, st⟩ := readCore_fuel L hm 0 _ maxHeader hr
  have hwant : ({ r with s := maxHeader, hasS := true } : Reader).want maxHeader = maxHeader := by
    unfold Reader.want
    simp only [hbr]
    split <;> simp
  have htail : r.zip.tail = [] := by
    rcases hz : r.zip.eof with _ | _
    · obtain ⟨n, h1, h2, h3, h4⟩ := hr.zinv.running hz
      simp only [hcw.2] at h3
      exact List.length_eq_zero_iff.mp (by omega)
    · have := (hr.zinv.ended hz).2
      simp only [hcw.2] at this
      exact List.length_eq_zero_iff.mp (by omega)
  have hleast := st.least hbuf (Or.inr (by simp [hcw]))
  rw [hwant] at hleast
  simp only [hcw.2, htail, hbr] at hleast
  simp only [List.length_nil, Nat.sub_zero, Nat.zero_add, Int.toNat_natCast, Int.toNat_zero] at hleast
  have hdata := st.data
  simp only [hbr, Int.toNat_zero, Nat.zero_add, List.drop_zero] at hdata
  have hlen := congrArg List.length hdata
  rw [List.length_take] at hlen
  have hbound := st.bounded hbuf
  rw [hwant] at hbound
  generalize hH : ty ++ [0x20] ++ ds ++ [0] = H at *
  have hsplit : hdr = H ++ data.take (hdr.length - H.length) := by
    conv => lhs; rw [hdata]
    rw [List.take_append, List.take_of_length_le (by omega)]
  have hparse : parseObjectHeader hdr = .ok (ty, (size : Int), H.length) := by
    rw [hsplit, ← hH]
    exact parseObjectHeader_spec ty ds _ size hd ht
  refine ⟨{ r1 with s := size, br := 0, buf := some (hdr.drop H.length),
                    buflen := hdr.length - H.length, phi := true }, ?_, ?_, ?_⟩
  · unfold Reader.parseHeaderInfo
    simp only [e1, hparse]
  · have hp := st.inv.pos
    have hb1 := st.nobuf hbuf
    have hb2 := st.inv.buf_len
    rw [hb1] at hb2
    simp at hb2
    have hb3 := st.br
    simp only [hbr] at hb3
    constructor
    · exact st.inv.m_eq
    · exact st.inv.zinv
    · simp
    · simp
    · simp only; omega
    · simp only [Option.getD_some, List.length_drop]; omega
    · simp only [Option.getD_some]
      rw [Int.toNat_zero, Nat.add_zero, List.drop_left]
      conv => lhs; rw [hsplit]
      rw [List.drop_left]
      congr 1; omega
    · exact st.inv.cbr_eq
  · refine ⟨rfl, rfl, by simp only; exact st.hasS, rfl, by simp, ?_⟩
    intro hor
    have : (hdr.length : Int) = min (maxHeader : Int) (H ++ data).length := by
      rcases hor with hns | hcl
      · have := st.exact hns hbuf
        rw [hwant, hbr] at this
        simpa using this
      · rw [zip_out_ge L hm hcl] at hleast
        omega
    simp only
    rw [this]

theorem parseHeaderInfo_spec (L : ZlibLaws zl) {m : Bytes} {clen : Nat} (ty ds data : Bytes)
    (hd : IsDecimal ds data.length) (ht : ∀ c ∈ ty, c ≠ 0x20 ∧ c ≠ 0)
    (hm : IsZip zl m clen (ty ++ [0x20] ++ ds ++ [0] ++ data)) (r : Reader)
    (hr : RInv zl m clen (ty ++ [0x20] ++ ds ++ [0] ++ data) 0 { r with s := maxHeader, hasS := true })
    (hbuf : r.buf = none) (hbr : r.br = 0) (hcw : r.cws = 0 ∧ r.cwe = 0)
    (hl : (ty ++ [0x20] ++ ds ++ [0]).length ≤ min maxHeader (zl.out (m.take maxHeader)).length) :
    ∃ r', r.parseHeaderInfo zl = (r', .ok (ty, (data.length : Int))) ∧
      RInv zl m clen (ty ++ [0x20] ++ ds ++ [0] ++ data) (ty ++ [0x20] ++ ds ++ [0]).length r' ∧
      r'.br = 0 ∧ r'.s = data.length ∧ r'.hasS = true ∧ r'.phi = true ∧ r'.buf ≠ none ∧
      (NoStall zl m ∨ clen ≤ maxHeader → r'.buflen =
        min (maxHeader : Int) (ty ++ [0x20] ++ ds ++ [0] ++ data).length -
          (ty ++ [0x20] ++ ds ++ [0]).length) :=
  parseHeaderInfo_size L ty ds data data.length hd ht hm r hr hbuf hbr hcw hl

/-! ### the compressed size -/

/-- `_br` and `_s` do not influence the call of zlib. -/
theorem readZip_br (r : Reader) (b s size : Int) (r' : Reader) (d : Bytes)
    (h : ({ r with br := b, s := s } : Reader).readZip zl size = (r', .ok d)) :
    r.readZip zl size = ({ r' with br := r.br + d.length, s := r.s }, .ok d) := by
  unfold Reader.readZip at h ⊢
  simp only at h ⊢
  generalize pySlice r.m _ _ = w at h ⊢
  rcases hd : r.zip.decompress zl w size with ⟨z, e | d'⟩
  · simp only [hd] at h
    simp at h
  · simp only [hd] at h ⊢
    simp only [Prod.mk.injEq, Except.ok.injEq] at h
    obtain ⟨h1, h2⟩ := h
    subst h1
    subst h2
    rfl

/-- The loop that reads on until unused data shows up. -/
theorem scrub_spec (L : ZlibLaws zl) {m : Bytes} {clen : Nat} {content : Bytes}
    (hm : IsZip zl m clen content) : ∀ (fuel : Nat) (r : Reader),
    RInv zl m clen content 0 { r with br := content.length, s := content.length } → r.br = 0 → 1 ≤ r.s →
    r.buf = none → Clean clen r →
    (if r.zip.eof = true then (if r.zip.unused = [] then 2 else 1) else m.length + 3 - r.cbr.toNat) ≤ fuel →
    ∃ r', r.scrub zl fuel = (r', .ok ()) ∧ r'.cbr = clen ∧ r'.s = r.s := by
  intro fuel
  induction fuel with
  | zero =>
    intro r hr _ _ _ _ hf
    have hcl := zip_clen_le L hm
    split at hf
    · split at hf <;> omega
    · rename_i heof
      simp only [Bool.not_eq_true] at heof
      have h1 := hr.cbr_eq heof
      obtain ⟨n, h2, h3, _⟩ := hr.zinv.running heof
      simp only at h1 h2
      rw [h2, List.length_take] at h1
      omega
  | succ fuel ih =>
    intro r hr hbr hs hbuf hcl hf
    have hcle := zip_clen_le L hm
    have hm' := hr.m_eq
    simp only at hm'
    rw [Reader.scrub]
    by_cases hstop : r.zip.unused = [] ∧ r.cbr ≠ r.m.length
    · rw [if_pos hstop]
      -- one more read
      have hw : r.want (PAGESIZE : Nat) = min ((PAGESIZE : Nat) : Int) r.s := by
        unfold Reader.want
        rw [if_neg (by simp [PAGESIZE]), hbr]
        simp
      have hw1 : 1 ≤ r.want (PAGESIZE : Nat) := by rw [hw]; simp only [PAGESIZE]; omega
      generalize hk : r.want (PAGESIZE : Nat) = k at hw hw1
      have hinv : RInv zl m clen content 0 { r with br := content.length, s := content.length + k } := by
        constructor
        · exact hr.m_eq
        · exact hr.zinv
        · simp
        · simp only; omega
        · exact hr.pos
        · exact hr.buf_len
        · exact hr.buf_eq
        · exact hr.cbr_eq
      obtain ⟨r1, d, e1, st⟩ := readZip_spec L hm 0 _ hinv hbuf k hw1 (by simp only; omega)
      have hd : d = [] := by
        have := st.data
        rw [List.drop_eq_nil_of_le (by simp)] at this
        simpa using this
      subst hd
      have e2 := readZip_br r _ _ _ _ _ e1
      have hcl' : Clean clen { r with br := content.length, s := content.length + k } :=
        ⟨hcl.tail, hcl.cbr_eof⟩
      have hcl1 := st.clean (by simp only; omega) hcl' (fun _ => hstop.1)
      have hcore : r.readCore zl r.fuel (PAGESIZE : Nat) =
          ({ r1 with br := r.br + ([] : Bytes).length, s := r.s }, .ok []) := by
        unfold Reader.fuel
        rw [readCore_succ, if_neg (by omega), hbuf]
        simp only
        unfold Reader.cont
        rw [hk, e2]
        simp
      rw [hcore]
      simp only [List.length_nil, Int.natCast_zero, Int.add_zero]
      have hb := st.br
      simp only [List.length_nil, Int.natCast_zero, Int.add_zero] at hb
      obtain ⟨r', e3, e4, e5⟩ := ih { r1 with br := r.br, s := r.s } (by
          have := st.inv
          constructor
          · exact this.m_eq
          · exact this.zinv
          · simp
          · simp
          · have := this.pos; rw [hb] at this; exact this
          · exact this.buf_len
          · have := this.buf_eq; rw [hb] at this; exact this
          · exact this.cbr_eq)
        hbr hs st.buf ⟨hcl1.tail, hcl1.cbr_eof⟩ (by
          simp only
          rcases heof : r.zip.eof with _ | _
          · rw [heof] at hf
            simp only [Bool.false_eq_true, if_false] at hf
            have h1 := hr.cbr_eq heof
            obtain ⟨n, h2, h3, _⟩ := hr.zinv.running heof
            simp only at h1 h2
            rw [h2, List.length_take] at h1
            rcases heof1 : r1.zip.eof with _ | _
            · have := st.advance heof heof1 (by simp only; omega)
              simp only at this
              simp only [Bool.false_eq_true, if_false]
              omega
            · simp only [if_true]
              split <;> omega
          · rw [heof] at hf
            have h1 := st.eof heof
            have h2 := (hcl.cbr_eof heof).1
            have h3 := h1.2.2 (by
              rw [h2, hm'] at hstop
              omega) hcl' hstop.1
            rw [h1.1, if_pos rfl, if_neg h3]
            simp only [if_true, hstop.1] at hf
            omega)
      exact ⟨r', e3, e4, e5⟩
    · rw [if_neg hstop]
      refine ⟨r, rfl, ?_, rfl⟩
      rcases heof : r.zip.eof with _ | _
      · have := hr.zinv.running heof
        obtain ⟨n, h1, h2, h3, h4, h5⟩ := this
        have h6 := hr.cbr_eq heof
        simp only at h1 h5 h6
        rw [h1, List.length_take] at h6
        rw [hm'] at hstop
        simp only [h5, true_and, ne_eq, Decidable.not_not] at hstop
        omega
      · exact (hcl.cbr_eof heof).1

/-- The compressed size after everything was read without a tail. -/
theorem compressedBytesRead_spec (L : ZlibLaws zl) {m : Bytes} {clen : Nat} {content : Bytes}
    (hm : IsZip zl m clen content) (r : Reader) (hr : RInv zl m clen content 0 r) (hS : r.hasS = true)
    (hs : r.s = content.length) (hpos : content ≠ []) (hbr : r.br = r.s) (hbuf : r.buf = none)
    (hcl : Clean clen r) (fuel : Nat) (hf : m.length + 3 ≤ fuel) :
    ∃ r', r.compressedBytesRead zl fuel = (r', .ok (clen : Int)) := by
  have hlen : 1 ≤ content.length := List.length_pos_iff.mpr hpos
  unfold Reader.compressedBytesRead Reader.needS
  rw [if_pos hS]
  simp only
  by_cases hu : r.zip.unused = []
  · rw [if_pos ⟨hbr, hu⟩]
    obtain ⟨r', e1, e2, e3⟩ := scrub_spec L hm fuel { r with br := 0 } (by
        constructor
        · exact hr.m_eq
        · exact hr.zinv
        · simp
        · simp
        · have := hr.pos; rw [hbr, hs] at this; exact this
        · exact hr.buf_len
        · have := hr.buf_eq; rw [hbr, hs] at this; exact this
        · exact hr.cbr_eq) rfl (by simp only; omega) hbuf ⟨hcl.tail, hcl.cbr_eof⟩ (by
          simp only
          repeat' split
          all_goals omega)
    rw [e1]
    exact ⟨{ r' with br := r'.s }, by simp only [e2]⟩
  · rw [if_neg (by simp [hu])]
    have heof : r.zip.eof = true := by
      rcases h : r.zip.eof with _ | _
      · obtain ⟨n, _, _, _, _, h5⟩ := hr.zinv.running h
        exact absurd h5 hu
      · rfl
    exact ⟨r, by rw [(hcl.cbr_eof heof).1]⟩

/-- A new reader is clean. -/
theorem clean_ofSize (m : Bytes) (clen : Nat) (size : Int) : Clean clen (Reader.ofSize m size) :=
  ⟨rfl, by simp [Reader.ofSize]⟩

/-! ### well behaved readers -/

/-- A reader without header buffer in front of `rem`. -/
def SizeRep (zl : Zlib) (m : Bytes) (clen : Nat) (content : Bytes) (r : Reader) (rem : Bytes) : Prop :=
  ∃ h, RInv zl m clen content h r ∧ r.hasS = true ∧ r.buf = none ∧ h + r.s = content.length ∧
    rem = content.drop (h + r.br.toNat)

/-- A reader that has the complete rest in its header buffer. -/
def BufRep' (zl : Zlib) (m : Bytes) (clen : Nat) (content : Bytes) (r : Reader) (rem : Bytes) : Prop :=
  ∃ h, RInv zl m clen content h r ∧ r.hasS = true ∧ r.buf ≠ none ∧ h + r.s = content.length ∧
    r.buflen = r.s - r.br ∧ rem = content.drop (h + r.br.toNat)

theorem sizeRep_reads (L : ZlibLaws zl) {m : Bytes} {clen : Nat} {content : Bytes}
    (hm : IsZip zl m clen content) (hns : NoStall zl m) :
    ObjectReads (Reader.read zl) (SizeRep zl m clen content) := by
  have step : ∀ r rem (n : Int), SizeRep zl m clen content r rem →
      ∃ r' k, r.read zl n = (r', .ok (rem.take k)) ∧ SizeRep zl m clen content r' (rem.drop k) ∧
        (k : Int) = r.want n ∧ (rem.length : Int) = r.s - r.br := by
    rintro r rem n ⟨h, hr, hS, hb, hs, rfl⟩
    obtain ⟨r', d, e, st⟩ := read_spec L hm h r n hr hS
    have hb0 := hr.br_nonneg
    have hbl := hr.br_le
    have hex := st.exact hns hb
    have hbr := st.br
    have hw : r.want n ≤ r.s - r.br := by unfold Reader.want; split <;> omega
    refine ⟨r', d.length, by rw [e, ← st.data], ⟨h, st.inv, by rw [st.hasS, hS], st.nobuf hb, by
      rw [st.s]; exact hs, ?_⟩, ?_, ?_⟩
    · rw [List.drop_drop]; congr 1; omega
    · omega
    · rw [List.length_drop]; omega
  constructor
  · constructor
    intro r rem n hr hn
    obtain ⟨r', k, e, h1, h2, h3⟩ := step r rem n hr
    unfold Reader.want at h2
    rw [if_neg (by omega)] at h2
    rcases Nat.lt_or_ge rem.length n.toNat with hlt | hge
    · refine ⟨r', ?_, ?_⟩
      · rw [e, List.take_of_length_le (by omega), List.take_of_length_le (by omega)]
      · rw [List.drop_eq_nil_of_le (by omega)] at h1
        rwa [List.drop_eq_nil_of_le (by omega)]
    · have : k = n.toNat := by omega
      subst this
      exact ⟨r', e, h1⟩
  · intro r rem n hr hn
    obtain ⟨r', k, e, h1, h2, h3⟩ := step r rem n hr
    unfold Reader.want at h2
    rw [if_pos (by omega)] at h2
    have : k = rem.length := by omega
    subst this
    exact ⟨r', by rw [e]; simp, by simpa using h1⟩

/-- A stream without stalls flows. -/
theorem flows_of_noStall (L : ZlibLaws zl) {m : Bytes} {clen : Nat} {content : Bytes}
    (hm : IsZip zl m clen content) (hns : NoStall zl m) (k : Nat) : Flows zl k m := by
  refine ⟨?_, noStall_from hns 1⟩
  rcases Nat.eq_zero_or_pos (zl.out m).length with h0 | h0
  · exact .inl (List.length_eq_zero_iff.mp h0)
  · right
    have h2 := hns 0
    have h3 := zip_avail_mono L hm (show 0 + 8 ≤ max 8 (min k (zl.out m).length) by omega)
    have h4 := zip_avail_mono L hm (show 0 ≤ max 8 (min k (zl.out m).length) by omega)
    omega

/-- A reader that was not used before, or is behind the first byte. -/
def FlowRep (zl : Zlib) (m : Bytes) (clen : Nat) (content : Bytes) (r : Reader) (rem : Bytes) : Prop :=
  RInv zl m clen content 0 r ∧ r.hasS = true ∧ r.buf = none ∧ r.s = content.length ∧
    rem = content.drop r.br.toNat ∧
    (content = [] ∨ 0 < r.br ∨ (r.br = 0 ∧ r.zip.tail = [] ∧ r.cws = 0 ∧ r.cwe = 0))

theorem flowRep_reads (L : ZlibLaws zl) {m : Bytes} {clen : Nat} {content : Bytes}
    (hm : IsZip zl m clen content) (k : Nat) (hfl : Flows zl k m) :
    ObjectReadsFrom k (Reader.read zl) (FlowRep zl m clen content) := by
  have step : ∀ r rem (n : Int), FlowRep zl m clen content r rem →
      (n ≤ 0 ∨ (k : Int) ≤ n ∨ (rem.length : Int) ≤ n) →
      ∃ r' j, r.read zl n = (r', .ok (rem.take j)) ∧ FlowRep zl m clen content r' (rem.drop j) ∧
        (j : Int) = r.want n ∧ (rem.length : Int) = r.s - r.br := by
    rintro r rem n ⟨hr, hS, hb, hs, rfl, hor⟩ hn
    obtain ⟨r', d, e, st⟩ := read_spec L hm 0 r n hr hS
    have hb0 := hr.br_nonneg
    have hbl := hr.br_le
    have hbr := st.br
    have hwr : r.want n = if n < 1 then r.s - r.br else min n (r.s - r.br) := rfl
    have hw : r.want n ≤ r.s - r.br := by rw [hwr]; split <;> omega
    have hbd := st.bounded hb
    have hex : (d.length : Int) = min (r.want n) (content.length - r.br.toNat : Nat) := by
      rcases hor with h0 | h0 | ⟨h0, h1, h2, h3⟩
      · subst h0
        simp only [List.length_nil, List.length_drop] at *
        have : r.want n ≤ 0 := by omega
        omega
      · have := st.exactFrom (noStallFrom_mono hfl.rest (by omega)) (.inl (noStallFrom_mono hfl.rest (by omega))) hb
        rwa [Nat.zero_add] at this
      · rcases hfl.first with h4 | h4
        · rw [hm.out] at h4
          subst h4
          simp only [List.length_nil] at hs hbd ⊢
          omega
        · have := st.exactFrom (noStallFrom_mono hfl.rest (by omega)) (.inr ⟨.inr (by rw [h2, h3]), ?_⟩) hb
          · rwa [Nat.zero_add] at this
          · rw [h3, h1, h0]
            simp only [Int.toNat_zero, List.length_nil, Nat.add_zero, Nat.sub_zero, Nat.zero_add]
            rw [hm.out] at h4
            have h5 : min k content.length ≤ (r.want n).toNat := by
              rw [hwr]
              rw [List.length_drop, h0] at hn
              simp only [Int.toNat_zero, Nat.sub_zero] at hn
              split <;> omega
            have := zip_avail_mono L hm (show max 8 (min k content.length) ≤ max 8 (r.want n).toNat by omega)
            omega
    refine ⟨r', d.length, ?_, ⟨st.inv, by rw [st.hasS, hS], st.nobuf hb, by rw [st.s]; exact hs, ?_, ?_⟩, ?_, ?_⟩
    · have := st.data
      rw [Nat.zero_add] at this
      rw [e, ← this]
    · rw [List.drop_drop]; congr 1; omega
    · rcases Nat.eq_zero_or_pos d.length with h0 | h0
      · rcases Nat.eq_zero_or_pos content.length with h1 | h1
        · exact .inl (List.length_eq_zero_iff.mp h1)
        · rcases hor with h2 | h2 | ⟨h2, _⟩
          · exact .inl h2
          · right; left; omega
          · exfalso
            rw [List.length_drop, h2] at hn
            simp only [Int.toNat_zero, Nat.sub_zero] at hn
            rw [hwr] at hex
            rw [h2] at hex
            have hk : 1 ≤ n ∨ n < 1 := by omega
            rcases hk with hk | hk
            · rw [if_neg (by omega)] at hex
              omega
            · rw [if_pos hk] at hex
              omega
      · right; left; omega
    · omega
    · rw [List.length_drop]; omega
  constructor
  · constructor
    intro r rem n hr hn hk
    obtain ⟨r', k, e, h1, h2, h3⟩ := step r rem n hr (.inr hk)
    unfold Reader.want at h2
    rw [if_neg (by omega)] at h2
    rcases Nat.lt_or_ge rem.length n.toNat with hlt | hge
    · refine ⟨r', ?_, ?_⟩
      · rw [e, List.take_of_length_le (by omega), List.take_of_length_le (by omega)]
      · rw [List.drop_eq_nil_of_le (by omega)] at h1
        rwa [List.drop_eq_nil_of_le (by omega)]
    · have : k = n.toNat := by omega
      subst this
      exact ⟨r', e, h1⟩
  · intro r rem n hr hn
    obtain ⟨r', k, e, h1, h2, h3⟩ := step r rem n hr (.inl hn)
    unfold Reader.want at h2
    rw [if_pos (by omega)] at h2
    have : k = rem.length := by omega
    subst this
    exact ⟨r', by rw [e]; simp, by simpa using h1⟩

/-- A reader behind the first byte. -/
def LaterRep (zl : Zlib) (m : Bytes) (clen : Nat) (content : Bytes) (r : Reader) (rem : Bytes) : Prop :=
  RInv zl m clen content 0 r ∧ r.hasS = true ∧ r.buf = none ∧ r.s = content.length ∧
    rem = content.drop r.br.toNat ∧ 0 < r.br

theorem laterRep_reads (L : ZlibLaws zl) {m : Bytes} {clen : Nat} {content : Bytes}
    (hm : IsZip zl m clen content) (hns : NoStallFrom zl 1 m) :
    ObjectReads (Reader.read zl) (LaterRep zl m clen content) := by
  have step : ∀ r rem (n : Int), LaterRep zl m clen content r rem →
      ∃ r' k, r.read zl n = (r', .ok (rem.take k)) ∧ LaterRep zl m clen content r' (rem.drop k) ∧
        (k : Int) = r.want n ∧ (rem.length : Int) = r.s - r.br := by
    rintro r rem n ⟨hr, hS, hb, hs, rfl, hpos⟩
    obtain ⟨r', d, e, st⟩ := read_spec L hm 0 r n hr hS
    have hbl := hr.br_le
    have hex := st.exactFrom (noStallFrom_mono hns (by omega)) (.inl (noStallFrom_mono hns (by omega))) hb
    rw [Nat.zero_add] at hex
    have hbr := st.br
    have hw : r.want n ≤ r.s - r.br := by unfold Reader.want; split <;> omega
    have hdat := st.data
    rw [Nat.zero_add] at hdat
    refine ⟨r', d.length, by rw [e, ← hdat], ⟨st.inv, by rw [st.hasS, hS], st.nobuf hb, by
      rw [st.s]; exact hs, ?_, by omega⟩, ?_, ?_⟩
    · rw [List.drop_drop]; congr 1; omega
    · omega
    · rw [List.length_drop]; omega
  constructor
  · constructor
    intro r rem n hr hn
    obtain ⟨r', k, e, h1, h2, h3⟩ := step r rem n hr
    unfold Reader.want at h2
    rw [if_neg (by omega)] at h2
    rcases Nat.lt_or_ge rem.length n.toNat with hlt | hge
    · refine ⟨r', ?_, ?_⟩
      · rw [e, List.take_of_length_le (by omega), List.take_of_length_le (by omega)]
      · rw [List.drop_eq_nil_of_le (by omega)] at h1
        rwa [List.drop_eq_nil_of_le (by omega)]
    · have : k = n.toNat := by omega
      subst this
      exact ⟨r', e, h1⟩
  · intro r rem n hr hn
    obtain ⟨r', k, e, h1, h2, h3⟩ := step r rem n hr
    unfold Reader.want at h2
    rw [if_pos (by omega)] at h2
    have : k = rem.length := by omega
    subst this
    exact ⟨r', by rw [e]; simp, by simpa using h1⟩

/-- The first read of a new reader, if the compressed bytes it takes have output. -/
theorem first_read (L : ZlibLaws zl) {m : Bytes} {clen : Nat} {content : Bytes} (hm : IsZip zl m clen content)
    (hns : NoStallFrom zl 1 m) (hne : content ≠ []) (n : Int) (w : Nat)
    (hw : w = if n < 1 then content.length else min n.toNat content.length)
    (hf : 0 < (zl.out (m.take (max 8 w))).length) :
    ∃ r', (Reader.ofSize m content.length).read zl n = (r', .ok (content.take w)) ∧
      LaterRep zl m clen content r' (content.drop w) := by
  have hr := rinv_ofSize L hm content.length (by omega)
  obtain ⟨r', d, e, st⟩ := read_spec L hm 0 _ n hr rfl
  have hlen : 1 ≤ content.length := List.length_pos_iff.mpr hne
  have hwant : (Reader.ofSize m content.length).want n = w := by
    unfold Reader.want Reader.ofSize
    rw [hw]
    simp only
    split <;> omega
  have hw1 : 1 ≤ w ∧ w ≤ content.length := by rw [hw]; split <;> omega
  have hex := st.exactFrom (noStallFrom_mono hns (by simp [Reader.ofSize])) (.inr ⟨.inr rfl, by
    rw [hwant]; simpa [Reader.ofSize] using hf⟩) rfl
  rw [hwant] at hex
  have hex' : d.length = w := by simp only [Reader.ofSize, Int.toNat_zero] at hex; omega
  have hdat := st.data
  rw [hex'] at hdat
  simp only [Reader.ofSize, Int.toNat_zero, Nat.add_zero, List.drop_zero] at hdat
  have hbr := st.br
  rw [hex'] at hbr
  simp only [Reader.ofSize, Int.zero_add] at hbr
  refine ⟨r', by rw [e, hdat], st.inv, st.hasS, st.nobuf rfl, st.s, ?_, by omega⟩
  rw [hbr, Int.toNat_natCast]

theorem flowRep_ofSize (L : ZlibLaws zl) {m : Bytes} {clen : Nat} {content : Bytes}
    (hm : IsZip zl m clen content) :
    FlowRep zl m clen content (Reader.ofSize m content.length) content :=
  ⟨rinv_ofSize L hm _ (by omega), rfl, rfl, rfl, by simp [Reader.ofSize], .inr (.inr ⟨rfl, rfl, rfl, rfl⟩)⟩

theorem bufRep_reads (L : ZlibLaws zl) {m : Bytes} {clen : Nat} {content : Bytes}
    (hm : IsZip zl m clen content) : ObjectReads (Reader.read zl) (BufRep' zl m clen content) := by
  have step : ∀ r rem (n : Int), BufRep' zl m clen content r rem →
      ∃ r' k, r.read zl n = (r', .ok (rem.take k)) ∧ BufRep' zl m clen content r' (rem.drop k) ∧
        (k : Int) = r.want n ∧ (rem.length : Int) = r.s - r.br := by
    rintro r rem n ⟨h, hr, hS, hb, hs, hbl, rfl⟩
    obtain ⟨r', d, e, st⟩ := read_spec L hm h r n hr hS
    have hb0 := hr.br_nonneg
    have hble := hr.br_le
    have hw : r.want n ≤ r.s - r.br := by unfold Reader.want; split <;> omega
    have hbuf := st.buffered hb (by omega)
    have hbr := st.br
    refine ⟨r', d.length, by rw [e, ← st.data], ⟨h, st.inv, by rw [st.hasS, hS], hbuf.2.1, by
      rw [st.s]; exact hs, ?_, ?_⟩, ?_, ?_⟩
    · rw [hbuf.2.2.1, st.s]; omega
    · rw [List.drop_drop]; congr 1; omega
    · omega
    · rw [List.length_drop]; omega
  constructor
  · constructor
    intro r rem n hr hn
    obtain ⟨r', k, e, h1, h2, h3⟩ := step r rem n hr
    unfold Reader.want at h2
    rw [if_neg (by omega)] at h2
    rcases Nat.lt_or_ge rem.length n.toNat with hlt | hge
    · refine ⟨r', ?_, ?_⟩
      · rw [e, List.take_of_length_le (by omega), List.take_of_length_le (by omega)]
      · rw [List.drop_eq_nil_of_le (by omega)] at h1
        rwa [List.drop_eq_nil_of_le (by omega)]
    · have : k = n.toNat := by omega
      subst this
      exact ⟨r', e, h1⟩
  · intro r rem n hr hn
    obtain ⟨r', k, e, h1, h2, h3⟩ := step r rem n hr
    unfold Reader.want at h2
    rw [if_pos (by omega)] at h2
    have : k = rem.length := by omega
    subst this
    exact ⟨r', by rw [e]; simp, by simpa using h1⟩

theorem sizeRep_ofSize (L : ZlibLaws zl) {m : Bytes} {clen : Nat} {content : Bytes}
    (hm : IsZip zl m clen content) :
    SizeRep zl m clen content (Reader.ofSize m content.length) content :=
  ⟨0, rinv_ofSize L hm _ (by omega), rfl, rfl, by simp [Reader.ofSize], by simp [Reader.ofSize]⟩

/-- Opening an object that is completely decompressed with its header. -/
theorem bufRep_new (L : ZlibLaws zl) {m : Bytes} {clen : Nat} (ty ds data : Bytes)
    (hd : IsDecimal ds data.length) (ht : ∀ c ∈ ty, c ≠ 0x20 ∧ c ≠ 0)
    (hm : IsZip zl m clen (ty ++ [0x20] ++ ds ++ [0] ++ data))
    (hlen : (ty ++ [0x20] ++ ds ++ [0] ++ data).length ≤ maxHeader) (hcl : clen ≤ maxHeader) :
    ∃ r, Reader.new zl m = .ok (ty, (data.length : Int), r) ∧
      BufRep' zl m clen (ty ++ [0x20] ++ ds ++ [0] ++ data) r data := by
  have h0 := rinv_ofSize L hm maxHeader (by omega)
  have hla : (ty ++ [0x20] ++ ds ++ [0] ++ data).length = (ty ++ [0x20] ++ ds ++ [0]).length + data.length :=
    List.length_append
  obtain ⟨r, h1, h2, h3, h4, h5, h6, h7, h8⟩ := parseHeaderInfo_spec L ty ds data hd ht hm
    (Reader.ofSize m 0) h0 rfl rfl ⟨rfl, rfl⟩
    (by rw [zip_out_ge L hm hcl]; omega)
  refine ⟨r, by unfold Reader.new; rw [h1], _, h2, h5, h7, ?_, ?_, ?_⟩
  · rw [h4]; omega
  · rw [h8 (Or.inr hcl), h4, h3]; omega
  · rw [h3]; simp

end GitDB
