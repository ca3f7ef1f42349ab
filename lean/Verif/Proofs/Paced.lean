import Verif.Proofs.DecompUse
/-!
# Streams that yield a byte for a byte; used for counterexamples that need large objects
-/
set_option autoImplicit false

namespace GitDB
open Spec
variable {zl : Zlib}

/-- From 8192 bytes on, `n` bytes of the compressed stream yield exactly `n` bytes. -/
structure Paced (zl : Zlib) (m : Bytes) (clen : Nat) (p : Bytes) : Prop where
  zip : IsZip zl m clen p
  noStall : NoStall zl m
  clen_lt : p.length < clen
  paced : ∀ n, n = 0 ∨ maxHeader ≤ n → n ≤ p.length → (zl.out (m.take n)).length = n

/-- One call of zlib in the middle of literal bytes, no tail. -/
theorem readZip_paced (L : ZlibLaws zl) {m p : Bytes} {clen : Nat} (h : Paced zl m clen p) (r : Reader) (hm : r.m = m) (n : Nat)
    (e : Nat) (hn : n = 0 ∨ maxHeader ≤ n) (he0 : maxHeader ≤ e) (hz : r.zip = { fed := r.m.take n, produced := n }) (hc : r.cwe = n) (size : Int)
    (he : (e : Int) = max ((n : Int) + 8) (r.cws + size)) (hep : e ≤ p.length) (hes : (e : Int) - n ≤ size) :
    r.readZip zl size = 
      ({ r with cws := n, cwe := e, zip := { fed := r.m.take e, produced := e },
                cbr := r.cbr + (e - n), br := r.br + (e - n) }, .ok ((p.drop n).take (e - n))) := by
  have ht : r.zip.tail = [] := by rw [hz]
  have hlen : (pySlice r.m n e).length = e - n := by
    have hcl := h.clen_lt
    have hcm := zip_clen_le L h.zip
    rw [pySlice_length, hm]; omega
  have hdec : r.zip.decompress zl (pySlice r.m n e) size =
      ({ fed := r.m.take e, produced := e }, .ok ((p.drop n).take (e - n))) := by
    have hcl := h.clen_lt
    have hrun := zdec_running L (m := r.m) (clen := clen) (content := p)
      (by rw [hm]; exact h.zip) r.zip (by rw [hz]) (by rw [hz]) n (by rw [hz]) (by omega) e (by omega)
      size (by omega)
    rw [hm, h.paced e (.inr he0) hep] at hrun
    rw [← hm] at hrun
    have hprod : r.zip.produced = n := by rw [hz]
    rcases hrun with ⟨t, h1, _⟩ | ⟨_, h2, _⟩ | ⟨_, _, h3⟩
    · omega
    · omega
    · rw [h3, hprod, hz]
  unfold Reader.readZip
  have hw : (if (r.cws : Int) + size - n < 8 then (n : Int) + 8 else r.cws + size) = e := by
    split <;> omega
  simp only [ht, hc]
  simp only [ne_eq, not_true_eq_false, if_false, hw, Int.toNat_natCast, hdec, hlen]
  have hd : ((p.drop n).take (e - n)).length = e - n := by
    rw [List.length_take, List.length_drop]; omega
  simp only [hd, List.length_nil]
  congr 2
  · omega
  · omega
  · omega

/-- The reader after the header of a literal object of at least 8192 bytes was parsed. -/
def plainReader (m data : Bytes) (h : Nat) : Reader :=
  { m := m, zip := { fed := m.take maxHeader, produced := maxHeader },
    buf := some (data.take (maxHeader - h)), buflen := (maxHeader : Int) - h, s := data.length, br := 0,
    cws := 0, cwe := maxHeader, cbr := maxHeader, phi := true }

theorem new_paced (L : ZlibLaws zl) {m : Bytes} {clen : Nat} (ty ds data : Bytes) (hd : IsDecimal ds data.length)
    (ht : ∀ c ∈ ty, c ≠ 0x20 ∧ c ≠ 0) (h : Paced zl m clen (ty ++ [0x20] ++ ds ++ [0] ++ data))
    (hh : (ty ++ [0x20] ++ ds ++ [0]).length ≤ maxHeader)
    (hlen : maxHeader ≤ (ty ++ [0x20] ++ ds ++ [0] ++ data).length) :
    Reader.new zl m =
      .ok (ty, (data.length : Int),
        plainReader m data
          (ty ++ [0x20] ++ ds ++ [0]).length) := by
  have hp := parseObjectHeader_spec ty ds
    (data.take (maxHeader - (ty ++ [0x20] ++ ds ++ [0]).length)) data.length hd ht
  generalize hH : ty ++ [0x20] ++ ds ++ [0] = H at *
  unfold Reader.new Reader.ofSize Reader.parseHeaderInfo
  have hz := readZip_paced L h
    { m := m, s := maxHeader } rfl 0 maxHeader (.inl rfl) (Nat.le_refl _) (by simp) rfl maxHeader
    (by simp [maxHeader]; decide) hlen (by simp)
  have hhd : (H ++ data).take maxHeader = H ++ data.take (maxHeader - H.length) := by
    rw [List.take_append, List.take_of_length_le hh]
  have hcore : Reader.readCore zl
      ({ m := m, s := maxHeader, hasS := true } : Reader).fuel
      { m := m, s := maxHeader, hasS := true } maxHeader =
      ({ m := m, s := maxHeader, cws := 0, cwe := maxHeader,
         zip := { fed := m.take maxHeader, produced := maxHeader },
         cbr := maxHeader, br := maxHeader }, .ok ((H ++ data).take maxHeader)) := by
    unfold Reader.fuel
    rw [readCore_succ]
    have hw : ({ m := m, s := maxHeader, hasS := true } : Reader).want maxHeader
        = maxHeader := by
      unfold Reader.want; simp
    rw [hw, if_neg (by simp [maxHeader])]
    simp only
    unfold Reader.cont
    rw [hz]
    simp only [List.drop_zero, Nat.sub_zero, List.nil_append, List.length_nil]
    rw [if_neg (by rw [List.length_take]; omega)]
    simp
  simp only [hcore, hhd, hp]
  simp only [plainReader, List.length_append, List.length_take]
  congr 4
  · rw [List.drop_left]
  · simp at hlen; omega

/-- A read that exhausts the header buffer and asks for at least 9 (and at most 8200) bytes more: the next
call of zlib yields 8 bytes, then the wrong remainder is requested. -/
theorem read_paced (L : ZlibLaws zl) {m : Bytes} {clen : Nat} (H data : Bytes) (h : Paced zl m clen (H ++ data))
    (hh' : H.length ≤ maxHeader)
    (hlen : maxHeader + 8 < (H ++ data).length) (n : Int)
    (hw1 : ((plainReader m data H.length).want n) -
      ((maxHeader : Int) - H.length) ≤ 8200)
    (hw2 : 8 < ((plainReader m data H.length).want n) -
      ((maxHeader : Int) - H.length)) :
    ∃ r' d, (plainReader m data H.length).read zl n = (r', .ok d) ∧
      let got : Int := (maxHeader : Int) - H.length + 8
      let left : Int := data.length - got
      let ask := ((plainReader m data H.length).want n) -
        ((maxHeader : Int) - H.length) - got
      (d.length : Int) = got + (if ask < 1 then left else min ask left) := by
  generalize hr : plainReader m data H.length = r at *
  generalize hW : r.want n = W at *
  have hb : r.buf = some (data.take (maxHeader - H.length)) := by rw [← hr]; rfl
  have hbl : r.buflen = (maxHeader : Int) - H.length := by rw [← hr]; rfl
  have hbr : r.br = 0 := by rw [← hr]; rfl
  have hs : r.s = data.length := by rw [← hr]; rfl
  have hS : r.hasS = true := by rw [← hr]; rfl
  have hM : r.m = m := by rw [← hr]; rfl
  have hcws : r.cws = 0 := by rw [← hr]; rfl
  have hcwe : r.cwe = maxHeader := by rw [← hr]; rfl
  have hcbr : r.cbr = maxHeader := by rw [← hr]; rfl
  have hzz : r.zip = { fed := r.m.take maxHeader, produced := maxHeader } := by rw [← hr]; rfl
  have hcl := h.clen_lt
  have hcm := zip_clen_le L h.zip
  rw [List.length_append] at hlen hcl
  unfold Reader.read Reader.needS
  rw [if_pos hS]
  simp only
  unfold Reader.fuel
  rw [readCore_succ, hW, if_neg (by omega), hb]
  simp only
  rw [if_neg (by omega)]
  unfold Reader.cont
  have hz := readZip_paced L h { r with br := r.br + r.buflen, buflen := 0, buf := none } hM
    maxHeader (maxHeader + 8) (.inr (Nat.le_refl _)) (by omega) hzz hcwe (W - r.buflen)
    (by simp only [hcws, hbl, maxHeader]; simp only [maxHeader] at hw1 hw2; omega)
    (by simp; omega) (by rw [hbl]; omega)
  rw [hz]
  have hnl : (((H ++ data).drop maxHeader).take (maxHeader + 8 - maxHeader)).length = 8 := by
    rw [Nat.add_sub_cancel_left, List.length_take, List.length_drop, List.length_append]
    generalize maxHeader = M at *
    omega
  generalize ((H ++ data).drop maxHeader).take (maxHeader + 8 - maxHeader) = new at *
  have hdl : (data.take (maxHeader - H.length)).length = maxHeader - H.length := by
    rw [List.length_take]; omega
  generalize data.take (maxHeader - H.length) = dat at *
  simp only [List.length_append, hdl, hnl]
  have hne : dat ++ new ≠ [] := by
    intro h0
    have := congrArg List.length h0
    simp [hnl] at this
  have hgot : ((maxHeader - H.length + 8 : Nat) : Int) = (maxHeader : Int) - H.length + 8 := by omega
  rw [if_pos ⟨hne, by omega, by omega⟩]
  -- the state is a good one, the rest is an exact read
  generalize hr2 : ({ r with br := r.br + r.buflen + ((maxHeader + 8 : Nat) - (maxHeader : Int)), buflen := 0, buf := none, cws := maxHeader, cwe := maxHeader + 8, zip := { fed := r.m.take (maxHeader + 8), produced := maxHeader + 8 }, cbr := r.cbr + ((maxHeader + 8 : Nat) - (maxHeader : Int)) } : Reader) = r2
  have hinv : RInv zl m clen (H ++ data) H.length r2 := by
    subst hr2
    constructor
    · exact hM
    · constructor
      · simp only; omega
      · rfl
      · intro _
        refine ⟨maxHeader + 8, by rw [hM], by omega, rfl, ?_, rfl⟩
        rw [h.paced _ (.inr (by omega)) (by rw [List.length_append]; omega)]; exact Nat.le_refl _
      · simp
    · simp only; omega
    · simp only; omega
    · simp only; omega
    · simp
    · simp
    · intro _
      simp only [hM, List.length_take, hcbr]; omega
  obtain ⟨r3, d, e3, st⟩ := readCore_spec L h.zip H.length
    ((r.s - r.br).toNat + 2) r2 (W - r.buflen - ((maxHeader - H.length + 8 : Nat) : Int)) hinv
    (by subst hr2; simp only; omega)
  have hex := st.exact h.noStall (by subst hr2; rfl)
  rw [e3]
  refine ⟨r3, dat ++ new ++ d, rfl, ?_⟩
  have h2s : r2.s = data.length := by subst hr2; exact hs
  have h2b : r2.br = (maxHeader : Int) - H.length + 8 := by subst hr2; simp only; omega
  have hcl' : (H ++ data).length = H.length + data.length := List.length_append
  simp only [List.length_append, hdl, hnl]
  rw [Int.natCast_add, hex, hgot]
  unfold Reader.want
  rw [h2s, h2b, hbl]
  split <;> omega

end GitDB
