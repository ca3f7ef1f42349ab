import Verif.Proofs.DecompUse
/-!
# The read that goes beyond the header buffer
-/
set_option autoImplicit false

namespace GitDB
open Spec

variable {zl : Zlib}

/-- The state after the header buffer was taken out. -/
theorem rinv_unbuffered {m : Bytes} {clen : Nat} {content : Bytes} {h : Nat} {r : Reader} (hr : RInv zl m clen content h r)
    (hle : r.br + r.buflen ≤ r.s) : RInv zl m clen content h { r with br := r.br + r.buflen, buflen := 0, buf := none } where
  m_eq := hr.m_eq
  zinv := hr.zinv
  br_nonneg := by have := hr.br_nonneg; have := hr.buf_len; simp only; omega
  br_le := hle
  pos := by have := hr.pos; simp only; omega
  buf_len := rfl
  buf_eq := by simp
  cbr_eq := hr.cbr_eq

/-- A read that asks for more than is left in the header buffer (`gitdb/stream.py` 214-319): the buffer, what one call of zlib gives (`g`),
and what the recursive call gives, which asks for the number of bytes still missing less the bytes of the buffer. -/
theorem cross_read (L : ZlibLaws zl) {m : Bytes} {clen : Nat} {content : Bytes} (hm : IsZip zl m clen content) (h : Nat) (r : Reader)
    (hr : RInv zl m clen content h r) (hs : r.hasS = true) (b : Bytes) (hb : r.buf = some b) (n : Int) (hw : r.buflen < r.want n) :
    ∃ r' g more, r.read zl n = (r', .ok (b ++ (g ++ more))) ∧ ReadStep zl m clen content h r n r' (b ++ (g ++ more)) ∧ r'.buf = none ∧
      (g.length : Int) ≤ r.want n - r.buflen ∧ ((g.length : Int) = r.want n - r.buflen → more = []) ∧
      ((r.zip.tail ≠ [] ∨ r.cws = r.cwe) → min (r.want n - r.buflen).toNat
        ((zl.out (m.take (r.cwe - r.zip.tail.length + (r.want n - r.buflen).toNat))).length - (h + (r.br + r.buflen).toNat)) ≤ g.length) ∧
      (NoStall zl m → h + r.s = content.length → (g.length : Int) < r.want n - r.buflen → 1 ≤ g.length ∧
        (more.length : Int) = if r.want n - 2 * r.buflen - g.length < 1 then r.s - r.br - r.buflen - g.length
          else r.want n - 2 * r.buflen - g.length) := by
  have hb0 := hr.br_nonneg
  have hbs := hr.br_le
  have hbl := hr.buf_len
  rw [hb, Option.getD_some] at hbl
  have hwle : r.want n ≤ r.s - r.br := by unfold Reader.want; split <;> omega
  obtain ⟨r', d, e, st⟩ := read_spec L hm h r n hr hs
  have hr1 := rinv_unbuffered hr (by omega)
  obtain ⟨r2, g, e2, z⟩ := readZip_spec L hm h _ hr1 rfl (r.want n - r.buflen) (by omega) (by simp only; omega)
  have hz1 := z.s
  have hz2 := z.br
  have hz3 := z.bounded
  have hz4 := z.buf
  have hz5 := z.inv
  simp only at hz1 hz2
  have e0 := e
  unfold Reader.read Reader.needS at e
  rw [if_pos hs] at e
  have hfuel : ∃ f, r.fuel = f + 1 ∧ (r.s - r.br).toNat < f := ⟨(r.s - r.br).toNat + 2, rfl, by omega⟩
  obtain ⟨f, hf, hff⟩ := hfuel
  simp only [hf] at e
  rw [readCore_succ, if_neg (by omega), hb] at e
  simp only at e
  rw [if_neg (by omega)] at e
  unfold Reader.cont at e
  rw [e2] at e
  simp only at e
  have hleast := z.least
  simp only at hleast
  by_cases hrec : b ++ g ≠ [] ∧ ((b ++ g).length : Int) - b.length < r.want n - r.buflen ∧ r2.br < r2.s
  · rw [if_pos hrec] at e
    obtain ⟨r3, more, e3, st3⟩ := readCore_spec L hm h f r2 (r.want n - r.buflen - (b ++ g).length) hz5 (by omega)
    rw [e3] at e
    simp only [Prod.mk.injEq, Except.ok.injEq] at e
    obtain ⟨rfl, rfl⟩ := e
    rw [List.append_assoc] at e0 st
    rw [List.length_append] at hrec
    refine ⟨r3, g, more, e0, st, st3.nobuf hz4, hz3, fun hg => by omega, hleast, fun hns hc hlt => ?_⟩
    have hx := st3.exact hns hz4
    have hg1 : 1 ≤ g.length := by
      rcases hg : g with _ | ⟨x, xs⟩
      · have := progress_end hm z (.inl (noStall_from hns _)) hg
        simp only at this
        omega
      · simp
    refine ⟨hg1, ?_⟩
    rw [hx, show r2.want (r.want n - r.buflen - (b ++ g).length) = if r.want n - r.buflen - (b ++ g).length < 1 then r2.s - r2.br
      else min (r.want n - r.buflen - (b ++ g).length) (r2.s - r2.br) from rfl, List.length_append]
    split
    · rw [if_pos (by omega)]; omega
    · rw [if_neg (by omega)]; omega
  · rw [if_neg hrec] at e
    simp only [Prod.mk.injEq, Except.ok.injEq] at e
    obtain ⟨rfl, rfl⟩ := e
    refine ⟨r2, g, [], by rw [List.append_nil]; exact e0, by rw [List.append_nil]; exact st, hz4, hz3, fun _ => rfl, hleast,
      fun hns hc hlt => ?_⟩
    have hg1 : 1 ≤ g.length := by
      rcases hg : g with _ | ⟨x, xs⟩
      · have := progress_end hm z (.inl (noStall_from hns _)) hg
        simp only at this
        omega
      · simp
    refine absurd ⟨?_, ?_, ?_⟩ hrec
    · intro h'
      have := congrArg List.length h'
      rw [List.length_append] at this
      simp only [List.length_nil] at this
      omega
    · rw [List.length_append]; omega
    · omega

end GitDB
