import Verif.Proofs.Crossing
import Verif.Props.Decomp
import Verif.Props.Inflate
/-!
# C12, C14: what reads of large loose objects return

`DecompressMemMapReader.new` decompresses 8192 bytes to find the header; what follows the header in them is kept in a buffer.  One read,
the first that goes beyond this buffer, is not an ordinary read (`C12_not_full`, `C14_object_mode_short`).  Here: exactly what it
may return, that all other reads are exact, and that `read()` returns everything from objects that compress well enough.
-/
set_option autoImplicit false

namespace GitDB.Props
open GitDB Spec

/-- The number of bytes that `read(n)` should return if `left` bytes are left. -/
def asked (left : Nat) (n : Int) : Nat := if n < 1 then left else min n.toNat left

/-- Number of content bytes that are decompressed together with the header. -/
def headRoom (ty ds data : Bytes) : Nat := min 8192 (object ty ds data).length - (objHead ty ds).length

theorem object_size (ty ds data : Bytes) : (object ty ds data).length = (objHead ty ds).length + data.length := List.length_append

/-- A reader in object mode at position `p` of the data. -/
structure LargeAt (zl : Zlib) (m : Bytes) (clen : Nat) (content : Bytes) (h K len : Nat) (r : Reader) (p : Nat) : Prop where
  inv : RInv zl m clen content h r
  hasS : r.hasS = true
  s : r.s = len
  br : r.br = p
  buf : (r.buf ≠ none ∧ p ≤ K ∧ r.buflen = (K : Int) - p) ∨ (r.buf = none ∧ K < p)

theorem want_asked {zl : Zlib} {m : Bytes} {clen : Nat} {content : Bytes} {h K len : Nat} {r : Reader} {p : Nat}
    (hr : LargeAt zl m clen content h K len r p) (n : Int) : r.want n = asked (len - p) n := by
  have := hr.s
  have := hr.br
  have := hr.inv.br_le
  unfold Reader.want asked
  split <;> omega

theorem largeAt_read {zl : Zlib} (L : ZlibLaws zl) {m : Bytes} {clen : Nat} {content : Bytes} (hm : IsZip zl m clen content)
    (hns : NoStall zl m) {h K len : Nat} (hlen : h + len = content.length) {r : Reader} {p : Nat}
    (hr : LargeAt zl m clen content h K len r p) (n : Int) :
    ∃ r' d, r.read zl n = (r', .ok d) ∧ LargeAt zl m clen content h K len r' (p + d.length) ∧
      d = (content.drop (h + p)).take d.length ∧
      (K ≤ p ∨ p + asked (len - p) n ≤ K → d.length = asked (len - p) n) ∧
      (p < K → K < p + asked (len - p) n → d.length = asked (len - p) n ∨
        (d.length = asked (len - p) n - (K - p) ∧ 2 * (K - p) < asked (len - p) n) ∨ d.length = len - p) := by
  have hw := want_asked hr n
  have h1 := hr.s
  have h2 := hr.br
  have h3 := hr.inv.br_le
  have hale : asked (len - p) n ≤ len - p := by unfold asked; split <;> omega
  have hpos : h + r.br.toNat = h + p := by omega
  rcases hr.buf with ⟨hb, hp, hbl⟩ | ⟨hb, hp⟩
  · by_cases hin : p + asked (len - p) n ≤ K
    · obtain ⟨r', d, e, st⟩ := read_spec L hm h r n hr.inv hr.hasS
      obtain ⟨k1, k2, k3, -⟩ := st.buffered hb (by omega)
      refine ⟨r', d, e, ⟨st.inv, st.hasS.trans hr.hasS, st.s.trans h1, by rw [st.br]; omega, .inl ⟨k2, by omega, by omega⟩⟩, ?_,
        fun _ => by omega, fun _ _ => by omega⟩
      rw [← hpos]; exact st.data
    · obtain ⟨b, hb'⟩ : ∃ b, r.buf = some b := by
        rcases hx : r.buf with _ | b
        · exact absurd hx hb
        · exact ⟨b, rfl⟩
      obtain ⟨r', g, more, e, st, c1, c2, c3, -, c5⟩ := cross_read L hm h r hr.inv hr.hasS b hb' n (by omega)
      have hlb := hr.inv.buf_len
      rw [hb', Option.getD_some] at hlb
      have hc5 := c5 hns (by omega)
      have hl : (b ++ (g ++ more)).length = b.length + g.length + more.length := by simp only [List.length_append]; omega
      have hfull : (g.length : Int) = r.want n - r.buflen → (more.length : Int) = 0 := fun h' => by rw [c3 h']; rfl
      refine ⟨r', _, e, ⟨st.inv, st.hasS.trans hr.hasS, st.s.trans h1, by rw [st.br]; omega, .inr ⟨c1, ?_⟩⟩,
        by rw [← hpos]; exact st.data, fun h' => ?_, fun _ _ => ?_⟩
      · rw [hl]
        by_cases hg : (g.length : Int) = r.want n - r.buflen
        · omega
        · have := (hc5 (by omega)).1
          omega
      · have hK : K = p := by omega
        rw [hl]
        by_cases hg : (g.length : Int) = r.want n - r.buflen
        · have := hfull hg; omega
        · obtain ⟨-, h5⟩ := hc5 (by omega)
          split at h5 <;> omega
      · rw [hl]
        by_cases hg : (g.length : Int) = r.want n - r.buflen
        · have := hfull hg; omega
        · obtain ⟨-, h5⟩ := hc5 (by omega)
          split at h5 <;> omega
  · obtain ⟨r', d, e, st⟩ := read_spec L hm h r n hr.inv hr.hasS
    have hx := st.exact hns hb
    rw [hpos] at hx
    refine ⟨r', d, e, ⟨st.inv, st.hasS.trans hr.hasS, st.s.trans h1, by rw [st.br]; omega, .inr ⟨st.nobuf hb, by omega⟩⟩, ?_,
      fun _ => by omega, fun _ _ => by omega⟩
    rw [← hpos]; exact st.data

theorem largeAt_reads {zl : Zlib} (L : ZlibLaws zl) {m : Bytes} {clen : Nat} {content : Bytes} (hm : IsZip zl m clen content)
    (hns : NoStall zl m) {h K len : Nat} (hlen : h + len = content.length) : ∀ (ns : List Int) {r : Reader} {p : Nat},
    LargeAt zl m clen content h K len r p → ∃ r' ps, readMany (Reader.read zl) r ns = (r', .ok ps) ∧
      LargeAt zl m clen content h K len r' (p + ps.flatten.length)
  | [], r, p, hr => ⟨r, [], rfl, hr⟩
  | n :: ns, r, p, hr => by
    obtain ⟨r1, d, e, h1, -⟩ := largeAt_read L hm hns hlen hr n
    obtain ⟨r2, ps, e2, h2⟩ := largeAt_reads L hm hns hlen ns h1
    refine ⟨r2, d :: ps, by simp only [readMany, e, e2], ?_⟩
    rw [List.flatten_cons, List.length_append, ← Nat.add_assoc]
    exact h2

theorem largeAt_new {zl : Zlib} (L : ZlibLaws zl) {m : Bytes} {clen : Nat} (ty ds data : Bytes) (hd : IsDecimal ds data.length)
    (ht : ∀ c ∈ ty, c ≠ 0x20 ∧ c ≠ 0) (hm : IsZip zl m clen (object ty ds data)) (hns : NoStall zl m)
    (hl : (objHead ty ds).length ≤ min 8192 (zl.out (m.take 8192)).length) :
    ∃ r, Reader.new zl m = .ok (ty, (data.length : Int), r) ∧
      LargeAt zl m clen (object ty ds data) (objHead ty ds).length (headRoom ty ds data) data.length r 0 := by
  obtain ⟨r, h1, h2, h3, h4, h5, -, h7, h8⟩ := parseHeaderInfo_spec L ty ds data hd ht hm (Reader.ofSize m 0)
    (rinv_ofSize L hm maxHeader (by omega)) rfl rfl ⟨rfl, rfl⟩ hl
  refine ⟨r, by unfold Reader.new; rw [h1], h2, h5, h4, h3, .inl ⟨h7, Nat.zero_le _, ?_⟩⟩
  have h9 : r.buflen = min (8192 : Int) (object ty ds data).length - (objHead ty ds).length := h8 (.inl hns)
  have hle := zip_avail_le L hm 8192
  have ha : (object ty ds data).length = (objHead ty ds).length + data.length := List.length_append
  unfold headRoom
  omega

/-- **C12, C14** reads of a loose object of any size whose stream does not stall: after any reads, the next read is exact, unless it is the
one that begins within the first `headRoom` bytes and goes beyond them.  With `b` bytes of them left, that read returns what was
asked for, or `b` bytes less (only if more than `2 b` were asked for), or everything that is left. -/
theorem C12_one_inexact (zl : Zlib) (L : ZlibLaws zl) (m : Bytes) (clen : Nat) (ty ds data : Bytes) (hd : IsDecimal ds data.length)
    (ht : ∀ c ∈ ty, c ≠ 0x20 ∧ c ≠ 0) (hm : IsZip zl m clen (object ty ds data)) (hns : NoStall zl m)
    (hl : (objHead ty ds).length ≤ min 8192 (zl.out (m.take 8192)).length) (ns : List Int) (n : Int) :
    ∃ r r1 ps r2 d, Reader.new zl m = .ok (ty, (data.length : Int), r) ∧ readMany (Reader.read zl) r ns = (r1, .ok ps) ∧
      r1.read zl n = (r2, .ok d) ∧
      let p := ps.flatten.length
      let w := asked (data.length - p) n
      let K := headRoom ty ds data
      d = (data.drop p).take d.length ∧ (K ≤ p ∨ p + w ≤ K → d.length = w) ∧
      (p < K → K < p + w → d.length = w ∨ (d.length = w - (K - p) ∧ 2 * (K - p) < w) ∨ d.length = data.length - p) := by
  have ha : (objHead ty ds).length + data.length = (object ty ds data).length := List.length_append.symm
  obtain ⟨r, h1, h2⟩ := largeAt_new L ty ds data hd ht hm hns hl
  obtain ⟨r1, ps, h3, h4⟩ := largeAt_reads L hm hns ha ns h2
  obtain ⟨r2, d, h5, -, h6, h7, h8⟩ := largeAt_read L hm hns ha h4 n
  rw [Nat.zero_add] at h6 h7 h8
  refine ⟨r, r1, ps, r2, d, h1, h3, h5, ?_, h7, h8⟩
  rw [← List.drop_drop, show object ty ds data = objHead ty ds ++ data from rfl, List.drop_left] at h6
  exact h6

/-- **C14** so `read()` on a newly opened loose object returns everything up to about twice the first 8192 bytes, if its stream does not stall. -/
theorem C14_twice (zl : Zlib) (L : ZlibLaws zl) (m : Bytes) (clen : Nat) (ty ds data : Bytes) (hd : IsDecimal ds data.length)
    (ht : ∀ c ∈ ty, c ≠ 0x20 ∧ c ≠ 0) (hm : IsZip zl m clen (object ty ds data)) (hns : NoStall zl m)
    (hl : (objHead ty ds).length ≤ min 8192 (zl.out (m.take 8192)).length) (hsz : data.length ≤ 2 * headRoom ty ds data) (n : Int)
    (hn : n < 1) : ∃ r r2, Reader.new zl m = .ok (ty, (data.length : Int), r) ∧ r.read zl n = (r2, .ok data) := by
  obtain ⟨r, r1, ps, r2, d, h1, h2, h3, h4, h5, h6⟩ := C12_one_inexact zl L m clen ty ds data hd ht hm hns hl [] n
  simp only [readMany, Prod.mk.injEq, Except.ok.injEq] at h2
  obtain ⟨rfl, rfl⟩ := h2
  simp only [List.flatten_nil, List.length_nil, Nat.zero_add, Nat.sub_zero, List.drop_zero] at h4 h5 h6
  have ha : asked data.length n = data.length := by unfold asked; rw [if_pos hn]
  rw [ha] at h5 h6
  refine ⟨r, r2, h1, ?_⟩
  rw [h3, h4]
  rw [List.take_of_length_le (by omega)]

/-- The bound is sharp: `C14_object_mode_short` has an object of 16371 bytes with room for 8181. -/
example : headRoom blob bigDigits bigData = 8181 := by
  have h := object_size blob bigDigits bigData
  unfold headRoom
  rw [h, big_head_length, big_data_length]
  omega

example (ns : List Int) (n : Int) := C12_one_inexact toyZlib toyZlib_laws bigZip _ blob bigDigits bigData
  (by rw [big_data_length]; exact natToDec_isDecimal _) (by decide) (plain_isZip _ [] big_plain) (plain_noStall _ [] big_plain)
  (by
    have h := object_size blob bigDigits bigData
    rw [big_head_length, big_data_length] at h
    rw [bigZip, plain_out _ [] big_plain, List.length_take, big_head_length, h]
    omega) ns n

/-! ### Objects that compress well -/

/-- The first call of zlib, if the first `N` bytes give more than `N` bytes of output. -/
theorem first_window (zl : Zlib) (m : Bytes) (N : Nat) (hN : 8 ≤ N) (hlim : N < (zl.out (m.take N)).length) :
    ∃ z, (Reader.ofSize m N).readCore zl (Reader.ofSize m N).fuel N = (z, .ok ((zl.out (m.take N)).take N)) ∧
      z.zip.tail = (m.take N).drop (zl.taken [] (m.take N) N) ∧ z.cwe = (m.take N).length ∧ z.zip.eof = false ∧
      z.zip.produced = N := by
  obtain ⟨zd, hzd⟩ : ∃ zd : ZDec, zd = ⟨(m.take N).take (zl.taken [] (m.take N) N), N,
    (m.take N).drop (zl.taken [] (m.take N) N), [], false, false⟩ := ⟨_, rfl⟩
  have hdec : ZDec.decompress zl {} (m.take N) N = (zd, .ok ((zl.out (m.take N)).take N)) := by
    unfold ZDec.decompress
    rw [if_neg (by omega), if_neg (by simp), if_neg (by simp), hzd]
    simp only [List.nil_append, Int.toNat_natCast, Nat.zero_add, List.drop_zero]
    rw [if_pos ⟨by omega, hlim⟩]
  have hwin : pySlice m 0 (if ((0 : Nat) : Int) + (N : Int) - ((0 : Nat) : Int) < 8 then ((0 : Nat) : Int) + 8 else ((0 : Nat) : Int) + (N : Int)).toNat =
      m.take N := by
    rw [if_neg (by omega), show (((0 : Nat) : Int) + (N : Int)).toNat = N by omega]
    simp [pySlice]
  have hzip : ∃ r, (Reader.ofSize m N).readZip zl N = (r, .ok ((zl.out (m.take N)).take N)) ∧ r.zip = zd ∧ r.cwe = (m.take N).length := by
    have hshape : (Reader.ofSize m N).readZip zl N = (match ZDec.decompress zl {} (pySlice m 0 (if ((0 : Nat) : Int) + (N : Int) - ((0 : Nat) : Int) < 8 then ((0 : Nat) : Int) + 8 else ((0 : Nat) : Int) + (N : Int)).toNat) N with
      | (z, .error e) => ({ Reader.ofSize m N with cws := 0, cwe := 0 + (pySlice m 0 (if ((0 : Nat) : Int) + (N : Int) - ((0 : Nat) : Int) < 8 then ((0 : Nat) : Int) + 8 else ((0 : Nat) : Int) + (N : Int)).toNat).length, zip := z }, .error e)
      | (z, .ok d) => ((Reader.ofSize m N).after 0 (if ((0 : Nat) : Int) + (N : Int) - ((0 : Nat) : Int) < 8 then ((0 : Nat) : Int) + 8 else ((0 : Nat) : Int) + (N : Int)).toNat z d, .ok d)) := rfl
    rw [hshape, hwin, hdec]
    exact ⟨_, rfl, rfl, (Nat.zero_add _).trans (congrArg List.length hwin)⟩
  obtain ⟨r, hzip, hr1, hr2⟩ := hzip
  have hfuel : (Reader.ofSize m N).fuel = (N + 2) + 1 := by
    unfold Reader.fuel Reader.ofSize
    simp only
    omega
  have hlen : ((zl.out (m.take N)).take N).length = N := by rw [List.length_take]; omega
  have hwant : (Reader.ofSize m N).want N = N := by
    unfold Reader.want Reader.ofSize
    simp only
    rw [if_neg (by omega)]
    omega
  rw [hfuel, readCore_succ, hwant, if_neg (by omega)]
  show ∃ z, Reader.cont zl (N + 2) (Reader.ofSize m N) [] N = _ ∧ _
  unfold Reader.cont
  rw [hzip]
  simp only [List.nil_append, hlen]
  rw [if_neg (by simp)]
  exact ⟨_, rfl, by rw [hr1, hzd], hr2, by rw [hr1, hzd], by rw [hr1, hzd]⟩

/-- Opening such an object leaves input that zlib has not taken. -/
theorem largeAt_limited {zl : Zlib} (L : ZlibLaws zl) {m : Bytes} {clen : Nat} (ty ds data : Bytes) (hd : IsDecimal ds data.length)
    (ht : ∀ c ∈ ty, c ≠ 0x20 ∧ c ≠ 0) (hm : IsZip zl m clen (object ty ds data)) (hh : (objHead ty ds).length ≤ 8192)
    (hlim : 8192 < (zl.out (m.take 8192)).length) (hcons : zl.taken [] (m.take 8192) 8192 < (m.take 8192).length) :
    ∃ r, Reader.new zl m = .ok (ty, (data.length : Int), r) ∧
      LargeAt zl m clen (object ty ds data) (objHead ty ds).length (headRoom ty ds data) data.length r 0 ∧
      r.zip.tail ≠ [] ∧ 8192 ≤ (zl.out (m.take (r.cwe - r.zip.tail.length))).length ∧ r.zip.eof = false := by
  obtain ⟨r, h1, h2, h3, h4, h5, -, h7, -⟩ := parseHeaderInfo_spec L ty ds data hd ht hm (Reader.ofSize m 0)
    (rinv_ofSize L hm maxHeader (by omega)) rfl rfl ⟨rfl, rfl⟩ (Nat.le_min.mpr ⟨hh, Nat.le_trans hh (Nat.le_of_lt hlim)⟩)
  obtain ⟨z, e, z1, z2, z3, z4⟩ := first_window zl m maxHeader (by decide) hlim
  have hsame : r.zip = z.zip ∧ r.cwe = z.cwe := by
    unfold Reader.parseHeaderInfo at h1
    simp only at h1
    rw [show ({ Reader.ofSize m 0 with s := maxHeader, hasS := true } : Reader) = Reader.ofSize m maxHeader from rfl, e] at h1
    simp only at h1
    split at h1
    · cases h1
    · simp only [Prod.mk.injEq] at h1
      obtain ⟨rfl, -⟩ := h1
      exact ⟨rfl, rfl⟩
  simp only [maxHeader] at z1 z2 z4
  have hle := zip_avail_le L hm 8192
  have ha : (object ty ds data).length = (objHead ty ds).length + data.length := List.length_append
  have hpos : (r.zip.produced : Int) = (objHead ty ds).length + r.br + r.buflen := h2.pos
  rw [hsame.1, z4, h3] at hpos
  refine ⟨r, by unfold Reader.new; rw [h1], ⟨h2, h5, h4, h3, .inl ⟨h7, Nat.zero_le _, ?_⟩⟩, ?_, ?_, by rw [hsame.1]; exact z3⟩
  · unfold headRoom; omega
  · rw [hsame.1, z1]
    intro h'
    have := congrArg List.length h'
    rw [List.length_drop] at this
    simp only [List.length_nil] at this
    omega
  · obtain ⟨n, -, -, k3, k4, -⟩ := h2.zinv.running (by rw [hsame.1]; exact z3)
    rw [show r.cwe - r.zip.tail.length = n by omega]
    rw [hsame.1, z4] at k4
    exact k4

/-- Reads within the header buffer leave the decompressor alone. -/
theorem largeAt_inside {zl : Zlib} (L : ZlibLaws zl) {m : Bytes} {clen : Nat} {content : Bytes} (hm : IsZip zl m clen content)
    {h K len : Nat} : ∀ (ns : List Int) {r : Reader} {p : Nat}, LargeAt zl m clen content h K len r p → p ≤ K →
    p + readLen (len - p) ns ≤ K → ∃ r' ps, readMany (Reader.read zl) r ns = (r', .ok ps) ∧
      ps.flatten.length = readLen (len - p) ns ∧ LargeAt zl m clen content h K len r' (p + ps.flatten.length) ∧
      r'.zip = r.zip ∧ r'.cwe = r.cwe
  | [], r, p, hr, _, _ => ⟨r, [], rfl, rfl, hr, rfl, rfl⟩
  | n :: ns, r, p, hr, hp, hin => by
    have hw := want_asked hr n
    have h2 := hr.br
    have hrl : readLen (len - p) (n :: ns) = asked (len - p) n + readLen (len - p - asked (len - p) n) ns := rfl
    rw [hrl] at hin
    rcases hr.buf with ⟨hb, -, hbl⟩ | ⟨-, hb⟩
    · obtain ⟨r1, d, e, st⟩ := read_spec L hm h r n hr.inv hr.hasS
      obtain ⟨k1, k2, k3, k4, -, k6, -⟩ := st.buffered hb (by omega)
      have hr1 : LargeAt zl m clen content h K len r1 (p + d.length) :=
        ⟨st.inv, st.hasS.trans hr.hasS, st.s.trans hr.s, by rw [st.br]; omega, .inl ⟨k2, by omega, by omega⟩⟩
      have hsub : len - p - asked (len - p) n = len - (p + d.length) := by omega
      rw [hsub] at hin hrl
      obtain ⟨r2, ps, e2, i1, i2, i3, i4⟩ := largeAt_inside L hm ns hr1 (by omega) (by omega)
      refine ⟨r2, d :: ps, by simp only [readMany, e, e2], ?_, ?_, i3.trans k4, i4.trans k6⟩
      · rw [List.flatten_cons, List.length_append, hrl]; omega
      · rw [List.flatten_cons, List.length_append, ← Nat.add_assoc]; exact i2
    · omega

/-- **C14** `read()` of a large loose object that compresses well, stalling or not: if the first 8192 bytes of the file give more than 8192
bytes, zlib does not take all of them to do so, and what it leaves is not longer than the rest of the object, then `read()` returns all
that is left, after any reads within the header buffer. -/
theorem C14_large_compressible (zl : Zlib) (L : ZlibLaws zl) (m : Bytes) (clen : Nat) (ty ds data : Bytes) (hd : IsDecimal ds data.length)
    (ht : ∀ c ∈ ty, c ≠ 0x20 ∧ c ≠ 0) (hm : IsZip zl m clen (object ty ds data)) (hh : (objHead ty ds).length ≤ 8192)
    (hlim : 8192 < (zl.out (m.take 8192)).length) (hcons : zl.taken [] (m.take 8192) 8192 < (m.take 8192).length)
    (hrest : ∀ k, 8192 ≤ (zl.out (m.take k)).length → clen + 8192 ≤ (object ty ds data).length + k) (ns : List Int)
    (hns : readLen data.length ns ≤ headRoom ty ds data) (n : Int) (hn : n < 1) :
    ∃ r r1 ps r2, Reader.new zl m = .ok (ty, (data.length : Int), r) ∧ readMany (Reader.read zl) r ns = (r1, .ok ps) ∧
      r1.read zl n = (r2, .ok (data.drop (readLen data.length ns))) ∧ ps.flatten.length = readLen data.length ns := by
  have ha : (object ty ds data).length = (objHead ty ds).length + data.length := List.length_append
  have hle := zip_avail_le L hm 8192
  obtain ⟨r, h1, h2, h3, h4, h5⟩ := largeAt_limited L ty ds data hd ht hm hh hlim hcons
  obtain ⟨r1, ps, i1, i2, i3, i4, i5⟩ := largeAt_inside L hm ns h2 (Nat.zero_le _) (by simpa using hns)
  rw [Nat.sub_zero] at i2
  rw [Nat.zero_add] at i3
  have hw := want_asked i3 n
  have hwa : asked (data.length - ps.flatten.length) n = data.length - ps.flatten.length := by unfold asked; rw [if_pos hn]
  have hK : headRoom ty ds data = 8192 - (objHead ty ds).length := by unfold headRoom; omega
  have hpK : ps.flatten.length ≤ headRoom ty ds data := by omega
  rcases i3.buf with ⟨hb, -, hbl⟩ | ⟨-, hb⟩
  · obtain ⟨b, hb'⟩ : ∃ b, r1.buf = some b := by
      rcases hx : r1.buf with _ | b
      · exact absurd hx hb
      · exact ⟨b, rfl⟩
    have hbr := i3.br
    have hs := i3.s
    obtain ⟨r2, g, more, e, st, c1, c2, c3, c4, -⟩ := cross_read L hm _ r1 i3.inv i3.hasS b hb' n (by omega)
    have hlb := i3.inv.buf_len
    rw [hb', Option.getD_some] at hlb
    have hk := hrest _ h4
    have hg := c4 (.inl (by rw [i4]; exact h3))
    rw [i4, i5, zip_out_ge L hm (by omega)] at hg
    have hgl : (g.length : Int) = r1.want n - r1.buflen := by omega
    refine ⟨r, r1, ps, r2, h1, i1, ?_, i2⟩
    rw [e]
    have hdt := st.data
    have hl : (b ++ (g ++ more)).length = data.length - ps.flatten.length := by
      simp only [List.length_append]
      rw [c3 hgl]
      simp only [List.length_nil]
      omega
    rw [hl, show (objHead ty ds).length + r1.br.toNat = (objHead ty ds).length + ps.flatten.length by omega, ← List.drop_drop,
      show object ty ds data = objHead ty ds ++ data from rfl, List.drop_left,
      List.take_of_length_le (by rw [List.length_drop]; omega)] at hdt
    rw [hdt, i2]
  · omega

/-- **C14** the same for streams in the real format, where zlib takes no more than it needs: more than 8192 bytes have to come out of fewer
than the first 8192 bytes of the file. -/
theorem C14_large_real (c : Deflate.Compressor) (L : ZlibLaws (Deflate.zlib c)) (m : Bytes) (clen : Nat) (ty ds data : Bytes)
    (hd : IsDecimal ds data.length) (ht : ∀ c ∈ ty, c ≠ 0x20 ∧ c ≠ 0) (hm : IsZip (Deflate.zlib c) m clen (object ty ds data))
    (hh : (objHead ty ds).length ≤ 8192) (j : Nat) (hj : j < min 8192 m.length) (hlim : 8192 < ((Deflate.zlib c).out (m.take j)).length)
    (hrest : ∀ k, 8192 ≤ ((Deflate.zlib c).out (m.take k)).length → clen + 8192 ≤ (object ty ds data).length + k) (n : Int) (hn : n < 1) :
    ∃ r r2, Reader.new (Deflate.zlib c) m = .ok (ty, (data.length : Int), r) ∧ r.read (Deflate.zlib c) n = (r2, .ok data) := by
  have hmono := zip_avail_mono L hm (show j ≤ 8192 by omega)
  have hcons : (Deflate.zlib c).taken [] (m.take 8192) 8192 ≤ j := by
    refine Nat.le_of_not_lt fun h => ?_
    have := C67_taken_least c [] (m.take 8192) 8192 j h
    rw [List.nil_append, List.take_take, Nat.min_eq_left (by omega)] at this
    omega
  obtain ⟨r, r1, ps, r2, h1, h2, h3, -⟩ := C14_large_compressible _ L m clen ty ds data hd ht hm hh (by omega)
    (by rw [List.length_take]; omega) hrest [] (Nat.zero_le _) n hn
  simp only [readMany, Prod.mk.injEq, Except.ok.injEq] at h2
  obtain ⟨rfl, -⟩ := h2
  exact ⟨r, r2, h1, h3⟩

/-- **C34** a large object in a loose database that compresses well is read by one `read()`. -/
theorem C34_stream_large (H : Hash) (zl : Zlib) (L : ZlibLaws zl) (fs : Fs) (x c ty ds data : Bytes) (m : Nat) (path : Path)
    (hp : IsPathOf path (H.digest x)) (hf : fs path = some (.file c m)) (hz : IsZip zl c c.length x) (hds : IsDecimal ds data.length)
    (hx : x = object ty ds data) (ht : ∀ b ∈ ty, b ≠ 0x20 ∧ b ≠ 0) (noatime second : Bool) (ho : noatime = true ∨ second = true)
    (hh : (objHead ty ds).length ≤ 8192) (hlim : 8192 < (zl.out (c.take 8192)).length)
    (hcons : zl.taken [] (c.take 8192) 8192 < (c.take 8192).length)
    (hrest : ∀ k, 8192 ≤ (zl.out (c.take k)).length → c.length + 8192 ≤ x.length + k) :
    ∃ r r2, looseStream zl fs noatime second (H.digest x) = .ok (ty, (data.length : Int), r) ∧ r.read zl (-1) = (r2, .ok data) := by
  subst hx
  obtain ⟨r, r1, ps, r2, h1, h2, h3, -⟩ := C14_large_compressible zl L c c.length ty ds data hds ht hz hh hlim hcons hrest [] (Nat.zero_le _)
    (-1) (by decide)
  simp only [readMany, Prod.mk.injEq, Except.ok.injEq] at h2
  obtain ⟨rfl, -⟩ := h2
  exact ⟨r, r2, by unfold looseStream; rw [mapLooseObject_file hp hf (isZip_ne_nil L hz) _ _ ho]; exact h1, h3⟩

/-- A short file of a long object: the first 8192 bytes are all, zlib stops before their end. -/
theorem small_file_limits {zl : Zlib} (L : ZlibLaws zl) {m : Bytes} {clen : Nat} {content : Bytes} (hm : IsZip zl m clen content)
    (hcl : clen ≤ 8192) (hlen : clen + 8192 ≤ content.length) :
    8192 < (zl.out (m.take 8192)).length ∧ zl.taken [] (m.take 8192) 8192 < (m.take 8192).length := by
  have hpos := zip_clen_pos L hm
  have hcm := zip_clen_le L hm
  have hout : zl.out (m.take 8192) = content := zip_out_ge L hm hcl
  have hlim : 8192 < (zl.out (m.take 8192)).length := by rw [hout]; omega
  have h1 := L.taken_stop [] (m.take 8192) 8192 hlim L.stop_nil
  have h2 := L.taken_le [] (m.take 8192) 8192 hlim
  rw [List.length_take] at h2
  rw [List.nil_append, List.take_take, Nat.min_eq_left (by omega)] at h1
  have := zip_stop_none L hm h1
  rw [List.length_take]
  exact ⟨hlim, by omega⟩

/-- **C14** a loose object whose file has at most 8192 bytes, and that is at least 8192 bytes longer than its file: `read()` returns
everything, whatever the compressed stream looks like. -/
theorem C14_small_file (zl : Zlib) (L : ZlibLaws zl) (m : Bytes) (clen : Nat) (ty ds data : Bytes) (hd : IsDecimal ds data.length)
    (ht : ∀ c ∈ ty, c ≠ 0x20 ∧ c ≠ 0) (hm : IsZip zl m clen (object ty ds data)) (hh : (objHead ty ds).length ≤ 8192)
    (hcl : clen ≤ 8192) (hlen : clen + 8192 ≤ (object ty ds data).length) (n : Int) (hn : n < 1) :
    ∃ r r2, Reader.new zl m = .ok (ty, (data.length : Int), r) ∧ r.read zl n = (r2, .ok data) := by
  obtain ⟨hlim, hcons⟩ := small_file_limits L hm hcl hlen
  obtain ⟨r, r1, ps, r2, h1, h2, h3, -⟩ := C14_large_compressible zl L m clen ty ds data hd ht hm hh hlim hcons (fun k _ => by omega) []
    (Nat.zero_le _) n hn
  simp only [readMany, Prod.mk.injEq, Except.ok.injEq] at h2
  obtain ⟨rfl, -⟩ := h2
  exact ⟨r, r2, h1, h3⟩

/-! ### A case: 20000 bytes in runs of 250 -/

def runData : Bytes := List.replicate 20000 7
def runDigits : Bytes := natToDec 20000
def runZip : Bytes := objHead blob runDigits ++ ((List.replicate 80 ([253, 250, 7] : Bytes)).flatten ++ [255])

theorem toy_runs (y : Bytes) : ∀ j : Nat, toy ((List.replicate j ([253, 250, 7] : Bytes)).flatten ++ y) =
    bump (3 * j) (List.replicate (250 * j) 7) (toy y)
  | 0 => by simp [bump]
  | j + 1 => by
    rw [List.replicate_succ, List.flatten_cons, List.append_assoc, show ([253, 250, 7] : Bytes) ++
      ((List.replicate j ([253, 250, 7] : Bytes)).flatten ++ y) = 253 :: 250 :: 7 ::
      ((List.replicate j ([253, 250, 7] : Bytes)).flatten ++ y) from rfl, toy_run, toy_runs y j]
    unfold bump
    refine Prod.ext ?_ (Prod.ext ?_ rfl)
    · show List.replicate 250 7 ++ (List.replicate (250 * j) 7 ++ _) = List.replicate (250 * (j + 1)) 7 ++ _
      rw [← List.append_assoc, List.replicate_append_replicate, show 250 + 250 * j = 250 * (j + 1) by omega]
    · show ((toy y).2.1.map _).map _ = (toy y).2.1.map _
      rw [Option.map_map]
      congr 1

theorem runDigits_eq : runDigits = [50, 48, 48, 48, 48] := by
  unfold runDigits
  simp [natToDec_eq]

theorem run_isZip : IsZip toyZlib runZip 252 (object blob runDigits runData) := by
  have hp : Plain (objHead blob runDigits) := by rw [runDigits_eq]; unfold Plain; decide
  have h := toy_plain (objHead blob runDigits) ((List.replicate 80 ([253, 250, 7] : Bytes)).flatten ++ [255]) hp
  rw [toy_runs [255] 80, toy_zero] at h
  have hl : (objHead blob runDigits).length = 11 := by rw [runDigits_eq]; decide
  refine ⟨(congrArg (fun x => x.2.1) h).trans ?_, (congrArg (fun x => x.1) h).trans ?_⟩
  · unfold bump
    rw [hl]
    rfl
  · exact congrArg (objHead blob runDigits ++ ·) (List.append_nil _)

theorem run_size : 20000 < (object blob runDigits runData).length := by
  have h := object_size blob runDigits runData
  have hl : (objHead blob runDigits).length = 11 := by rw [runDigits_eq]; decide
  rw [h, hl, runData, List.length_replicate]
  omega

theorem run_decimal : IsDecimal runDigits runData.length := by
  unfold runData
  rw [List.length_replicate]
  exact natToDec_isDecimal _

example := C14_small_file toyZlib toyZlib_laws runZip 252 blob runDigits runData run_decimal (by decide) run_isZip
  (by rw [runDigits_eq]; decide) (by decide) (by have := run_size; omega) (-1) (by decide)

/-- After reading 100 and 50 bytes. -/
example := C14_large_compressible toyZlib toyZlib_laws runZip 252 blob runDigits runData run_decimal (by decide) run_isZip
  (by rw [runDigits_eq]; decide) (small_file_limits toyZlib_laws run_isZip (by decide) (by have := run_size; omega)).1
  (small_file_limits toyZlib_laws run_isZip (by decide) (by have := run_size; omega)).2 (fun k _ => by have := run_size; omega)
  [100, 50] (by
    have hl : (objHead blob runDigits).length = 11 := by rw [runDigits_eq]; decide
    have h := object_size blob runDigits runData
    have hd : runData.length = 20000 := List.length_replicate
    unfold headRoom
    rw [hd, h, hl, hd, readLen, readLen, readLen, if_neg (by decide), if_neg (by decide)]
    omega) (-1) (by decide)

theorem runZip_length : runZip.length = 252 := by unfold runZip; rw [runDigits_eq]; decide +kernel

/-- In a database. -/
example := C34_stream_large (oneHash (object blob runDigits runData)) toyZlib toyZlib_laws
  (fun q => if q = objectPath (binToHex ((oneHash (object blob runDigits runData)).digest (object blob runDigits runData)))
    then some (.file runZip 0o444) else none) (object blob runDigits runData) runZip blob runDigits runData 0o444 _
  (isPathOf_objectPath _) (if_pos rfl) (by rw [runZip_length]; exact run_isZip) run_decimal rfl (by decide) true false (.inl rfl)
  (by rw [runDigits_eq]; decide) (small_file_limits toyZlib_laws run_isZip (by decide) (by have := run_size; omega)).1
  (small_file_limits toyZlib_laws run_isZip (by decide) (by have := run_size; omega)).2
  (fun k _ => by rw [runZip_length]; have := run_size; omega)

/-! ### A case: 16000 bytes -/

def midData : Bytes := List.replicate 16000 0
def midDigits : Bytes := natToDec 16000

theorem midDigits_eq : midDigits = [49, 54, 48, 48, 48] := by
  unfold midDigits
  simp [natToDec_eq]

theorem mid_plain : Plain (object blob midDigits midData) := by
  intro c hc
  rw [object, midDigits_eq] at hc
  simp only [List.mem_append] at hc
  rcases hc with hc | hc
  · have : ∀ c ∈ objHead blob [49, 54, 48, 48, 48], c.toNat < 251 := by decide
    exact this c (by simpa [objHead, or_assoc] using hc)
  · rw [List.eq_of_mem_replicate hc]; decide

example := C14_twice toyZlib toyZlib_laws (object blob midDigits midData ++ [255]) _ blob midDigits midData
  (by unfold midData; rw [List.length_replicate]; exact natToDec_isDecimal _) (by decide) (plain_isZip _ [] mid_plain)
  (plain_noStall _ [] mid_plain)
  (by
    have h := object_size blob midDigits midData
    have hl : (objHead blob midDigits).length = 11 := by rw [midDigits_eq]; decide
    have hd : midData.length = 16000 := List.length_replicate
    rw [hl, hd] at h
    rw [plain_out _ [] mid_plain, List.length_take, hl, h]
    omega)
  (by
    have h := object_size blob midDigits midData
    have hl : (objHead blob midDigits).length = 11 := by rw [midDigits_eq]; decide
    have hd : midData.length = 16000 := List.length_replicate
    unfold headRoom
    rw [h, hl, hd]
    omega) 0 (by decide)

end GitDB.Props
