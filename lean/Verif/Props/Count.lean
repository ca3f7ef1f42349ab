import Verif.Proofs.Count
import Verif.Props.Decomp
/-!
# C15: the count of compressed bytes after any reads
-/
set_option autoImplicit false

namespace GitDB
open Spec

variable {zl : Zlib}

/-- The count if nothing follows the stream. -/
def Alone (clen : Nat) (r : Reader) : Prop := r.zip.eof = true → r.cbr = clen ∧ r.zip.unused = [] ∧ r.zip.tail = []

theorem alone_count {m : Bytes} {clen : Nat} {content : Bytes} {h : Nat} {r : Reader} (hr : RInv zl m clen content h r) (hm : m.length = clen)
    (ha : Count clen r) : Alone clen r := by
  intro h'
  obtain ⟨c1, c2, c3⟩ := ha h'
  have h0 := hr.zinv.cwe_le
  have hu : r.zip.unused = [] := List.length_eq_zero_iff.mp (by omega)
  have ht : r.zip.tail = [] := by rcases c3 with c3 | c3 <;> simp [c3, hu]
  rw [ht] at c1
  exact ⟨by simpa using c1, hu, ht⟩

theorem alone_keeps (L : ZlibLaws zl) {m : Bytes} {clen : Nat} {content : Bytes} (hm : IsZip zl m clen content) (hmc : m.length = clen)
    (h : Nat) (r : Reader) (size : Int) (r' : Reader) (d : Bytes) (hr : RInv zl m clen content h r) (hb : r.buf = none)
    (h1 : 1 ≤ size) (h2 : size ≤ r.s - r.br) (hc : Alone clen r) (e : r.readZip zl size = (r', .ok d)) : Alone clen r' := by
  obtain ⟨r2, d2, e2, st⟩ := readZip_spec L hm h r hr hb size h1 h2
  rw [e] at e2
  cases e2
  refine alone_count st.inv hmc (readZip_count L hm h r hr size h1 (fun h' => ?_) (fun h' => (hc h').2.1) _ _ e)
  obtain ⟨c1, c2, c3⟩ := hc h'
  have h5 := (hr.zinv.ended h').2
  have h6 := hr.zinv.cwe_le
  rw [c3] at h5 ⊢
  rw [c2]
  simp only [List.length_nil] at h5 ⊢
  exact ⟨by omega, by omega, .inl trivial⟩

end GitDB

namespace GitDB.Props
open GitDB Spec

/-- **C15** exactly: after everything was read, in whatever steps, `compressed_bytes_read()` ends and returns the length of the
compressed form less the length of `unconsumed_tail`, in which zlib leaves a copy of `unused_data` if the call before its last one had
reached the output limit. -/
theorem C15_exact (zl : Zlib) (L : ZlibLaws zl) (m : Bytes) (clen : Nat) (content : Bytes) (hm : IsZip zl m clen content) (hne : content ≠ [])
    (ns : List Int) (r : Reader) (ps : List Bytes)
    (h1 : readMany (Reader.read zl) (Reader.ofSize m content.length) ns = (r, .ok ps)) (h2 : ps.flatten = content)
    (fuel : Nat) (hf : m.length + 3 ≤ fuel) :
    ∃ r', r.compressedBytesRead zl fuel = (r', .ok ((clen : Int) - r'.zip.tail.length)) ∧
      (r'.zip.tail = [] ∨ r'.zip.tail = r'.zip.unused) ∧ clen + r'.zip.unused.length ≤ m.length := by
  have hlen : 1 ≤ content.length := List.length_pos_iff.mpr hne
  obtain ⟨r0, ps0, k1, k2, k3, k4, k5, k6, -⟩ := readMany_reader L hm 0 ns
    (Reader.ofSize m content.length) (rinv_ofSize L hm _ (by omega)) rfl
  rw [h1] at k1
  cases k1
  have hs : r.s = content.length := k5
  have hb : r.br = content.length := by rw [k4, h2]; simp [Reader.ofSize]
  have hc := readMany_keeps L hm 0 content.length (Count clen) (fun _ _ _ _ h => h)
    (fun r size r' d => count_keeps L hm 0 content.length (by omega) r size r' d) ns _ r ps (rinv_ofSize L hm _ (Int.natCast_nonneg _)) rfl rfl
    (fun h => by simp [Reader.ofSize] at h) h1
  obtain ⟨r', e1, e2, e3, e4, e5⟩ := compressedBytesRead_count L hm 0 r k2 k6 (by rw [hs]; simp) (by omega) (by rw [hb, hs]) hc fuel hf
  exact ⟨r', e1, e5, by omega⟩

/-- 30 bytes compressed to 4, between other data, read as 10 + 20, as in `C15_double_count`: the result is -15, since
19 bytes are left over in the last call. -/
example : ∃ r ps r', readMany (Reader.read toyZlib) (Reader.ofSize ([253, 30, 7, 255] ++ List.replicate 40 1) 30) [10, 20] = (r, .ok ps) ∧
    ps.flatten = List.replicate 30 7 ∧ r.compressedBytesRead toyZlib 47 = (r', .ok (4 - 19)) ∧ r'.zip.tail = r'.zip.unused ∧
    r'.zip.tail.length = 19 := by
  refine ⟨_, [List.replicate 10 7, List.replicate 20 7], _, Prod.ext rfl (by decide +kernel), by decide, Prod.ext rfl ?_, ?_, ?_⟩ <;> decide +kernel

/-- **C15** it is never more than that, and exact if nothing follows the object. -/
theorem C15_bounds (zl : Zlib) (L : ZlibLaws zl) (m : Bytes) (clen : Nat) (content : Bytes) (hm : IsZip zl m clen content) (hne : content ≠ [])
    (ns : List Int) (r : Reader) (ps : List Bytes)
    (h1 : readMany (Reader.read zl) (Reader.ofSize m content.length) ns = (r, .ok ps)) (h2 : ps.flatten = content)
    (fuel : Nat) (hf : m.length + 3 ≤ fuel) :
    ∃ r' k, r.compressedBytesRead zl fuel = (r', .ok k) ∧ k ≤ clen ∧ (clen : Int) - (m.length - clen) ≤ k := by
  obtain ⟨r', e1, e2, e3⟩ := C15_exact zl L m clen content hm hne ns r ps h1 h2 fuel hf
  refine ⟨r', _, e1, by omega, ?_⟩
  rcases e2 with e2 | e2
  · rw [e2, List.length_nil]; omega
  · rw [e2]; omega

/-- Read as 10 + 20 with nothing behind it. -/
example : ∃ r ps r', readMany (Reader.read toyZlib) (Reader.ofSize [253, 30, 7, 255] 30) [10, 20] = (r, .ok ps) ∧
    ps.flatten = List.replicate 30 7 ∧ r.compressedBytesRead toyZlib 7 = (r', .ok 4) := by
  have hz : IsZip toyZlib [253, 30, 7, 255] 4 (List.replicate 30 7) := ⟨by decide +kernel, by decide +kernel⟩
  have h1 : readMany (Reader.read toyZlib) (Reader.ofSize [253, 30, 7, 255] (List.replicate 30 7 : Bytes).length) [10, 20] =
      (_, .ok [List.replicate 10 7, List.replicate 20 7]) := Prod.ext rfl (by decide +kernel)
  obtain ⟨r', k, e1, e2, e3⟩ := C15_bounds toyZlib toyZlib_laws _ 4 _ hz (by decide) _ _ _ h1 (by decide) 7 (by decide)
  refine ⟨_, _, r', h1, by decide, ?_⟩
  rw [e1]
  simp at e3
  have : k = 4 := by omega
  rw [this]

/-- **C15** before the end: if not everything was read, the result is the number of compressed bytes used so far, which determine what
was read and are not all of them. -/
theorem C15_before (zl : Zlib) (L : ZlibLaws zl) (m : Bytes) (clen : Nat) (content : Bytes) (hm : IsZip zl m clen content)
    (ns : List Int) (r : Reader) (ps : List Bytes)
    (h1 : readMany (Reader.read zl) (Reader.ofSize m content.length) ns = (r, .ok ps)) (h2 : ps.flatten ≠ content) (fuel : Nat) :
    ∃ n < clen, r.compressedBytesRead zl fuel = (r, .ok (n : Int)) ∧ ps.flatten <+: zl.out (m.take n) := by
  obtain ⟨r0, ps0, k1, k2, k3, k4, k5, k6, -, k8, -⟩ := readMany_reader L hm 0 ns
    (Reader.ofSize m content.length) (rinv_ofSize L hm _ (by omega)) rfl
  rw [h1] at k1
  cases k1
  have hs : r.s = content.length := k5
  have hb := k2.buf_len
  rw [k8 rfl] at hb
  simp at hb
  have k3 : ps.flatten = content.take ps.flatten.length := by simpa [Reader.ofSize] using k3
  have k4 : r.br = ps.flatten.length := by simpa [Reader.ofSize] using k4
  have hlt : ps.flatten.length < content.length := by
    apply Nat.lt_of_not_le
    intro hle
    exact h2 (by rw [k3, List.take_of_length_le hle])
  have hp := k2.pos
  have heof : r.zip.eof = false := by
    rcases h : r.zip.eof with _ | _
    · rfl
    · have := (k2.zinv.ended h).1
      omega
  obtain ⟨n, f1, f2, f3, f4, f5⟩ := k2.zinv.running heof
  have hcl := zip_clen_le L hm
  have hc := k2.cbr_eq heof
  rw [f1, List.length_take, Nat.min_eq_left (by omega)] at hc
  refine ⟨n, f2, ?_, ?_⟩
  · unfold Reader.compressedBytesRead Reader.needS
    rw [if_pos k6]
    simp only
    rw [if_neg (fun h => by have := h.1; omega), hc]
  · rw [k3, zip_prefix L hm n]
    exact List.take_prefix_take_left (by omega)

/-- The first 10 of these 30 bytes are read. -/
example : ∃ r ps, readMany (Reader.read toyZlib) (Reader.ofSize ([253, 30, 7, 255] ++ List.replicate 40 1) 30) [10] = (r, .ok ps) ∧
    ∃ n : Nat, n < 4 ∧ r.compressedBytesRead toyZlib 0 = (r, .ok (n : Int)) ∧ List.replicate 10 7 <+: toyZlib.out (([253, 30, 7, 255] ++ List.replicate 40 1 : Bytes).take n) := by
  have hz : IsZip toyZlib ([253, 30, 7, 255] ++ List.replicate 40 1) 4 (List.replicate 30 7) := ⟨by decide +kernel, by decide +kernel⟩
  have h1 : readMany (Reader.read toyZlib) (Reader.ofSize ([253, 30, 7, 255] ++ List.replicate 40 1) (List.replicate 30 7 : Bytes).length) [10] =
      (_, .ok [List.replicate 10 7]) := Prod.ext rfl (by decide +kernel)
  exact ⟨_, _, h1, C15_before toyZlib toyZlib_laws _ 4 _ hz _ _ _ h1 (by decide) 0⟩

/-- **C15** for loose objects, of which the compressed form is the whole file: whatever the reads, the result is exact. -/
theorem C15_loose (zl : Zlib) (L : ZlibLaws zl) (m : Bytes) (ty ds data : Bytes) (hd : IsDecimal ds data.length)
    (ht : ∀ c ∈ ty, c ≠ 0x20 ∧ c ≠ 0) (hm : IsZip zl m m.length (object ty ds data))
    (hl : (objHead ty ds).length ≤ min 8192 (zl.out (m.take 8192)).length) (hne : data ≠ []) (ns : List Int) (r0 r : Reader) (ps : List Bytes)
    (h0 : Reader.new zl m = .ok (ty, (data.length : Int), r0))
    (h1 : readMany (Reader.read zl) r0 ns = (r, .ok ps)) (h2 : ps.flatten = data) (fuel : Nat) (hf : m.length + 3 ≤ fuel) :
    ∃ r', r.compressedBytesRead zl fuel = (r', .ok (m.length : Int)) := by
  have hlen : 1 ≤ data.length := List.length_pos_iff.mpr hne
  obtain ⟨r0', e0, i0, i1, i2, i3, i4, i5, -⟩ := parseHeaderInfo_spec L ty ds data hd ht hm
    (Reader.ofSize m 0) (rinv_ofSize L hm maxHeader (by omega)) rfl rfl ⟨rfl, rfl⟩ hl
  have hr0 : r0 = r0' := by
    unfold Reader.new at h0
    rw [e0] at h0
    simp at h0
    exact h0.symm
  subst hr0
  have ha0 : Alone m.length r0 := by
    have hinv := rinv_ofSize L hm maxHeader (by omega)
    unfold Reader.parseHeaderInfo at e0
    obtain ⟨r1, d1, e1, st1⟩ := readCore_fuel L hm 0 (Reader.ofSize m maxHeader) maxHeader hinv
    have hk := readCore_keeps L hm 0 maxHeader (Alone m.length) (fun _ _ _ _ h => h)
      (fun r size r' d a b _ c e f g => alone_keeps L hm rfl 0 r size r' d a b c e f g) _ _ _ _ _ hinv rfl
      (fun h => by simp [Reader.ofSize] at h) e1
    have e1 : (({ Reader.ofSize m 0 with s := maxHeader, hasS := true } : Reader).readCore zl
      ({ Reader.ofSize m 0 with s := maxHeader, hasS := true } : Reader).fuel maxHeader) = (r1, .ok d1) := e1
    simp only [e1] at e0
    split at e0
    · simp at e0
    · simp only [Prod.mk.injEq] at e0
      rw [← e0.1]
      exact hk
  obtain ⟨r', ps', k1, k2, k3, k4, k5, k6, -⟩ := readMany_reader L hm _ ns r0 i0 i3
  rw [h1] at k1
  cases k1
  have ha := readMany_keeps L hm _ data.length (Alone m.length) (fun _ _ _ _ h => h)
      (fun r size r' d a b _ c e f g => alone_keeps L hm rfl _ r size r' d a b c e f g) ns r0 r ps i0 i2 i3 ha0 h1
  have hobj : (object ty ds data).length = (ty ++ [0x20] ++ ds ++ [0]).length + data.length := by
    unfold object; exact List.length_append
  obtain ⟨r', c1, c2, c3, c4, c5⟩ := compressedBytesRead_count L hm _ r k2 k6 (by rw [k5, i2, hobj]; omega) (by rw [k5, i2]; omega)
    (by rw [k4, i1, h2, k5, i2]; omega) (fun h => by
      obtain ⟨a1, a2, a3⟩ := ha h
      have h5 := (k2.zinv.ended h).2
      have h6 := k2.zinv.cwe_le
      rw [a3] at h5 ⊢
      rw [a2]
      simp only [List.length_nil] at h5 ⊢
      exact ⟨by omega, by omega, .inl trivial⟩) fuel hf
  refine ⟨r', ?_⟩
  have hu : r'.zip.unused = [] := List.length_eq_zero_iff.mp (by omega)
  have ht : r'.zip.tail = [] := by rcases c5 with c5 | c5 <;> simp [c5, hu]
  rw [c1, ht]
  simp

/-- A loose object of three bytes, read as 1 + 2. -/
example : ∃ r0 r ps r', Reader.new toyZlib (object blob [51] [1, 2, 3] ++ [255]) = .ok (blob, 3, r0) ∧
    readMany (Reader.read toyZlib) r0 [1, 2] = (r, .ok ps) ∧ ps.flatten = [1, 2, 3] ∧ r.compressedBytesRead toyZlib 20 = (r', .ok 11) := by
  have hz : IsZip toyZlib (object blob [51] [1, 2, 3] ++ [255]) 11 (object blob [51] [1, 2, 3]) := ⟨by decide +kernel, by decide +kernel⟩
  have h0 : Reader.new toyZlib (object blob [51] [1, 2, 3] ++ [255]) = .ok (blob, 3,
      ((Reader.ofSize (object blob [51] [1, 2, 3] ++ [255]) 0).parseHeaderInfo toyZlib).1) := by decide +kernel
  have h1 : readMany (Reader.read toyZlib) ((Reader.ofSize (object blob [51] [1, 2, 3] ++ [255]) 0).parseHeaderInfo toyZlib).1 [1, 2] =
      (_, .ok [[1], [2, 3]]) := Prod.ext rfl (by decide +kernel)
  obtain ⟨r', e⟩ := C15_loose toyZlib toyZlib_laws _ blob [51] [1, 2, 3] (by unfold IsDecimal; decide) (by decide) hz (by decide +kernel) (by decide)
    _ _ _ _ h0 h1 rfl 20 (by decide)
  exact ⟨_, _, _, r', h0, h1, rfl, e⟩

end GitDB.Props
