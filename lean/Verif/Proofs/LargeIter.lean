import Verif.Proofs.PackIter
/-!
# Objects of several chunks in `_iter_objects`

An object whose compressed form fits into one chunk, read in several chunks: the last call of zlib follows one that reached its
output limit, and the input left over is subtracted twice from the count of compressed bytes.
-/
set_option autoImplicit false

namespace GitDB
open Spec
variable {zl : Zlib}

/-- Reading, with `p` bytes returned and `n` bytes consumed. -/
structure Mid (m : Bytes) (clen : Nat) (s : Int) (r : Reader) (p n : Nat) : Prop where
  m_eq : r.m = m
  eof : r.zip.eof = false
  sane : r.zip.broken = false
  fed : r.zip.fed = m.take n
  lt : n < clen
  produced : r.zip.produced = p
  unused : r.zip.unused = []
  window : r.cwe - r.zip.tail.length = n
  aligned : r.zip.tail ≠ [] ∨ r.cws = r.cwe
  cbr : r.cbr = n
  br : r.br = p
  s_eq : r.s = s
  buf : r.buf = none
  hasS : r.hasS = true

theorem mid_ofSize (m : Bytes) (clen : Nat) (hc : 0 < clen) (s : Int) : Mid m clen s (Reader.ofSize m s) 0 0 :=
  ⟨rfl, rfl, rfl, rfl, hc, rfl, rfl, rfl, .inr rfl, rfl, rfl, rfl, rfl, rfl⟩

/-- The window is as large as the request. -/
theorem readZip_exact (r : Reader) (size n : Nat) (hn : r.cwe - r.zip.tail.length = n) (ha : r.zip.tail ≠ [] ∨ r.cws = r.cwe)
    (hs : 8 ≤ size) (z : ZDec) (d : Bytes) (h : r.zip.decompress zl (pySlice r.m n (n + size)) size = (z, .ok d)) :
    r.readZip zl size = (r.after n (n + size) z d, .ok d) := by
  have h1 : (if r.zip.tail ≠ [] then r.cwe - r.zip.tail.length else r.cwe) = n := by
    split
    · exact hn
    · rename_i h; simp only [ne_eq, Decidable.not_not] at h; simpa [h] using hn
  have h2 : (if r.zip.tail ≠ [] then ((n : Nat) : Int) + size else r.cws + size) = ((n + size : Nat) : Int) := by
    split
    · omega
    · rename_i h
      rcases ha with ha | ha
      · exact absurd ha h
      · simp only [ne_eq, Decidable.not_not] at h
        simp only [h, List.length_nil] at hn
        omega
  unfold Reader.readZip
  simp only [h1, h2]
  rw [if_neg (by omega), Int.toNat_natCast, h]
  rfl

/-- A chunk that does not end the object. -/
theorem mid_read (L : ZlibLaws zl) {m : Bytes} {clen : Nat} {content : Bytes} (hm : IsZip zl m clen content) (r : Reader) (p n a : Nat)
    (h : Mid m clen content.length r p n) (ha : 8 ≤ a) (hca : clen ≤ a) (hpa : p + a < content.length) :
    ∃ r' n', r.read zl a = (r', .ok ((content.drop p).take a)) ∧ Mid m clen content.length r' (p + a) n' ∧ r'.zip.tail ≠ [] ∧
      Static r r' := by
  have hcl := zip_clen_le L hm
  have hdec := zdec_running L hm r.zip h.eof h.sane n h.fed h.lt (n + a) (by omega) a (by omega)
  rw [zip_out_ge L hm (by omega), h.produced, Int.toNat_natCast] at hdec
  obtain ⟨t, h1, h2, h3, h4, h5⟩ : ∃ t, p + a < content.length ∧ n + t ≤ n + a ∧ n + t < clen ∧
      p + a ≤ (zl.out (m.take (n + t))).length ∧ r.zip.decompress zl (pySlice m n (n + a)) a =
        ({ r.zip with fed := m.take (n + t), produced := p + a, tail := (pySlice m n (n + a)).drop t },
          .ok ((content.drop p).take a)) := by
    rcases hdec with hd | hd | hd
    · exact hd
    · omega
    · omega
  rw [← h.m_eq] at h5
  have hz := readZip_exact r a n h.window h.aligned ha _ _ h5
  have hlen : ((content.drop p).take a).length = a := by rw [List.length_take, List.length_drop]; omega
  have hst := readZip_static (zl := zl) r a
  rw [hz] at hst
  have hw : r.want a = a := by
    unfold Reader.want
    rw [if_neg (by omega), h.s_eq, h.br]
    omega
  have hsl : (pySlice r.m n (n + a)).length = min (n + a) m.length - n := by rw [pySlice_length, h.m_eq]
  refine ⟨_, n + t, ?_, ?_, ?_, hst⟩
  · unfold Reader.read Reader.needS
    rw [if_pos h.hasS]
    simp only
    unfold Reader.fuel
    rw [readCore_succ, hw, if_neg (by omega), h.buf]
    simp only
    unfold Reader.cont
    rw [hz]
    simp only [List.nil_append, hlen]
    rw [if_neg (by simp)]
  · constructor
    · exact h.m_eq
    · exact h.eof
    · exact h.sane
    · simp only [Reader.after, h.m_eq]
    · exact h3
    · rfl
    · exact h.unused
    · simp only [Reader.after, List.length_drop, hsl]
      omega
    · left
      intro h0
      have := congrArg List.length h0
      simp only [Reader.after, List.length_drop, hsl, List.length_nil] at this
      omega
    · simp only [Reader.after, List.length_drop, hsl, h.cbr, h.unused, List.length_nil]
      omega
    · simp only [Reader.after, h.br, hlen]
      omega
    · exact h.s_eq
    · exact h.buf
    · exact h.hasS
  · intro h0
    have := congrArg List.length h0
    simp only [Reader.after, List.length_drop, hsl, List.length_nil] at this
    omega

/-- The chunk that ends the object. -/
theorem mid_last (L : ZlibLaws zl) {m : Bytes} {clen : Nat} {content : Bytes} (hm : IsZip zl m clen content) (r : Reader) (p n b : Nat)
    (h : Mid m clen content.length r p n) (ht : r.zip.tail ≠ []) (hb : 8 ≤ b) (hcb : clen ≤ b) (hpb : p + b = content.length) :
    ∃ r', r.read zl b = (r', .ok (content.drop p)) ∧ r'.br = content.length ∧
      r'.cbr = (clen : Int) - ((min (n + b) m.length - clen : Nat) : Int) ∧
      r'.zip.unused = pySlice m clen (n + b) ∧ Static r r' := by
  have hcl := zip_clen_le L hm
  have hdec := zdec_running L hm r.zip h.eof h.sane n h.fed h.lt (n + b) (by omega) b (by omega)
  rw [zip_out_ge L hm (by omega), h.produced, Int.toNat_natCast] at hdec
  have h5 : r.zip.decompress zl (pySlice m n (n + b)) b =
        ({ fed := m.take clen, produced := content.length, tail := pySlice m clen (n + b), unused := pySlice m clen (n + b), eof := true },
          .ok (content.drop p)) := by
    rcases hdec with hd | hd | hd
    · obtain ⟨t, hd, _⟩ := hd; omega
    · rw [hd.2.2, if_neg ht]
    · omega
  rw [← h.m_eq] at h5
  have hz := readZip_exact r b n h.window h.aligned hb _ _ h5
  have hlen : (content.drop p).length = b := by rw [List.length_drop]; omega
  have hst := readZip_static (zl := zl) r b
  rw [hz] at hst
  have hw : r.want b = b := by
    unfold Reader.want
    rw [if_neg (by omega), h.s_eq, h.br]
    omega
  have hs1 : (pySlice r.m n (n + b)).length = min (n + b) m.length - n := by rw [pySlice_length, h.m_eq]
  have hs2 : (pySlice r.m clen (n + b)).length = min (n + b) m.length - clen := by rw [pySlice_length, h.m_eq]
  have hlt := h.lt
  refine ⟨_, ?_, ?_, ?_, ?_, hst⟩
  · unfold Reader.read Reader.needS
    rw [if_pos h.hasS]
    simp only
    unfold Reader.fuel
    rw [readCore_succ, hw, if_neg (by omega), h.buf]
    simp only
    unfold Reader.cont
    rw [hz]
    simp only [List.nil_append, hlen]
    rw [if_neg (by simp)]
  · simp only [Reader.after, h.br, hlen]
    omega
  · simp only [Reader.after, h.cbr, hs1, hs2]
    omega
  · simp only [Reader.after, h.m_eq]

/-- `stream_copy` of the rest of the object. -/
theorem mid_copy (L : ZlibLaws zl) {m : Bytes} {clen : Nat} {content : Bytes} (hm : IsZip zl m clen content) (a b : Nat)
    (ha : 8 ≤ a) (hca : clen ≤ a) (hb : 8 ≤ b) (hcb : clen ≤ b) (hba : b ≤ a) : ∀ (k fuel : Nat) (r : Reader) (p n : Nat),
    Mid m clen content.length r p n → (k = 0 → r.zip.tail ≠ []) → p + k * a + b = content.length → k < fuel →
    ∃ r' n', streamCopyLoop (Reader.read zl) nullWrite content.length a fuel p r () = (r', (), .ok (content.length : Int)) ∧
      n' < clen ∧ r'.br = content.length ∧ r'.cbr = (clen : Int) - ((min (n' + b) m.length - clen : Nat) : Int) ∧
      r'.zip.unused = pySlice m clen (n' + b) ∧ Static r r' := by
  intro k
  induction k with
  | zero =>
    intro fuel r p n h ht hp hf
    obtain ⟨f, rfl⟩ : ∃ f, fuel = f + 1 := ⟨fuel - 1, by omega⟩
    obtain ⟨r', h1, h2, h3, h4, h5⟩ := mid_last L hm r p n b h (ht rfl) hb hcb (by omega)
    refine ⟨r', n, ?_, h.lt, h2, h3, h4, h5⟩
    rw [streamCopyLoop]
    have : min (a : Int) ((content.length : Int) - p) = b := by omega
    simp only [this, h1, nullWrite, List.length_drop]
    rw [if_pos (by omega)]
    congr 3
    omega
  | succ k ih =>
    intro fuel r p n h _ hp hf
    obtain ⟨f, rfl⟩ : ∃ f, fuel = f + 1 := ⟨fuel - 1, by omega⟩
    rw [Nat.succ_mul] at hp
    obtain ⟨r1, n1, h1, h2, h3, h4⟩ := mid_read L hm r p n a h ha hca (by omega)
    obtain ⟨r', n', k1, k2, k3, k4, k5, k6⟩ := ih f r1 (p + a) n1 h2 (fun _ => h3) (by omega) (by omega)
    refine ⟨r', n', ?_, k2, k3, k4, k5, h4.trans k6⟩
    rw [streamCopyLoop]
    have : min (a : Int) ((content.length : Int) - p) = a := by omega
    have hl : ((content.drop p).take a).length = a := by rw [List.length_take, List.length_drop]; omega
    simp only [this, h1, nullWrite, hl]
    rw [if_neg (by omega), ← k1]
    congr 1

/-- One round of the iteration for such an object: it goes on at least 20 bytes too early. -/
theorem iterObjects_large (L : ZlibLaws zl) (p : PackFile) (innerFuel fuel off k b : Nat) (e : Packed)
    (h : EntryAt zl p.data off e) (hoff : off + e.bytes.length + 20 ≤ p.data.length)
    (hk : (k + 1) * chunkSize + b = e.content.length) (hb : b ≤ chunkSize) (hz : e.zip.length + 20 ≤ b) (hf : k + 1 < innerFuel) :
    ∃ l, 20 ≤ l ∧ (off + e.bytes.length + 20 = p.data.length → l = 20) ∧ p.iterObjects zl innerFuel (fuel + 1) off =
      (entryObj p.data off e :: (p.iterObjects zl innerFuel fuel ((off + e.bytes.length : Nat) - (l : Nat) : Int)).1,
        (p.iterObjects zl innerFuel fuel ((off + e.bytes.length : Nat) - (l : Nat) : Int)).2) := by
  obtain ⟨rest, hd⟩ := entryAt_data h
  have hv := h.1
  have hz0 := hv.zip
  have hm := isZip_append L hz0 rest
  have hcp := zip_clen_pos L hm
  have hbl : e.bytes.length = (e.hdr ++ e.ext).length + e.zip.length := by
    simp only [Packed.bytes, List.length_append]
  have hrest : off + e.bytes.length + rest.length = p.data.length := by
    have := congrArg List.length hd
    rw [List.length_drop, List.length_append (as := e.zip)] at this
    omega
  have hb8 : 8 ≤ chunkSize := by decide
  obtain ⟨r, n, c1, c2, c3, c4, c5, c6⟩ := mid_copy L hm chunkSize b hb8 (by omega) (by omega) (by omega) hb (k + 1) innerFuel
    (Reader.ofSize (e.zip ++ rest) e.content.length) 0 0 (mid_ofSize _ _ hcp _) (by omega) (by omega) hf
  rw [← hd] at c1 c6
  have hml : (e.zip ++ rest).length = e.zip.length + rest.length := List.length_append
  refine ⟨min (n + b) (e.zip ++ rest).length - e.zip.length, by omega, by omega, ?_⟩
  generalize hl : min (n + b) (e.zip ++ rest).length - e.zip.length = l at *
  have hun : r.zip.unused ≠ [] := by
    intro h0
    have := congrArg List.length h0
    rw [c5, pySlice_length, List.length_nil] at this
    omega
  rw [PackFile.iterObjects, if_pos (by omega), if_neg (by omega), Int.toNat_natCast, packObjectAt_spec h]
  have hcopy : streamCopy innerFuel (Reader.read zl) nullWrite (entryObj p.data off e).size chunkSize
      (entryObj p.data off e).stream () = (r, (), .ok (e.content.length : Int)) := c1
  simp only [hcopy]
  rw [if_neg (by simp [c3, entryObj])]
  have hS : r.hasS = true := c6.hasS
  have hcbr : r.compressedBytesRead zl innerFuel = (r, .ok r.cbr) := by
    unfold Reader.compressedBytesRead Reader.needS
    rw [if_pos hS]
    simp only
    rw [if_neg (by simp [hun])]
  simp only [hcbr, seek_static c6]
  have hnext : (off : Int) + (((entryObj p.data off e).dataOff : Int) - (entryObj p.data off e).packOffset + r.cbr) =
      ((off + e.bytes.length : Nat) : Int) - (l : Nat) := by
    simp only [entryObj, c4, hbl]
    omega
  rw [hnext]
  rfl

end GitDB
