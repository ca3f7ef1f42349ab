import Verif.Proofs.RfcOnly
import Verif.Props.Inflate
/-!
# C71: what any compressor writes according to RFC 1950 and RFC 1951 is read
-/
set_option autoImplicit false

namespace GitDB.Props
open GitDB Spec Deflate
open GitDB.Spec.Rfc (Coded LensBits Header Complete Usable Token ZlibStream Blocks Block TokensBits Expands bitsOf)

/-- **C71** the decompressor returns the content of every valid stream - with any blocks, codes and matches - and ends where the
stream ends, whatever follows. -/
theorem C71_decodes (c : Compressor) {m content : Bytes} (h : ZlibStream m content) (t : Bytes) :
    (zlib c).out (m ++ t) = content ∧ (zlib c).stop (m ++ t) = some m.length ∧ (zlib c).bad (m ++ t) = false := by
  obtain ⟨h1, h2⟩ := run_stream h
  have h3 : feed {} (m ++ t) = ⟨content.reverse, .done⟩ := by rw [feed_append, h2, feed_done _ _ rfl]
  refine ⟨?_, ?_, ?_⟩
  · rw [zlib_out, h3, List.reverse_reverse]
  · rw [zlib_stop]
    obtain ⟨a1, a2, a3⟩ := (stopFrom_iff _ _ _).1 h1
    refine (stopFrom_iff _ _ _).2 ⟨by rw [List.length_append]; omega, ?_, fun j hj => ?_⟩
    · rw [List.take_left, h2]
    · rw [List.take_append_of_le_length (by omega)]; exact a3 j hj
  · show ((feed {} (m ++ t)).mode == .bad) = false
    rw [h3]; rfl

/-- **C71** as the other properties say it. -/
theorem C71_isZip (c : Compressor) {m content : Bytes} (h : ZlibStream m content) (t : Bytes) : IsZip (zlib c) (m ++ t) m.length content :=
  ⟨(C71_decodes c h t).2.1, (C71_decodes c h t).1⟩

/-- **C71** nothing else is accepted: what the decompressor takes for a complete stream is one, byte by byte - header, blocks, codes, checksum -
and what it returned is its content. -/
theorem C71_only (c : Compressor) {m content : Bytes} {clen : Nat} (h : IsZip (zlib c) m clen content) :
    clen ≤ m.length ∧ ZlibStream (m.take clen) content := by
  have h1 := h.stop
  have h2 := h.out
  rw [zlib_stop] at h1
  rw [zlib_out] at h2
  obtain ⟨a1, a2, -⟩ := (stopFrom_iff _ _ _).1 h1
  have hd : (feed {} m).mode = .done := by
    rw [← List.take_append_drop clen m, feed_append, feed_done _ _ a2]; exact a2
  obtain ⟨z, tail, rfl, hz⟩ := stream_of_done m hd
  have hs := (C71_decodes c hz tail).2.1
  rw [zlib_stop, h1, Option.some.injEq] at hs
  subst hs
  rw [h2] at hz
  exact ⟨a1, by rwa [List.take_left]⟩

/-- **C71** so the streams that the other properties are about are exactly those of RFC 1950. -/
theorem C71_iff (c : Compressor) (m content : Bytes) (clen : Nat) :
    IsZip (zlib c) m clen content ↔ clen ≤ m.length ∧ ZlibStream (m.take clen) content := by
  refine ⟨C71_only c, fun ⟨h1, h2⟩ => ?_⟩
  have := C71_isZip c h2 (m.drop clen)
  rwa [List.take_append_drop, List.length_take, Nat.min_eq_left h1] at this

/-- **C71** the last four bytes of what is accepted are the checksum of what was returned. -/
theorem C71_checksum (c : Compressor) {m content : Bytes} {clen : Nat} (h : IsZip (zlib c) m clen content) :
    ∃ pre c0 c1 c2 c3, m.take clen = pre ++ [c0, c1, c2, c3] ∧
      c0.toNat * 256 + c1.toNat = GitDB.Spec.Rfc.sum2 content ∧ c2.toNat * 256 + c3.toNat = GitDB.Spec.Rfc.sum1 content := by
  have h2 := (C71_only c h).2
  generalize m.take clen = z at h2
  cases h2 with
  | mk cmf flg body b pad _ c0 c1 c2 c3 h1 h2 h3 h4 h5 h6 h7 h8 h9 => exact ⟨_, c0, c1, c2, c3, rfl, h8, h9⟩

/-- **C71** a stream has one content, and no stream is the beginning of another. -/
theorem C71_unique {m m' content content' : Bytes} (h : ZlibStream m content) (h' : ZlibStream m' content') (hm : m <+: m') :
    m = m' ∧ content = content' := by
  obtain ⟨t, rfl⟩ := hm
  obtain ⟨a1, a2, -⟩ := C71_decodes storing h t
  obtain ⟨b1, b2, -⟩ := C71_decodes storing h' []
  rw [List.append_nil] at b1 b2
  rw [b2, List.length_append] at a2
  simp only [Option.some.injEq] at a2
  have : t = [] := List.eq_nil_of_length_eq_zero (by omega)
  subst this
  rw [a1] at b1
  exact ⟨(List.append_nil _).symm, b1⟩

/-- **C71** the contract that all properties of readers and writers start from holds as soon as the compressor writes valid
streams of what it is given. -/
theorem C71_compressor (c : Compressor) (h : ∀ level ds, ZlibStream ((zlib c).emit (c.cinit level) ds) ds.flatten) : ZlibLaws (zlib c) := by
  refine C67_contract c ?_ ?_
  · intro level ds
    have := (C71_decodes c (h level ds) []).2.1
    rwa [List.append_nil] at this
  · intro level ds
    have := (C71_decodes c (h level ds) []).1
    rwa [List.append_nil] at this

/-- **C71** a loose object that any other program wrote is read completely, by any sequence of reads, if it is at most 8192 bytes long,
compressed or not. -/
theorem C71_loose_object (c : Compressor) (L : ZlibLaws (zlib c)) {m ty ds data : Bytes} (h : ZlibStream m (object ty ds data))
    (hd : IsDecimal ds data.length) (ht : ∀ c ∈ ty, c ≠ 0x20 ∧ c ≠ 0) (hlen : (object ty ds data).length ≤ 8192) (hcl : m.length ≤ 8192)
    (ns : List Int) :
    ∃ r r' ps, Reader.new (zlib c) m = .ok (ty, (data.length : Int), r) ∧
      readMany (Reader.read (zlib c)) r ns = (r', .ok ps) ∧ ps.flatten = data.take (readLen data.length ns) := by
  have := C71_isZip c h []
  rw [List.append_nil] at this
  exact C14_small_objects (zlib c) L m m.length ty ds data hd ht this hlen hcl ns

/-- **C71** an object in a pack of any size is read at once if it became no longer by compression; what follows in the pack is
ignored. -/
theorem C71_packed (c : Compressor) (L : ZlibLaws (zlib c)) {m content : Bytes} (h : ZlibStream m content) (hcl : m.length ≤ content.length)
    (rest : Bytes) (n : Int) (hn : n ≤ 0) :
    ∃ r, (Reader.ofSize (m ++ rest) content.length).read (zlib c) n = (r, .ok content) :=
  C14_compressible (zlib c) L (m ++ rest) m.length content (C71_isZip c h rest) hcl n hn

/-! ## Examples -/

/-- What Python's `zlib.compress(b"aaaaaaaaaa")` returns: a literal and a match. -/
def tenZip : Bytes := [0x78, 0x9c, 0x4b, 0x4c, 0x84, 0x01, 0x00, 0x14, 0xe1, 0x03, 0xcb]

theorem tenZip_stream : ZlibStream tenZip (List.replicate 10 97) := by
  have ht : TokensBits GitDB.Spec.Rfc.fixedLitLens GitDB.Spec.Rfc.fixedDistLens [.lit 97, .lit 97, .copy 8 1] _ :=
    .cons _ _ _ _ (.lit 97 (by unfold Coded; decide +kernel)) (.cons _ _ _ _ (.lit 97 (by unfold Coded; decide +kernel)) (.cons _ _ _ _
      (.copy 8 1 262 0 0 0 0 0 (.short 5 (by decide)) (.near 0 (by decide)) (by unfold Coded; decide +kernel)
        (by unfold Coded; decide +kernel)) .nil))
  have hx : Expands [] [.lit 97, .lit 97, .copy 8 1] (List.replicate 10 97) :=
    .lit _ _ _ _ (.lit _ _ _ _ (.copy [97, 97] (List.replicate 8 97) 1 _ _ (by decide) (by decide)
      (fun i h1 h2 => (show ∀ i, i < 10 → 2 ≤ i → (List.replicate 10 (97 : UInt8))[i]? = (List.replicate 10 (97 : UInt8))[i - 1]? by decide) i h2 h1)
      (.nil _)))
  exact .mk 0x78 0x9c [0x4b, 0x4c, 0x84, 0x01, 0x00] _ _ _ 0x14 0xe1 0x03 0xcb (by decide) (by decide) (by decide) (by decide)
    (.last _ _ _ _ (.fixed 0 true [] _ _ _ ht hx)) (show bitsOf _ = _ ++ [false, false] by decide +kernel) (by decide)
    (by decide +kernel) (by decide +kernel)

/-- What Python's `zlib.compress(b"a" * 20)` returns: a match with an extra bit. -/
def twentyZip : Bytes := [0x78, 0x9c, 0x4b, 0x4c, 0xc4, 0x04, 0x00, 0x4f, 0xa6, 0x07, 0x95]

theorem twentyZip_stream : ZlibStream twentyZip (List.replicate 20 97) := by
  have ht : TokensBits GitDB.Spec.Rfc.fixedLitLens GitDB.Spec.Rfc.fixedDistLens [.lit 97, .lit 97, .copy 18 1] _ :=
    .cons _ _ _ _ (.lit 97 (by unfold Coded; decide +kernel)) (.cons _ _ _ _ (.lit 97 (by unfold Coded; decide +kernel)) (.cons _ _ _ _
      (.copy 18 1 268 1 1 0 0 0 (.group 1 3 1 (by decide) (by decide) (by decide) (by decide)) (.near 0 (by decide)) (by unfold Coded; decide +kernel)
        (by unfold Coded; decide +kernel)) .nil))
  have hx : Expands [] [.lit 97, .lit 97, .copy 18 1] (List.replicate 20 97) :=
    .lit _ _ _ _ (.lit _ _ _ _ (.copy [97, 97] (List.replicate 18 97) 1 _ _ (by decide) (by decide)
      (fun i h1 h2 => (show ∀ i, i < 20 → 2 ≤ i → (List.replicate 20 (97 : UInt8))[i]? = (List.replicate 20 (97 : UInt8))[i - 1]? by decide) i h2 h1)
      (.nil _)))
  exact .mk 0x78 0x9c [0x4b, 0x4c, 0xc4, 0x04, 0x00] _ _ _ 0x4f 0xa6 0x07 0x95 (by decide) (by decide) (by decide) (by decide)
    (.last _ _ _ _ (.fixed 0 true [] _ _ _ ht hx)) (show bitsOf _ = _ ++ [false] by decide +kernel) (by decide)
    (by decide +kernel) (by decide +kernel)

theorem literals_bits (lit dist : List Nat) : ∀ x : Bytes, (∀ b ∈ x, Coded lit b.toNat) →
    TokensBits lit dist (x.map .lit) (x.flatMap fun b => GitDB.Spec.Rfc.codeBits lit b.toNat) := by
  intro x
  induction x with
  | nil => intro _; exact .nil
  | cons b x ih => intro h; exact .cons _ _ _ _ (.lit b (h b (by simp))) (ih fun c hc => h c (by simp [hc]))

theorem literals_expand : ∀ (x out : Bytes), Expands out (x.map .lit) (out ++ x) := by
  intro x
  induction x with
  | nil => intro out; rw [List.append_nil]; exact .nil _
  | cons b x ih =>
    intro out
    have := ih (out ++ [b])
    rw [List.append_assoc] at this
    exact .lit _ _ _ _ this

/-- The codes of `dynZip`: two bits for `a`, `b`, `c` and the end. -/
def dynLit : List Nat := List.replicate 97 0 ++ [2, 2, 2] ++ List.replicate 156 0 ++ [2]
def dynCl : List Nat := [0, 2, 1, 0, 0, 0, 0, 0, 0, 0, 0, 0, 0, 0, 0, 0, 0, 0, 2]

theorem dynZip_stream : ZlibStream dynZip dynContent := by
  have h : LensBits dynCl [] (List.replicate 97 0 ++ (2 :: 2 :: 2 :: (List.replicate 138 0 ++ (List.replicate 18 0 ++ (2 :: 1 :: 1 :: []))))) _ :=
    .manyZeros _ 97 _ _ (by decide) (by decide) (by unfold Coded; decide) (.one _ 2 _ _ (by decide) (by unfold Coded; decide)
      (.one _ 2 _ _ (by decide) (by unfold Coded; decide) (.one _ 2 _ _ (by decide) (by unfold Coded; decide)
      (.manyZeros _ 138 _ _ (by decide) (by decide) (by unfold Coded; decide)
      (.manyZeros _ 18 _ _ (by decide) (by decide) (by unfold Coded; decide)
      (.one _ 2 _ _ (by decide) (by unfold Coded; decide) (.one _ 1 _ _ (by decide) (by unfold Coded; decide)
      (.one _ 1 _ _ (by decide) (by unfold Coded; decide) (.nil _)))))))))
  have e : List.replicate 97 0 ++ (2 :: 2 :: 2 :: (List.replicate 138 0 ++ (List.replicate 18 0 ++ (2 :: 1 :: 1 :: [])))) = dynLit ++ [1, 1] := by
    decide +kernel
  rw [e] at h
  have hh : Header dynLit [1, 1] _ := .mk dynCl 18 _ rfl (by decide) (by decide) (by decide) (by decide) ⟨2, by decide, by decide⟩ h
  have hx : Expands [] (dynContent.map .lit) dynContent := literals_expand dynContent []
  have hb : Block 0 true [] _ dynContent := .dynamic 0 true [] dynLit [1, 1] _ (dynContent.map .lit) _ dynContent (by decide +kernel) (by decide +kernel)
    (by decide) (by decide) (by unfold Coded; decide +kernel) (.inl ⟨2, by decide +kernel, by decide +kernel⟩) (.inl ⟨1, by decide, by decide⟩) hh
    (literals_bits dynLit [1, 1] dynContent (by unfold Coded; decide +kernel)) hx
  exact .mk 0x78 0x01 ((dynZip.drop 2).take 18) _ [false, false] dynContent 0x3a 0xad 0x06 0x84 (by decide) (by decide) (by decide) (by decide)
    (.last _ _ _ _ hb) (by decide +kernel) (by decide) (by decide +kernel) (by decide +kernel)

theorem le2_bits (n : Nat) (h : n ≤ 65535) : bitsOf (le2 n) = GitDB.Spec.Rfc.lsb 16 n := by
  rw [le2, bitsOf_cons, bitsOf_cons]
  simp only [bitsOf, List.flatMap_nil, List.append_nil, UInt8.toNat_ofNat']
  rw [lsb_append _ _ _ _ (by omega)]
  congr 1
  omega

theorem stored_bits (final : Bool) (pos : Nat) (hp : pos % 8 = 0) (out data : Bytes) (hd : data.length ≤ 65535) :
    Block pos final out (bitsOf ([UInt8.ofNat final.toNat] ++ le2 data.length ++ le2 (65535 - data.length) ++ data)) (out ++ data) := by
  rw [bitsOf_append, bitsOf_append, bitsOf_append, le2_bits _ hd, le2_bits _ (by omega)]
  have e : bitsOf [UInt8.ofNat final.toNat] = [final, false, false] ++ List.replicate 5 false := by cases final <;> rfl
  rw [e]
  exact .stored pos final out data _ hd (by rw [List.length_replicate]; omega) (by decide)

theorem stored_blocks : ∀ (n : Nat) (content : Bytes), content.length ≤ n → ∀ (pos : Nat) (out : Bytes), pos % 8 = 0 →
    ∃ body, Blocks pos out (bitsOf body) (out ++ content) := by
  intro n
  induction n with
  | zero =>
    intro content h pos out hp
    exact ⟨_, .last _ _ _ _ (stored_bits true pos hp out content (by omega))⟩
  | succ n ih =>
    intro content h pos out hp
    by_cases hc : content.length ≤ 65535
    · exact ⟨_, .last _ _ _ _ (stored_bits true pos hp out content hc)⟩
    · obtain ⟨a, hb⟩ : ∃ a, Block pos false out (bitsOf a) (out ++ content.take 65535) :=
        ⟨_, stored_bits false pos hp out (content.take 65535) (by rw [List.length_take]; omega)⟩
      obtain ⟨body, h2⟩ := ih (content.drop 65535) (by rw [List.length_drop]; omega) (pos + (bitsOf a).length) (out ++ content.take 65535)
        (by rw [bitsOf_length]; omega)
      refine ⟨a ++ body, ?_⟩
      rw [bitsOf_append]
      have := Blocks.more _ _ _ _ _ _ hb h2
      rwa [List.append_assoc, List.take_append_drop] at this

/-- **C71** of every content there is a stream. -/
theorem C71_exists (content : Bytes) : ∃ m, ZlibStream m content := by
  obtain ⟨body, h⟩ := stored_blocks _ content (Nat.le_refl _) 0 [] rfl
  have h1 : GitDB.Spec.Rfc.sum1 content < 65536 := Nat.lt_trans (Nat.mod_lt _ (by decide)) (by decide)
  have h2 : GitDB.Spec.Rfc.sum2 content < 65536 := Nat.lt_trans (Nat.mod_lt _ (by decide)) (by decide)
  refine ⟨_, .mk 0x78 0x01 body _ [] content (UInt8.ofNat (GitDB.Spec.Rfc.sum2 content / 256)) (UInt8.ofNat (GitDB.Spec.Rfc.sum2 content))
    (UInt8.ofNat (GitDB.Spec.Rfc.sum1 content / 256)) (UInt8.ofNat (GitDB.Spec.Rfc.sum1 content)) (by decide) (by decide) (by decide) (by decide)
    h (by rw [List.append_nil]) (by decide) ?_ ?_⟩
  · simp only [UInt8.toNat_ofNat']; omega
  · simp only [UInt8.toNat_ofNat']; omega

/-! ## Use -/

/-- What Python's `zlib.compress(b"blob 1\0a")` returns. -/
def blobZip : Bytes := [0x78, 0x9c, 0x4b, 0xca, 0xc9, 0x4f, 0x52, 0x30, 0x64, 0x48, 0x04, 0x00, 0x0c, 0x04, 0x02, 0x52]

theorem blobZip_stream : ZlibStream blobZip (object blob [0x31] [97]) :=
  .mk 0x78 0x9c ((blobZip.drop 2).take 10) _ [false, false, false, false, false, false] _ 0x0c 0x04 0x02 0x52 (by decide) (by decide) (by decide)
    (by decide) (.last _ _ _ _ (.fixed 0 true [] ((object blob [0x31] [97]).map .lit) _ _
      (literals_bits _ _ _ (by unfold Coded; decide +kernel)) (literals_expand _ [])))
    (by decide +kernel) (by decide) (by decide +kernel) (by decide +kernel)

example := C71_loose_object storing storedZlib_laws blobZip_stream (by unfold IsDecimal; decide) (by decide) (by decide) (by decide) [1, -1]

example := C71_decodes storing dynZip_stream [1, 2, 3]
example := C71_packed storing storedZlib_laws twentyZip_stream (by decide) [1, 2, 3] (-1) (by decide)
example := C71_unique tenZip_stream tenZip_stream (List.prefix_refl _)
example := C71_checksum storing (dynZip_isZip storing)
example := C71_compressor storing fun level ds => by
  have h := C71_only storing ⟨storedZlib_laws.emit_stop level ds, storedZlib_laws.emit_out level ds⟩
  have e := h.2
  rw [List.take_of_length_le (Nat.le_refl _)] at e
  exact e

/-- One bit of the checksum changed: not accepted. -/
example : storedZlib.bad (tenZip.set 10 0xca) = true ∧ ¬ ∃ content, ZlibStream (tenZip.set 10 0xca) content := by
  have hb : storedZlib.bad (tenZip.set 10 0xca) = true := by decide +kernel
  refine ⟨hb, fun ⟨content, h⟩ => ?_⟩
  have := (C71_decodes storing h []).2.2
  rw [List.append_nil] at this
  exact absurd (hb.symm.trans this) (by decide)

end GitDB.Props
