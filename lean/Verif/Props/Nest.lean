import Verif.Props.Inflate
import Verif.Proofs.Nest
import Verif.Proofs.StoredStall
/-!
# C90: how deep `read` of a `DecompressMemMapReader` calls itself

`read` gets what is missing by calling itself (`gitdb/stream.py` 317), and Python limits the depth of calls (1000 frames unless changed).
`Reader.readCore zl k r n` is `read(n)` with room for `k` calls that are active at the same time; without room for another one it is
`diverge`, which stands for `RecursionError` here.
-/
set_option autoImplicit false

namespace GitDB.Props
open GitDB Spec

/-- `read(n)` gets along with `k` active calls: it does what it does without a limit. -/
def ReadsWithin (zl : Zlib) (k : Nat) (r : Reader) (n : Int) : Prop :=
  r.readCore zl k n = r.read zl n ∧ (r.read zl n).2 ≠ .error .diverge

/-- `read(n)` needs more than `k` active calls. -/
def NeedsMore (zl : Zlib) (k : Nat) (r : Reader) (n : Int) : Prop := (r.readCore zl k n).2 = .error .diverge

theorem readsWithin_of {zl : Zlib} (L : ZlibLaws zl) {m : Bytes} {clen : Nat} {content : Bytes} (hm : IsZip zl m clen content)
    (hns : NoStallFrom zl 1 m) (h : Nat) (r : Reader) (hr : RInv zl m clen content h r) (hs : r.hasS = true) (k : Nat)
    (hk : r.s < 2 ^ k + 7) (n : Int) : ReadsWithin zl (12 * k + 9) r n := by
  have hb := hr.br_nonneg
  have h1 := read_fine L hm h hns r hr k (by omega) n
  obtain ⟨r', d, h2, -⟩ := readCore_fuel L hm h r n hr
  have h3 : r.read zl n = r.readCore zl r.fuel n := by
    unfold Reader.read Reader.needS
    rw [if_pos hs]
  have h4 : (r.readCore zl r.fuel n).2 ≠ .error .diverge := by rw [h2]; simp
  refine ⟨?_, by rw [h3]; exact h4⟩
  rw [h3]
  rcases Nat.le_total (12 * k + 9) r.fuel with h5 | h5
  · have := readCore_add _ r n h1 (r.fuel - (12 * k + 9))
    rw [show 12 * k + 9 + (r.fuel - (12 * k + 9)) = r.fuel by omega] at this
    exact this.symm
  · have := readCore_add _ r n h4 (12 * k + 9 - r.fuel)
    rwa [show r.fuel + (12 * k + 9 - r.fuel) = 12 * k + 9 by omega] at this

/-- **C90** reader of a given size (pack entries): whatever was read before, every further read gets along with a number of calls that is
logarithmic in the size of the object. -/
theorem C90_sized {zl : Zlib} (L : ZlibLaws zl) {m : Bytes} {clen : Nat} {content : Bytes} (hm : IsZip zl m clen content)
    (hns : NoStallFrom zl 1 m) (size k : Nat) (hk : size < 2 ^ k) (before : List Int) (n : Int) :
    ReadsWithin zl (12 * k + 9) (readMany (Reader.read zl) (Reader.ofSize m size) before).1 n := by
  obtain ⟨r', ps, h1, h2, -, -, h3, h4, -⟩ := readMany_reader L hm 0 before _ (rinv_ofSize L hm size (by omega)) rfl
  rw [h1]
  apply readsWithin_of L hm hns 0 r' h2 h4
  rw [h3]
  show ((size : Nat) : Int) < _
  have : ((size : Nat) : Int) < ((2 ^ k : Nat) : Int) := by omega
  rw [Int.natCast_pow] at this
  simp at this
  omega

/-- **C90** reader that parses the header (loose objects): 165 calls are enough for the header, and all reads are as above. -/
theorem C90_header {zl : Zlib} (L : ZlibLaws zl) {m : Bytes} {clen : Nat} (ty ds data : Bytes) (hd : IsDecimal ds data.length)
    (ht : ∀ c ∈ ty, c ≠ 0x20 ∧ c ≠ 0) (hm : IsZip zl m clen (ty ++ [0x20] ++ ds ++ [0] ++ data)) (hns : NoStallFrom zl 1 m)
    (hl : (ty ++ [0x20] ++ ds ++ [0]).length ≤ min maxHeader (zl.out (m.take maxHeader)).length) :
    ReadsWithin zl 165 { Reader.ofSize m 0 with s := maxHeader } maxHeader ∧
    ∃ r, Reader.new zl m = .ok (ty, (data.length : Int), r) ∧ ∀ (k : Nat), data.length < 2 ^ k → ∀ (before : List Int) (n : Int),
      ReadsWithin zl (12 * k + 9) (readMany (Reader.read zl) r before).1 n := by
  have h0 := rinv_ofSize L hm maxHeader (by omega)
  constructor
  · refine readsWithin_of L hm hns 0 _ h0 rfl 13 ?_ maxHeader
    show ((maxHeader : Nat) : Int) < _
    decide
  · obtain ⟨r, h1, h2, h3, h4, h5, h6, h7, -⟩ := parseHeaderInfo_size L ty ds data data.length hd ht hm (Reader.ofSize m 0) h0 rfl rfl ⟨rfl, rfl⟩ hl
    refine ⟨r, by unfold Reader.new; rw [h1], fun k hk before n => ?_⟩
    obtain ⟨r', ps, e1, e2, -, -, e3, e4, -⟩ := readMany_reader L hm _ before r h2 h5
    rw [e1]
    apply readsWithin_of L hm hns _ r' e2 e4
    rw [e3, h4]
    have : ((data.length : Nat) : Int) < ((2 ^ k : Nat) : Int) := by omega
    rw [Int.natCast_pow] at this
    simp at this
    omega

/-- **C90** 765 calls are enough for all objects of less than 2^63 bytes. -/
theorem C90_limit {zl : Zlib} (L : ZlibLaws zl) {m : Bytes} {clen : Nat} {content : Bytes} (hm : IsZip zl m clen content)
    (hns : NoStallFrom zl 1 m) (size : Nat) (hk : size < 2 ^ 63) (before : List Int) (n : Int) :
    ReadsWithin zl 765 (readMany (Reader.read zl) (Reader.ofSize m size) before).1 n :=
  C90_sized L hm hns size 63 hk before n

/-! ## Streams with much that has no output -/

open Deflate

/-- Empty blocks, and a block with one byte. -/
def piece (t : Nat) : Bytes := (List.replicate t (storedBlock [])).flatten ++ storedBlock [0]

/-- A stream of such pieces. -/
def pieces (ts : List Nat) : Bytes :=
  [0x78, 0x01] ++ (ts.map piece).flatten ++ (1 :: (le2 0 ++ le2 65535) ++ be4 (adler32 (List.replicate ts.length 0)))

theorem feed_empties (rout : Bytes) : ∀ t, feed ⟨rout, .collect .type 3 0 0⟩ (List.replicate t (storedBlock [])).flatten =
    ⟨rout, .collect .type 3 0 0⟩
  | 0 => rfl
  | t + 1 => by
    rw [List.replicate_succ, List.flatten_cons, feed_append]
    have : feed ⟨rout, .collect .type 3 0 0⟩ (storedBlock []) = ⟨rout, .collect .type 3 0 0⟩ := by
      unfold storedBlock
      rw [List.append_nil, feed_cons, feed_type_stored, feed_storedLen _ _ _ (by simp)]
      rfl
    rw [this]
    exact feed_empties rout t

theorem feed_piece (rout : Bytes) (t : Nat) : feed ⟨rout, .collect .type 3 0 0⟩ (piece t) = ⟨0 :: rout, .collect .type 3 0 0⟩ := by
  unfold piece
  rw [feed_append, feed_empties, feed_storedBlock _ _ (by simp) (by simp)]
  rfl

theorem feed_pieces : ∀ (ts : List Nat) (rout : Bytes), feed ⟨rout, .collect .type 3 0 0⟩ (ts.map piece).flatten =
    ⟨List.replicate ts.length 0 ++ rout, .collect .type 3 0 0⟩
  | [], rout => rfl
  | t :: ts, rout => by
    rw [List.map_cons, List.flatten_cons, feed_append, feed_piece, feed_pieces ts, List.length_cons, List.replicate_succ']
    simp

theorem piece_length (t : Nat) : (piece t).length = 5 * t + 6 := by
  unfold piece
  rw [List.length_append, List.length_flatten, List.map_replicate]
  simp [storedBlock, le2]
  omega

/-- All of a piece but its last byte has no output. -/
theorem feed_piece_short (rout : Bytes) (t : Nat) :
    (feed ⟨rout, .collect .type 3 0 0⟩ ((piece t).take (5 * t + 5))).rout = rout := by
  have : (piece t).take (5 * t + 5) = (List.replicate t (storedBlock [])).flatten ++ (storedBlock [0]).take 5 := by
    unfold piece
    have hl : (List.replicate t (storedBlock [])).flatten.length = 5 * t := by
      rw [List.length_flatten, List.map_replicate]
      simp [storedBlock, le2]
      omega
    rw [List.take_append, hl, List.take_of_length_le (by omega), show 5 * t + 5 - 5 * t = 5 by omega]
  rw [this, feed_append, feed_empties]
  show (feed _ (0 :: (le2 1 ++ le2 (65535 - 1)))).rout = _
  rw [feed_cons, feed_type_stored, feed_storedLen _ _ _ (by decide)]
  rfl

theorem pieces_isZip (c : Compressor) (ts : List Nat) : IsZip (zlib c) (pieces ts) (pieces ts).length (List.replicate ts.length 0) := by
  have hf : feed {} ([0x78, 0x01] ++ (ts.map piece).flatten) = ⟨List.replicate ts.length 0, .collect .type 3 0 0⟩ := by
    rw [feed_append]
    have := feed_head []
    rw [show feed {} [0x78, 0x01] = _ from this, feed_pieces, List.append_nil]
  have hlast : ∀ x, feed ⟨List.replicate ts.length 0, .collect .type 3 0 0⟩ (1 :: (le2 0 ++ le2 65535) ++ x) =
      feed ⟨List.replicate ts.length 0, .collect .check 32 0 0⟩ x := by
    intro x
    rw [List.cons_append, feed_cons, feed_type_last, feed_append, feed_storedLen _ _ 0 (by omega), if_pos rfl]
    rfl
  have hdone : feed {} (pieces ts) = ⟨List.replicate ts.length 0, .done⟩ := by
    unfold pieces
    rw [feed_append, hf, hlast]
    have := feed_check (List.replicate ts.length 0)
    rwa [List.reverse_replicate] at this
  constructor
  · show stopFrom {} (pieces ts) = _
    have e : pieces ts = ([0x78, 0x01] ++ (ts.map piece).flatten ++ (1 :: (le2 0 ++ le2 65535) ++
        (be4 (adler32 (List.replicate ts.length 0))).take 3)) ++ [UInt8.ofNat (adler32 (List.replicate ts.length 0))] := by
      unfold pieces be4
      simp only [List.take_succ_cons, List.take_zero, List.append_assoc, List.cons_append, List.nil_append]
    have h1 := hdone
    rw [e] at h1 ⊢
    apply stop_of_last
    · rw [h1]
    · rw [feed_append, hf, hlast]
      show (feed ⟨_, .collect .check 32 0 0⟩ [_, _, _]).mode ≠ _
      simp only [feed_cons]
      rw [stepByte_collect _ _ _ _ _ _ (by omega), stepByte_collect _ _ _ _ _ _ (by omega), stepByte_collect _ _ _ _ _ _ (by omega)]
      intro h; cases h
  · show (feed {} (pieces ts)).rout.reverse = _
    rw [hdone]
    simp

/-- Where the pieces begin. -/
def startOf (t : Nat → Nat) : Nat → Nat
  | 0 => 2
  | i + 1 => startOf t i + 6 + 5 * t i

theorem pieces_at (t : Nat → Nat) (N i : Nat) (hi : i < N) :
    ((feed {} ((pieces ((List.range N).map t)).take (startOf t i))).rout.length = i) ∧
    ((feed {} ((pieces ((List.range N).map t)).take (startOf t (i + 1) - 1))).rout.length = i) := by
  have split : ∀ j, j ≤ N → ∃ y, pieces ((List.range N).map t) = ([0x78, 0x01] ++ (((List.range j).map t).map piece).flatten) ++ y ∧
      (j < N → ∃ z, y = piece (t j) ++ z) := by
    intro j hj
    have e : List.range N = List.range j ++ (List.range (N - j)).map (fun i => j + i) := by
      have := @List.range_add j (N - j)
      rwa [show j + (N - j) = N by omega] at this
    unfold pieces
    refine ⟨_, by rw [e, List.map_append, List.map_append, List.flatten_append, List.append_assoc, List.append_assoc, List.append_assoc], fun h => ?_⟩
    obtain ⟨q, hq⟩ : ∃ q, N - j = q + 1 := ⟨N - j - 1, by omega⟩
    rw [hq, List.range_succ_eq_map]
    simp only [List.map_cons, List.flatten_cons, Nat.add_zero, List.append_assoc]
    exact ⟨_, rfl⟩
  have hlen : ∀ j, ([0x78, 0x01] ++ (((List.range j).map t).map piece).flatten : Bytes).length = startOf t j := by
    intro j
    induction j with
    | zero => rfl
    | succ j ih =>
      rw [List.range_succ, List.map_append, List.map_append, List.flatten_append, ← List.append_assoc, List.length_append, ih]
      simp only [List.map_cons, List.map_nil, List.flatten_cons, List.flatten_nil, List.append_nil, piece_length, startOf]
      omega
  have hfeed : ∀ j, feed {} ([0x78, 0x01] ++ (((List.range j).map t).map piece).flatten) = ⟨List.replicate j 0, .collect .type 3 0 0⟩ := by
    intro j
    rw [feed_append, show feed {} [0x78, 0x01] = _ from feed_head [], feed_pieces]
    simp
  obtain ⟨y, h1, h2⟩ := split i (by omega)
  obtain ⟨z, hz⟩ := h2 hi
  rw [h1]
  constructor
  · rw [← hlen i, List.take_left, hfeed]
    simp
  · rw [show startOf t (i + 1) - 1 = startOf t i + (5 * t i + 5) by simp only [startOf]; omega, ← hlen i, List.take_length_add_append, feed_append,
      hfeed, hz, List.take_append_of_le_length (by rw [piece_length]; omega), feed_piece_short]
    simp

/-- **C90** crafted streams: for all `N` there is a valid stream of an object of `N` bytes of which reading it needs `N` calls that are active
at the same time. -/
theorem C90_crafted (c : Compressor) (L : ZlibLaws (zlib c)) (N : Nat) (hN : 8 ≤ N) : ∃ m clen content, IsZip (zlib c) m clen content ∧
    content.length = N ∧ ∀ k, k < N → NeedsMore (zlib c) k (Reader.ofSize m N) (-1) := by
  -- the ends of the windows
  obtain ⟨e, he0, he⟩ : ∃ e : Nat → Nat, e 0 = 0 ∧ ∀ i, e (i + 1) = max (e i + 8) (e (i - 1) + (N - i)) := by
    let g : Nat → Nat × Nat := fun i => i.rec (0, 0) (fun i p => (p.2, max (p.2 + 8) (p.1 + (N - i))))
    refine ⟨fun i => (g i).2, rfl, ?_⟩
    intro i
    show max ((g i).2 + 8) ((g i).1 + (N - i)) = _
    rcases i with _ | i <;> rfl
  -- the sizes of the pieces
  obtain ⟨t, ht⟩ : ∃ t : Nat → Nat, ∀ i, startOf t (i + 1) ≤ e (i + 1) ∧ e i < startOf t (i + 1) := by
    let p : Nat → Nat := fun i => i.rec 2 (fun i p => p + 6 + 5 * ((e (i + 1) - p - 6) / 5))
    refine ⟨fun i => (e (i + 1) - p i - 6) / 5, ?_⟩
    have hp : ∀ i, startOf (fun i => (e (i + 1) - p i - 6) / 5) i = p i := by
      intro i
      induction i with
      | zero => rfl
      | succ i ih => rw [startOf, ih]
    have hps : ∀ i, p (i + 1) = p i + 6 + 5 * ((e (i + 1) - p i - 6) / 5) := fun i => rfl
    have key : ∀ i, p i + 6 ≤ e (i + 1) ∧ (p (i + 1) ≤ e (i + 1) ∧ e i < p (i + 1)) := by
      intro i
      induction i with
      | zero =>
        have h1 := he 0
        have h2 := hps 0
        have h3 : p 0 = 2 := rfl
        simp only [Nat.zero_add, Nat.zero_sub] at h1 h2 ⊢
        omega
      | succ i ih =>
        have h1 := he (i + 1)
        have h2 := hps (i + 1)
        omega
    intro i
    rw [hp]
    exact (key i).2
  have hz := pieces_isZip c ((List.range N).map t)
  have hcl : (List.replicate ((List.range N).map t).length 0 : Bytes).length = N := by simp
  refine ⟨_, _, _, hz, hcl, fun k hk => ?_⟩
  have hr := rinv_ofSize L hz (N : Int) (by omega)
  apply thin_deep L hz e (fun i hi => by rw [hcl]; exact he i) _ k 0 _ _ hr ⟨rfl, rfl, rfl, Nat.le_refl _, _⟩ rfl (by rw [hcl]; rfl) (by rw [he0]; rfl) (by rw [he0]; rfl)
  · simp [Reader.want, Reader.ofSize]
  · rw [hcl]; omega
  · intro i hi
    rw [hcl] at hi
    show (feed {} ((pieces ((List.range N).map t)).take (e i))).rout.reverse.length = i
    rw [List.length_reverse]
    obtain ⟨h1, h2⟩ := pieces_at t N i hi
    have h3 := ht i
    have h5 := take_mono {} (pieces ((List.range N).map t)) (show e i ≤ startOf t (i + 1) - 1 by omega)
    rcases i with _ | i
    · omega
    · have h4 := ht i
      have h6 := take_mono {} (pieces ((List.range N).map t)) h4.1
      omega
  · show (feed {} ((pieces ((List.range N).map t)).take 0)).rout.reverse.length = 0
    rw [List.take_zero]
    rfl

/-- **C90** not for all valid streams: with any limit there is an object that cannot be read. -/
theorem C90_no_limit : ¬ ∃ limit, ∀ (m : Bytes) (clen : Nat) (content : Bytes), IsZip storedZlib m clen content →
    ReadsWithin storedZlib limit (Reader.ofSize m content.length) (-1) := by
  rintro ⟨limit, h⟩
  obtain ⟨m, clen, content, h1, h2, h3⟩ := C90_crafted storing storedZlib_laws (limit + 8) (by omega)
  have h4 := h m clen content h1
  have h5 := h3 limit (by omega)
  rw [h2] at h4
  unfold NeedsMore at h5
  rw [show zlib storing = storedZlib from rfl, h4.1] at h5
  exact h4.2 h5

/-- The hypothesis of `C90_sized`. -/
example : NoStallFrom storedZlib 1 helloZip :=
  noStall_from (oneBlock_noStall storing helloZip 0xcb rfl (.inr (by decide))) 1
/-- Ten blocks of one byte: eight calls are needed, seven are not enough. -/
example : NoStallFrom storedZlib 1 (pieces (List.replicate 10 0)) :=
  noStall_from (parts_noStall storing 0x78 0x01 (List.replicate 10 (0, [0])) (by intro p hp; rw [List.eq_of_mem_replicate hp]; exact ⟨by decide, by simp, by decide⟩) 1
    (.inl (by decide)) _) 1
example : NeedsMore storedZlib 7 (Reader.ofSize (pieces (List.replicate 10 0)) 10) 10 := by
  unfold NeedsMore; decide +kernel
example : ReadsWithin storedZlib 8 (Reader.ofSize (pieces (List.replicate 10 0)) 10) 10 := by
  unfold ReadsWithin; decide +kernel

end GitDB.Props
