import Verif.Proofs.Stall
import Verif.Proofs.Stored
/-!
# Stored blocks one after the other do not stall
-/
set_option autoImplicit false

namespace GitDB.Deflate
open Spec

/-- The bytes of a stored block whose first byte is `b`. -/
def storedPart (p : UInt8 × Bytes) : Bytes := p.1 :: (le2 p.2.length ++ le2 (65535 - p.2.length)) ++ p.2

/-- A stored block that is not the last one, and not empty. -/
def GoodPart (p : UInt8 × Bytes) : Prop := p.1.toNat % 8 = 0 ∧ p.2 ≠ [] ∧ p.2.length ≤ 65535

theorem feed_type_zero (b : UInt8) (h : b.toNat % 8 = 0) (rout : Bytes) :
    stepByte ⟨rout, .collect .type 3 0 0⟩ b = ⟨rout, .collect (.storedLen false) 32 0 0⟩ := by
  have hbits : ∀ n : Fin 256, n.val % 8 = 0 → n.val.testBit 0 = false ∧ n.val.testBit 1 = false ∧ n.val.testBit 2 = false := by
    decide +kernel
  obtain ⟨h0, h1, h2⟩ := hbits ⟨b.toNat, b.toNat_lt⟩ h
  unfold stepByte byteBits
  simp only at h0 h1 h2
  rw [h0, h1, h2]
  rfl

theorem feed_part (p : UInt8 × Bytes) (h : GoodPart p) (rout : Bytes) :
    feed ⟨rout, .collect .type 3 0 0⟩ (storedPart p) = ⟨p.2.reverse ++ rout, .collect .type 3 0 0⟩ := by
  obtain ⟨h1, h2, h3⟩ := h
  have hl := List.length_pos_iff.mpr h2
  unfold storedPart
  rw [List.cons_append, feed_cons, feed_type_zero _ h1, feed_append, feed_storedLen _ _ _ h3, if_neg (by omega), feed_stored _ _ _ h2]
  rfl

theorem take_mono (s : Inf) (x : Bytes) {i j : Nat} (h : i ≤ j) :
    (feed s (x.take i)).rout.length ≤ (feed s (x.take j)).rout.length := by
  have e : x.take j = x.take i ++ (x.drop i).take (j - i) := by
    rw [← List.take_add]
    congr 1
    omega
  rw [e, feed_append]
  exact (feed_suffix _ _).length_le

theorem take_le (s : Inf) (x : Bytes) (i : Nat) : (feed s (x.take i)).rout.length ≤ (feed s x).rout.length := by
  have := take_mono s x (Nat.le_max_left i x.length)
  rwa [List.take_of_length_le (Nat.le_max_right i x.length)] at this

/-- The output after part of a block. -/
theorem part_out (p : UInt8 × Bytes) (h : GoodPart p) (rout y : Bytes) (k : Nat) (hk : k ≤ 5 + p.2.length) :
    (feed ⟨rout, .collect .type 3 0 0⟩ ((storedPart p ++ y).take k)).rout.length = rout.length + (k - 5) := by
  have hlen : (storedPart p).length = 5 + p.2.length := by
    simp only [storedPart, le2, List.length_append, List.length_cons, List.length_nil]
  obtain ⟨h1, h2, h3⟩ := h
  have hl := List.length_pos_iff.mpr h2
  rw [List.take_append_of_le_length (by omega)]
  have h5 : ∀ j, j ≤ p.2.length → (storedPart p).take (5 + j) = p.1 :: (le2 p.2.length ++ le2 (65535 - p.2.length)) ++ p.2.take j := by
    intro j hj
    unfold storedPart
    rw [List.take_append]
    rw [List.take_of_length_le (by simp [le2])]
    congr 1
    simp [le2]
  have hgo : ∀ j, feed ⟨rout, .collect .type 3 0 0⟩ (p.1 :: (le2 p.2.length ++ le2 (65535 - p.2.length)) ++ p.2.take j) =
      feed ⟨rout, .collect (.storedByte false p.2.length) 8 0 0⟩ (p.2.take j) := by
    intro j
    rw [List.cons_append, feed_cons, feed_type_zero _ h1, feed_append, feed_storedLen _ _ _ h3, if_neg (by omega)]
  rcases Nat.lt_or_ge k 5 with hk5 | hk5
  · have a1 := take_mono ⟨rout, .collect .type 3 0 0⟩ (storedPart p) (Nat.zero_le k)
    have a2 := take_mono ⟨rout, .collect .type 3 0 0⟩ (storedPart p) (show k ≤ 5 + 0 by omega)
    rw [h5 0 (by omega), hgo] at a2
    simp only [List.take_zero] at a1 a2
    have : (feed ⟨rout, .collect .type 3 0 0⟩ []).rout.length = rout.length := rfl
    have : (feed ⟨rout, .collect (.storedByte false p.2.length) 8 0 0⟩ []).rout.length = rout.length := rfl
    omega
  · obtain ⟨j, rfl⟩ : ∃ j, k = 5 + j := ⟨k - 5, by omega⟩
    rw [h5 j (by omega), hgo]
    rcases Nat.lt_or_ge j p.2.length with hj | hj
    · rw [feed_stored_some _ _ _ _ (by simp only [List.length_take]; omega)]
      simp only [List.length_append, List.length_reverse, List.length_take]
      omega
    · rw [List.take_of_length_le hj, feed_stored _ _ _ h2]
      simp only [List.length_append, List.length_reverse]
      omega

/-- From the beginning of a block: eight bytes have output; the first six have, if any have. -/
theorem parts_grow : ∀ (ps : List (UInt8 × Bytes)), (∀ p ∈ ps, GoodPart p) → ∀ (c : UInt8) (r rout : Bytes),
    (c.toNat % 8 = 1 ∨ c.toNat % 8 = 3) →
    (∀ n, (feed ⟨rout, .collect .type 3 0 0⟩ (((ps.map storedPart).flatten ++ c :: r).take n)).rout.length <
        (feed ⟨rout, .collect .type 3 0 0⟩ ((ps.map storedPart).flatten ++ c :: r)).rout.length →
      (feed ⟨rout, .collect .type 3 0 0⟩ (((ps.map storedPart).flatten ++ c :: r).take n)).rout.length <
        (feed ⟨rout, .collect .type 3 0 0⟩ (((ps.map storedPart).flatten ++ c :: r).take (n + 8))).rout.length) ∧
    (rout.length < (feed ⟨rout, .collect .type 3 0 0⟩ ((ps.map storedPart).flatten ++ c :: r)).rout.length →
      rout.length < (feed ⟨rout, .collect .type 3 0 0⟩ (((ps.map storedPart).flatten ++ c :: r).take 6)).rout.length) := by
  intro ps
  induction ps with
  | nil =>
    intro _ c r rout hc
    simp only [List.map_nil, List.flatten_nil, List.nil_append]
    have t3 := third_byte c hc rout
    have hblk : Blk (stepByte ⟨rout, .collect .type 3 0 0⟩ c).mode := by
      rcases t3 with ⟨_, h⟩ | h | ⟨_, h⟩
      · exact h
      · exact .inl h
      · exact .inr (h.mono (by omega))
    have hsix : rout.length < (feed ⟨rout, .collect .type 3 0 0⟩ (c :: r)).rout.length →
        rout.length < (feed ⟨rout, .collect .type 3 0 0⟩ ((c :: r).take 6)).rout.length := by
      intro h
      rw [show (c :: r).take 6 = c :: r.take 5 from rfl, feed_cons]
      rw [feed_cons] at h
      rcases t3 with ⟨h1, _⟩ | h1 | ⟨h1, h2⟩
      · have := (feed_suffix (r.take 5) (stepByte ⟨rout, .collect .type 3 0 0⟩ c)).length_le
        simp only at h1
        omega
      · rw [(tail_feed _ _ h1).2] at h ⊢
        exact h
      · simp only at h1
        by_cases hl : r.length ≤ 5
        · rw [List.take_of_length_le hl]; exact h
        · have := grows (stepByte ⟨rout, .collect .type 3 0 0⟩ c) 40 hblk (r.take 5) (fun _ => h2) (by
            simp only [List.length_take]; omega) (r.drop 5) (by rw [List.take_append_drop, ← h1]; exact h)
          rw [← h1] at this
          exact this
    refine ⟨fun n hn => ?_, hsix⟩
    rcases n with _ | j
    · have h6 := hsix hn
      have := take_mono ⟨rout, .collect .type 3 0 0⟩ (c :: r) (show 6 ≤ 0 + 8 by omega)
      exact Nat.lt_of_lt_of_le h6 this
    · have e1 : (c :: r).take (j + 1) = c :: r.take j := rfl
      have e2 : (c :: r).take (j + 1 + 8) = c :: r.take (j + 8) := rfl
      rw [e1, feed_cons] at hn
      rw [e1, e2, feed_cons, feed_cons]
      rw [feed_cons] at hn
      by_cases hl : r.length ≤ j + 8
      · rw [List.take_of_length_le hl]; exact hn
      · rw [List.take_add, feed_append]
        have hn' : (feed (stepByte ⟨rout, .collect .type 3 0 0⟩ c) (r.take j)).rout.length <
            (feed (feed (stepByte ⟨rout, .collect .type 3 0 0⟩ c) (r.take j)) ((r.drop j).take 8 ++ (r.drop j).drop 8)).rout.length := by
          rw [List.take_append_drop, ← feed_append, List.take_append_drop]
          exact hn
        refine grows _ 48 (blk_feed _ _ hblk) _ (fun h => h) ?_ ((r.drop j).drop 8) hn'
        simp only [List.length_take, List.length_drop]
        omega
  | cons p ps ih =>
    intro hps c r rout hc
    have hp := hps p (List.mem_cons_self ..)
    obtain ⟨i1, i2⟩ := ih (fun q hq => hps q (List.mem_cons_of_mem _ hq)) c r (p.2.reverse ++ rout) hc
    have hl := List.length_pos_iff.mpr hp.2.1
    have hlen : (storedPart p).length = 5 + p.2.length := by
      simp only [storedPart, le2, List.length_append, List.length_cons, List.length_nil]
    simp only [List.map_cons, List.flatten_cons, List.append_assoc]
    generalize (ps.map storedPart).flatten ++ c :: r = y at i1 i2
    have hout := part_out p hp rout y
    refine ⟨fun n hn => ?_, fun _ => ?_⟩
    · rcases Nat.lt_or_ge n (5 + p.2.length) with h | h
      · have a1 := hout n (by omega)
        have a2 := hout (min (n + 8) (5 + p.2.length)) (by omega)
        have a3 := take_mono ⟨rout, .collect .type 3 0 0⟩ (storedPart p ++ y) (show min (n + 8) (5 + p.2.length) ≤ n + 8 by omega)
        omega
      · obtain ⟨j, rfl⟩ : ∃ j, n = 5 + p.2.length + j := ⟨n - (5 + p.2.length), by omega⟩
        have e : ∀ k, (storedPart p ++ y).take (5 + p.2.length + k) = storedPart p ++ y.take k := by
          intro k
          rw [← hlen, List.take_length_add_append]
        rw [e, feed_append, feed_append, feed_part p hp] at hn
        rw [show 5 + p.2.length + j + 8 = 5 + p.2.length + (j + 8) by omega, e, e, feed_append, feed_append, feed_part p hp]
        exact i1 j hn
    · rw [hout 6 (by omega)]
      omega

theorem parts_noStall (cz : Compressor) (a b : UInt8) (ps : List (UInt8 × Bytes)) (hps : ∀ p ∈ ps, GoodPart p) (c : UInt8)
    (hc : c.toNat % 8 = 1 ∨ c.toNat % 8 = 3) (r : Bytes) :
    NoStall (zlib cz) (a :: b :: ((ps.map storedPart).flatten ++ c :: r)) := by
  intro n hn
  have e : ∀ x, ((zlib cz).out x).length = (feed {} x).rout.length := fun k => List.length_reverse
  rw [e, e] at hn
  rw [e, e]
  have h1 : feed {} [a] = ⟨[], .collect .head 16 8 (0 + 2 ^ 0 * a.toNat)⟩ :=
    stepByte_collect [] .head 16 0 0 a (by omega)
  have h2 : feed {} [a, b] = collected [] 7 (0 + 2 ^ 0 * a.toNat + 2 ^ 8 * b.toNat) .head := by
    rw [feed_cons, show stepByte {} a = _ from h1]
    exact stepByte_collected [] .head 16 8 _ b (by omega)
  have hx : ∀ x, feed {} (a :: b :: x) = feed (feed {} [a, b]) x := fun x => feed_append {} [a, b] x
  have hstart : Tail (feed {} [a, b]).mode ∨ feed {} [a, b] = ⟨[], .collect .type 3 0 0⟩ := by
    rw [h2]
    generalize 0 + 2 ^ 0 * a.toNat + 2 ^ 8 * b.toNat = v
    rw [collected]
    split
    · exact .inl .bad
    · split
      · exact .inl (.dictId _ _ _)
      · exact .inr rfl
  have hr : (feed {} [a, b]).rout = [] := by
    rw [h2]
    generalize 0 + 2 ^ 0 * a.toNat + 2 ^ 8 * b.toNat = v
    rw [collected]
    split
    · rfl
    · split <;> rfl
  rw [hx] at hn
  rcases hstart with ht | hs
  · rw [(tail_feed _ _ ht).2, hr] at hn
    simp at hn
  · obtain ⟨g1, g2⟩ := parts_grow ps hps c r [] hc
    rw [hs] at hn hx
    generalize (ps.map storedPart).flatten ++ c :: r = y at *
    by_cases h : 2 ≤ n
    · obtain ⟨j, rfl⟩ : ∃ j, n = j + 2 := ⟨n - 2, by omega⟩
      have e1 : (a :: b :: y).take (j + 2) = a :: b :: y.take j := rfl
      have e2 : (a :: b :: y).take (j + 2 + 8) = a :: b :: y.take (j + 8) := rfl
      rw [e1, hx] at hn
      rw [e1, e2, hx, hx]
      exact g1 j hn
    · have h0 : (feed {} ((a :: b :: y).take n)).rout = [] := by
        rcases n with _ | _ | n
        · rfl
        · show (feed {} [a]).rout = []
          rw [h1]
        · omega
      rw [h0] at hn ⊢
      have e2 : (a :: b :: y).take (n + 8) = a :: b :: y.take (n + 6) := rfl
      rw [e2, hx]
      exact Nat.lt_of_lt_of_le (g2 hn) (take_mono _ y (by omega))

/-! ## What the storing compressor emits -/

theorem storedBlocks_parts : ∀ (n : Nat) (x : Bytes), x.length ≤ n →
    ∃ ps : List (UInt8 × Bytes), (∀ p ∈ ps, GoodPart p) ∧ storedBlocks x = (ps.map storedPart).flatten := by
  intro n
  induction n with
  | zero =>
    intro x h
    have : x = [] := by simpa using h
    subst this
    exact ⟨[], by simp, by rw [storedBlocks]; rfl⟩
  | succ n ih =>
    intro x h
    rw [storedBlocks]
    split
    · exact ⟨[], by simp, rfl⟩
    · rename_i h0
      have hl := List.length_pos_iff.mpr h0
      obtain ⟨ps, h1, h2⟩ := ih (x.drop 65535) (by simp; omega)
      refine ⟨(0, x.take 65535) :: ps, ?_, by rw [h2]; rfl⟩
      intro p hp
      rcases List.mem_cons.1 hp with rfl | hp
      · exact ⟨rfl, by simpa using h0, by simp; omega⟩
      · exact h1 p hp

theorem emit_parts : ∀ (ds : List Bytes) (c : Bool × Bytes), ∃ (ps : List (UInt8 × Bytes)) (r : Bytes), (∀ p ∈ ps, GoodPart p) ∧
    storedZlib.emit c ds = zhead c.1 ++ ((ps.map storedPart).flatten ++ 1 :: r) := by
  intro ds
  induction ds with
  | nil =>
    intro c
    exact ⟨[], (le2 0 ++ le2 65535) ++ be4 (adler32 c.2), by simp, by
      show zhead c.1 ++ 1 :: (le2 0 ++ le2 65535) ++ be4 (adler32 c.2) = _
      simp⟩
  | cons d ds ih =>
    intro c
    obtain ⟨ps, r, h1, h2⟩ := ih (true, c.2 ++ d)
    obtain ⟨qs, h3, h4⟩ := storedBlocks_parts d.length d (Nat.le_refl _)
    refine ⟨qs ++ ps, r, ?_, ?_⟩
    · intro p hp
      rcases List.mem_append.1 hp with hp | hp
      · exact h3 p hp
      · exact h1 p hp
    · show (zhead c.1 ++ storedBlocks d) ++ storedZlib.emit (true, c.2 ++ d) ds = _
      rw [h2, h4]
      simp [zhead]

theorem stored_noStall (level : Int) (ds : List Bytes) : NoStall storedZlib (storedZlib.emit (storedZlib.cinit level) ds) := by
  obtain ⟨ps, r, h1, h2⟩ := emit_parts ds (false, [])
  show NoStall storedZlib (storedZlib.emit (false, []) ds)
  rw [h2]
  exact parts_noStall storing 0x78 0x01 ps h1 1 (by decide) r

theorem storedBlocks_length : ∀ (n : Nat) (x : Bytes), x.length ≤ n → (storedBlocks x).length ≤ 6 * x.length := by
  intro n
  induction n with
  | zero =>
    intro x h
    have : x = [] := by simpa using h
    subst this
    rw [storedBlocks]
    simp
  | succ n ih =>
    intro x h
    rw [storedBlocks]
    split
    · simp
    · rename_i h0
      have hl := List.length_pos_iff.mpr h0
      have := ih (x.drop 65535) (by simp; omega)
      simp only [List.length_drop] at this
      simp only [List.length_append, storedBlock, le2, List.length_cons, List.length_nil, List.length_take]
      omega

theorem emit_length : ∀ (ds : List Bytes) (c : Bool × Bytes),
    (storedZlib.emit c ds).length ≤ (zhead c.1).length + 9 + 6 * ds.flatten.length := by
  intro ds
  induction ds with
  | nil =>
    intro c
    show (zhead c.1 ++ 1 :: (le2 0 ++ le2 65535) ++ be4 (adler32 c.2)).length ≤ _
    simp only [List.length_append, le2, be4, List.length_cons, List.length_nil, List.flatten_nil]
    omega
  | cons d ds ih =>
    intro c
    show ((zhead c.1 ++ storedBlocks d) ++ storedZlib.emit (true, c.2 ++ d) ds).length ≤ _
    have h1 := ih (true, c.2 ++ d)
    have h2 := storedBlocks_length _ d (Nat.le_refl _)
    have h3 : (zhead (true, c.2 ++ d).1).length = 0 := rfl
    simp only [List.length_append, List.flatten_cons]
    omega

end GitDB.Deflate
