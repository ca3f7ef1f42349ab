import Verif.Proofs.Stall
import Verif.Proofs.Rfc
/-!
# Streams of a single block, of any kind: how long they can go on without output
-/
set_option autoImplicit false

namespace GitDB.Deflate
open Spec

theorem counts_le {lens : List Nat} {n : Nat} (h : ∀ l ∈ lens, l ≤ n) : (Huff.ofLengths lens).counts.length ≤ n := by
  rw [counts_length, longest]
  rcases (foldl_max_le lens 0).2.2 with h1 | h1
  · omega
  · exact h _ h1

/-- The code lengths that are known so far are possible ones. -/
structure DynOk (d : Dyn) : Prop where
  final : d.final = true
  total : d.nlen + d.ndist ≤ 316
  lens : d.lens.counts.length ≤ 7
  known : ∀ l ∈ d.rlens, l ≤ 15
  more : d.rlens.length < d.nlen + d.ndist

/-- In the header of a last block with codes of its own, with output or the end of the block after at most `k` further bits. -/
inductive Pre (k : Nat) : Mode → Prop
  | table (need got acc : Nat) : got < need → need - got + 2317 ≤ k → Pre k (.collect (.table true) need got acc)
  | lenLens (nlen ndist : Nat) (order : List Nat) (known : List (Nat × Nat)) (got acc : Nat) : 1 ≤ nlen → nlen + ndist ≤ 316 →
      (∀ p ∈ known, p.2 ≤ 7) → got < 3 → acc < 2 ^ got → 3 - got + 3 * (order.length - 1) + 2260 ≤ k →
      Pre k (.collect (.lenLens true nlen ndist order known) 3 got acc)
  | codeLen (d : Dyn) (cs : List Nat) (code first index n : Nat) : DynOk d → cs.length ≤ n → 1 ≤ n →
      n + 7 * (d.nlen + d.ndist - d.rlens.length - 1) + 48 ≤ k → Pre k (.decode (.codeLen d) cs code first index)
  | repeatPrev (d : Dyn) (need got acc : Nat) : DynOk d → got < need → need - got ≤ k →
      (d.rlens.length + 3 ≤ d.nlen + d.ndist → need - got + 7 * (d.nlen + d.ndist - d.rlens.length - 3) + 48 ≤ k) →
      Pre k (.collect (.repeatPrev d) need got acc)
  | repeatZero (d : Dyn) (base need got acc : Nat) : DynOk d → 1 ≤ base → got < need → need - got ≤ k →
      (d.rlens.length + base ≤ d.nlen + d.ndist → need - got + 7 * (d.nlen + d.ndist - d.rlens.length - base) + 48 ≤ k) →
      Pre k (.collect (.repeatZero d base) need got acc)

/-- In the header or in the data of the last block. -/
def Early (k : Nat) (m : Mode) : Prop := Pre k m ∨ Wait k m

theorem Early.pos {k : Nat} {m : Mode} (h : Early k m) : 1 ≤ k := by
  rcases h with h | h
  · cases h <;> omega
  · exact h.pos

/-- What happens within `k` bits: output, the end, or less to wait. -/
def Goes (k : Nat) (s t : Inf) : Prop :=
  (s.rout.length < t.rout.length ∧ Blk t.mode) ∨ Tail t.mode ∨ (s.rout = t.rout ∧ Early k t.mode)

theorem Moves.goes {k : Nat} {s t : Inf} (h : Moves k s t) : Goes k s t := by
  rcases h with h | h | ⟨h1, h2⟩
  · exact .inl h
  · exact .inr (.inl h)
  · exact .inr (.inr ⟨h1, .inr h2⟩)

theorem doTable_early (d : Dyn) (hf : d.final = true) (rlens : List Nat) (h : ∀ l ∈ rlens, l ≤ 15) {k : Nat} (hk : 48 ≤ k) :
    Tail (doTable d rlens) ∨ Early k (doTable d rlens) := by
  unfold doTable
  simp only
  split
  · exact .inl .bad
  · split
    · right; right
      refine (wait_startLit _ hf ?_ ?_).mono hk
      · exact counts_le fun l hl => h l (List.mem_reverse.mp (List.mem_of_mem_take hl))
      · exact counts_le fun l hl => h l (List.mem_reverse.mp (List.mem_of_mem_drop hl))
    · exact .inl .bad

theorem doLens_early (d : Dyn) (hd : DynOk d) (n val : Nat) (hn : 1 ≤ n) (hv : val ≤ 15) {k : Nat}
    (hk : d.rlens.length + n ≤ d.nlen + d.ndist → 7 * (d.nlen + d.ndist - d.rlens.length - n) + 48 ≤ k) :
    Tail (doLens d n val) ∨ Early k (doLens d n val) := by
  have hall : ∀ l ∈ List.replicate n val ++ d.rlens, l ≤ 15 := by
    intro l hl
    rcases List.mem_append.mp hl with h | h
    · rw [(List.mem_replicate.mp h).2]; exact hv
    · exact hd.known l h
  unfold doLens
  simp only
  split
  · exact .inl .bad
  · split
    · exact doTable_early d hd.final _ hall (by omega)
    · right; left
      refine .codeLen _ _ _ _ _ 7 ⟨hd.final, hd.total, hd.lens, hall, ?_⟩ hd.lens (by omega) ?_
      · simp only [List.length_append, List.length_replicate]; omega
      · simp only [List.length_append, List.length_replicate]; omega

theorem find_le (kn : List (Nat × Nat)) (h : ∀ p ∈ kn, p.2 ≤ 7) (x : Nat) :
    ((kn.find? (·.1 == x)).map (·.2)).getD 0 ≤ 7 := by
  rcases hf : kn.find? (·.1 == x) with _ | p
  · rw [hf]; simp
  · rw [hf]; simpa using h p (List.mem_of_find?_eq_some hf)

theorem pre_bitStep (s : Inf) (i : Nat) (b : Bool) (k : Nat) (h : Pre k s.mode) : Goes (k - 1) s (bitStep s i b) := by
  obtain ⟨rout, mode⟩ := s
  cases h with
  | table need got acc h1 h2 =>
    by_cases hg : got + 1 = need
    · rw [bitStep_collected _ _ _ _ _ _ _ hg]
      generalize acc + _ = v
      rw [collected]
      split
      · exact .inr (.inl .bad)
      · refine .inr (.inr ⟨rfl, .inl (.lenLens _ _ _ _ _ _ (by omega) (by omega) (by simp) (by omega) (by simp) ?_)⟩)
        have : (lengthOrder.take (v / 1024 + 4)).length ≤ 19 := by
          rw [List.length_take]; exact Nat.le_trans (Nat.min_le_right _ _) (Nat.le_refl _)
        omega
    · rw [bitStep_collect _ _ _ _ _ _ _ (by omega)]
      exact .inr (.inr ⟨rfl, .inl (.table _ _ _ (by omega) (by omega))⟩)
  | lenLens nlen ndist order known got acc h0 h1 h2 h3 h4 h5 =>
    have hacc : acc + (if b = true then 2 ^ got else 0) < 2 ^ (got + 1) := by
      rw [Nat.pow_succ]; split <;> omega
    by_cases hg : got + 1 = 3
    · rw [bitStep_collected _ _ _ _ _ _ _ hg]
      rw [hg] at hacc
      generalize acc + _ = v at *
      rw [collected]
      have hall : ∀ p ∈ (order.headD 0, v) :: known, p.2 ≤ 7 := by
        intro p hp
        rcases List.mem_cons.mp hp with rfl | hp
        · simp only; omega
        · exact h2 p hp
      simp only
      generalize (order.headD 0, v) :: known = kn at *
      split
      · split
        · refine .inr (.inr ⟨rfl, .inl (.codeLen _ _ _ _ _ 7 ⟨rfl, h1, ?_, by simp, by simp only [List.length_nil]; omega⟩ ?_ (by omega) ?_)⟩)
          · refine counts_le fun l hl => ?_
            obtain ⟨x, _, rfl⟩ := List.mem_map.mp hl
            exact find_le kn hall x
          · refine counts_le fun l hl => ?_
            obtain ⟨x, _, rfl⟩ := List.mem_map.mp hl
            exact find_le kn hall x
          · simp only [List.length_nil]; omega
        · exact .inr (.inl .bad)
      · rename_i o hne
        refine .inr (.inr ⟨rfl, .inl (.lenLens _ _ _ _ _ _ h0 h1 hall (by omega) (by simp) ?_)⟩)
        have e : order.tail.length = order.length - 1 := List.length_tail
        have : order.tail.length ≠ 0 := fun e => hne (List.length_eq_zero_iff.mp e)
        omega
    · rw [bitStep_collect _ _ _ _ _ _ _ (by omega)]
      exact .inr (.inr ⟨rfl, .inl (.lenLens _ _ _ _ _ _ h0 h1 h2 (by omega) hacc (by omega))⟩)
  | codeLen d cs code first index n h1 h2 h3 h4 =>
    have hm := h1.more
    rcases cs with _ | ⟨x, cs⟩
    · have := doLens_early d h1 1 0 (by omega) (by omega) (k := k - 1) (by omega)
      rcases this with h | h
      · exact .inr (.inl h)
      · exact .inr (.inr ⟨rfl, h⟩)
    · unfold bitStep
      simp only
      generalize (if b = true then 1 else 0) = bb
      split
      · generalize (Sym.huff (.codeLen d)).syms.getD _ 0 = y
        simp only [decoded]
        split
        · have := doLens_early d h1 1 y (by omega) (by omega) (k := k - 1) (by omega)
          rcases this with h | h
          · exact .inr (.inl h)
          · exact .inr (.inr ⟨rfl, h⟩)
        · split
          · exact .inr (.inr ⟨rfl, .inl (.repeatPrev d _ _ _ h1 (by omega) (by omega) (by omega))⟩)
          · split
            · exact .inr (.inr ⟨rfl, .inl (.repeatZero d _ _ _ _ h1 (by omega) (by omega) (by omega) (by omega))⟩)
            · exact .inr (.inr ⟨rfl, .inl (.repeatZero d _ _ _ _ h1 (by omega) (by omega) (by omega) (by omega))⟩)
      · split
        · exact .inr (.inl .bad)
        · rename_i hne
          simp only [List.length_cons] at h2
          have : cs.length ≠ 0 := by intro e; exact hne (by rw [List.length_eq_zero_iff.mp e]; rfl)
          exact .inr (.inr ⟨rfl, .inl (.codeLen d cs _ _ _ (n - 1) h1 (by omega) (by omega) (by omega))⟩)
  | repeatPrev d need got acc h1 h2 h3 h4 =>
    have hm := h1.more
    by_cases hg : got + 1 = need
    · rw [bitStep_collected _ _ _ _ _ _ _ hg]
      generalize acc + _ = v
      rw [collected]
      split
      · exact .inr (.inl .bad)
      · rename_i prev rl hr
        have := doLens_early d h1 (3 + v) prev (by omega) (h1.known _ (by rw [hr]; simp)) (k := k - 1) (by omega)
        rcases this with h | h
        · exact .inr (.inl h)
        · exact .inr (.inr ⟨rfl, h⟩)
    · rw [bitStep_collect _ _ _ _ _ _ _ (by omega)]
      exact .inr (.inr ⟨rfl, .inl (.repeatPrev d _ _ _ h1 (by omega) (by omega) (by omega))⟩)
  | repeatZero d base need got acc h1 h0 h2 h3 h4 =>
    have hm := h1.more
    by_cases hg : got + 1 = need
    · rw [bitStep_collected _ _ _ _ _ _ _ hg]
      generalize acc + _ = v
      rw [collected]
      have := doLens_early d h1 (base + v) 0 (by omega) (by omega) (k := k - 1) (by omega)
      rcases this with h | h
      · exact .inr (.inl h)
      · exact .inr (.inr ⟨rfl, h⟩)
    · rw [bitStep_collect _ _ _ _ _ _ _ (by omega)]
      exact .inr (.inr ⟨rfl, .inl (.repeatZero d _ _ _ _ h1 h0 (by omega) (by omega) (by omega))⟩)

theorem early_bitStep (s : Inf) (i : Nat) (b : Bool) (k : Nat) (h : Early k s.mode) : Goes (k - 1) s (bitStep s i b) := by
  rcases h with h | h
  · exact pre_bitStep s i b k h
  · exact (wait_bitStep s i b k h).goes

theorem early_runBits : ∀ (bs : List Bool) (s : Inf) (i k : Nat), Early k s.mode → Goes (k - bs.length) s (runBits s i bs) := by
  intro bs
  induction bs with
  | nil => intro s i k h; exact .inr (.inr ⟨rfl, h⟩)
  | cons b bs ih =>
    intro s i k h
    rw [runBits]
    rcases early_bitStep s i b k h with ⟨h1, h2⟩ | h1 | ⟨h1, h2⟩
    · refine .inl ⟨?_, blk_runBits _ _ _ h2⟩
      have := (runBits_suffix bs (bitStep s i b) (i + 1)).length_le
      omega
    · exact .inr (.inl (tail_runBits _ _ _ h1).1)
    · have := ih (bitStep s i b) (i + 1) (k - 1) h2
      unfold Goes at this ⊢
      rw [h1, List.length_cons, show k - (bs.length + 1) = k - 1 - bs.length by omega]
      exact this

theorem early_feed : ∀ (x : Bytes) (s : Inf) (k : Nat), Early k s.mode → Goes (k - 8 * x.length) s (feed s x) := by
  intro x
  induction x with
  | nil => intro s k h; exact .inr (.inr ⟨rfl, h⟩)
  | cons b x ih =>
    intro s k h
    rw [feed_cons]
    have hb : (byteBits b).length = 8 := rfl
    rcases early_runBits (byteBits b) s 0 k h with ⟨h1, h2⟩ | h1 | ⟨h1, h2⟩
    · refine .inl ⟨?_, blk_feed _ _ h2⟩
      have := (feed_suffix x (stepByte s b)).length_le
      unfold stepByte at this ⊢
      omega
    · exact .inr (.inl (tail_feed _ _ h1).1)
    · have := ih (stepByte s b) (k - 8) h2
      unfold Goes at this ⊢
      rw [h1, List.length_cons, show k - 8 * (x.length + 1) = k - 8 - 8 * x.length by omega]
      exact this

/-- The third byte of the stream begins a last block. -/
theorem third_byte_odd (b : UInt8) (h : b.toNat % 2 = 1) (rout : Bytes) :
    Goes 2326 ⟨rout, .collect .type 3 0 0⟩ (stepByte ⟨rout, .collect .type 3 0 0⟩ b) := by
  have hw : ∀ k, Moves 40 ⟨rout, .collect .type 3 0 0⟩ k → Goes 2326 ⟨rout, .collect .type 3 0 0⟩ k := by
    intro k hk
    rcases hk with h | h | ⟨h1, h2⟩
    · exact .inl h
    · exact .inr (.inl h)
    · exact .inr (.inr ⟨h1, .inr (h2.mono (by omega))⟩)
  have h8 : b.toNat % 8 = 1 ∨ b.toNat % 8 = 3 ∨ b.toNat % 8 = 5 ∨ b.toNat % 8 = 7 := by omega
  rcases h8 with h8 | h8 | h8
  · exact hw _ (third_byte b (.inl h8) rout)
  · exact hw _ (third_byte b (.inr h8) rout)
  · have hbits : ∀ n : Fin 256, (n.val % 8 = 5 → n.val.testBit 0 = true ∧ n.val.testBit 1 = false ∧ n.val.testBit 2 = true) ∧
        (n.val % 8 = 7 → n.val.testBit 0 = true ∧ n.val.testBit 1 = true ∧ n.val.testBit 2 = true) := by decide +kernel
    have hb := hbits ⟨b.toNat, b.toNat_lt⟩
    simp only at hb
    unfold stepByte byteBits
    rw [show ∀ (a b c d e f g h : Bool), runBits ⟨rout, .collect .type 3 0 0⟩ 0 [a, b, c, d, e, f, g, h] =
      runBits (bitStep (bitStep (bitStep ⟨rout, .collect .type 3 0 0⟩ 0 a) 1 b) 2 c) 3 [d, e, f, g, h] from fun _ _ _ _ _ _ _ _ => rfl]
    rw [bitStep_collect _ _ _ _ _ _ _ (by omega), bitStep_collect _ _ _ _ _ _ _ (by omega), bitStep_collected _ _ _ _ _ _ _ (by omega)]
    rcases h8 with h | h
    · obtain ⟨h0, h1, h2⟩ := hb.1 h
      rw [h0, h1, h2]
      have : collected rout 2 (0 + (if true = true then 2 ^ 0 else 0) + (if false = true then 2 ^ (0 + 1) else 0) +
          if true = true then 2 ^ (0 + 1 + 1) else 0) .type = ⟨rout, .collect (.table true) 14 0 0⟩ := rfl
      rw [this]
      exact early_runBits [_, _, _, _, _] ⟨rout, .collect (.table true) 14 0 0⟩ 3 2331 (.inl (.table _ _ _ (by omega) (by omega)))
    · obtain ⟨h0, h1, h2⟩ := hb.2 h
      rw [h0, h1, h2]
      have : collected rout 2 (0 + (if true = true then 2 ^ 0 else 0) + (if true = true then 2 ^ (0 + 1) else 0) +
          if true = true then 2 ^ (0 + 1 + 1) else 0) .type = ⟨rout, .bad⟩ := rfl
      rw [this]
      exact .inr (.inl (tail_runBits _ _ _ .bad).1)

theorem three_bytes_odd (a b c : UInt8) (h : c.toNat % 2 = 1) :
    (feed {} [a]).rout = [] ∧ (feed {} [a, b]).rout = [] ∧ Goes 2326 {} (feed {} [a, b, c]) := by
  have h1 : feed {} [a] = ⟨[], .collect .head 16 8 (0 + 2 ^ 0 * a.toNat)⟩ :=
    stepByte_collect [] .head 16 0 0 a (by omega)
  have h2 : feed {} [a, b] = collected [] 7 (0 + 2 ^ 0 * a.toNat + 2 ^ 8 * b.toNat) .head := by
    rw [feed_cons, show stepByte {} a = _ from h1]
    exact stepByte_collected [] .head 16 8 _ b (by omega)
  have h3 : feed {} [a, b, c] = stepByte (feed {} [a, b]) c := rfl
  rw [h3, h1, h2]
  generalize 0 + 2 ^ 0 * a.toNat + 2 ^ 8 * b.toNat = v
  refine ⟨rfl, ?_⟩
  rw [collected]
  split
  · exact ⟨rfl, .inr (.inl (tail_runBits _ _ _ .bad).1)⟩
  · split
    · exact ⟨rfl, .inr (.inl (tail_runBits _ _ _ (.dictId _ _ _)).1)⟩
    · exact ⟨rfl, third_byte_odd c h []⟩

/-- After any number of bytes of a stream of a single block. -/
theorem oneBlock_state (m : Bytes) (b : UInt8) (hb : m[2]? = some b) (h : b.toNat % 2 = 1) (n : Nat) :
    (feed {} (m.take n)).rout = [] ∧ (n < 3 ∨ n < 294 ∨ Tail (feed {} (m.take n)).mode ∨ m.length < 294) ∨
      (feed {} (m.take n)).rout ≠ [] ∧ Blk (feed {} (m.take n)).mode := by
  obtain ⟨a, b', c, r, rfl⟩ : ∃ a b' c r, m = a :: b' :: c :: r := by
    rcases m with _ | ⟨a, _ | ⟨b', _ | ⟨c, r⟩⟩⟩
    · simp at hb
    · simp at hb
    · simp at hb
    · exact ⟨a, b', c, r, rfl⟩
  obtain rfl : c = b := by simpa using hb
  obtain ⟨t1, t2, t3⟩ := three_bytes_odd a b' c h
  by_cases h3 : 3 ≤ n
  · obtain ⟨j, rfl⟩ : ∃ j, n = j + 3 := ⟨n - 3, by omega⟩
    have e1 : (a :: b' :: c :: r).take (j + 3) = [a, b', c] ++ r.take j := rfl
    rw [e1, feed_append]
    have hne : ∀ s : Inf, 0 < s.rout.length → s.rout ≠ [] := fun s h => List.length_pos_iff.mp h
    rcases t3 with ⟨h1, h2⟩ | h1 | ⟨h1, h2⟩
    · refine .inr ⟨hne _ ?_, blk_feed _ _ h2⟩
      have := (feed_suffix (r.take j) (feed {} [a, b', c])).length_le
      exact Nat.lt_of_lt_of_le h1 this
    · rcases Classical.em ((feed (feed {} [a, b', c]) (r.take j)).rout = []) with he | he
      · exact .inl ⟨he, .inr (.inr (.inl (tail_feed _ _ h1).1))⟩
      · exact .inr ⟨he, .inl (tail_feed _ _ h1).1⟩
    · have h1' : (feed {} [a, b', c]).rout = [] := h1.symm
      rcases early_feed (r.take j) (feed {} [a, b', c]) 2326 h2 with ⟨h3, h4⟩ | h3 | ⟨h3, h4⟩
      · rw [h1'] at h3
        exact .inr ⟨hne _ h3, h4⟩
      · rcases Classical.em ((feed (feed {} [a, b', c]) (r.take j)).rout = []) with he | he
        · exact .inl ⟨he, .inr (.inr (.inl h3))⟩
        · exact .inr ⟨he, .inl h3⟩
      · refine .inl ⟨by rw [← h3, h1'], ?_⟩
        have := h4.pos
        rw [List.length_take] at this
        simp only [List.length_cons]
        omega
  · left
    refine ⟨?_, .inl (by omega)⟩
    rcases n with _ | _ | _ | n
    · rfl
    · exact t1
    · exact t2
    · omega

/-- A stream with a single block does not go on for eight bytes without output, once there was output - whatever its bytes. -/
theorem oneBlock_noStallFrom (cz : Compressor) (m : Bytes) (b : UInt8) (hb : m[2]? = some b) (h : b.toNat % 2 = 1) :
    NoStallFrom (zlib cz) 1 m := by
  intro n h0 hn
  have e : ∀ k, ((zlib cz).out (m.take k)).length = (feed {} (m.take k)).rout.length := fun k => List.length_reverse
  have em : ((zlib cz).out m).length = (feed {} m).rout.length := List.length_reverse
  rw [e] at h0
  rw [e, em] at hn
  rw [e, e]
  by_cases hl : m.length ≤ n + 8
  · rw [List.take_of_length_le hl]
    exact hn
  rcases oneBlock_state m b hb h n with ⟨h1, _⟩ | ⟨_, h1⟩
  · rw [h1] at h0
    simp at h0
  · have e3 : m = m.take n ++ ((m.drop n).take 8 ++ (m.drop n).drop 8) := by
      rw [List.take_append_drop, List.take_append_drop]
    have e2 : m.take (n + 8) = m.take n ++ (m.drop n).take 8 := List.take_add
    rw [e2, feed_append]
    refine grows _ 48 h1 _ (fun h => h) ?_ ((m.drop n).drop 8) ?_
    · simp only [List.length_take, List.length_drop]; omega
    · rw [← feed_append, ← e3]; exact hn

/-- It has output within its first 294 bytes, if at all. -/
theorem oneBlock_first (cz : Compressor) (m : Bytes) (b : UInt8) (hb : m[2]? = some b) (h : b.toNat % 2 = 1) :
    (zlib cz).out m = [] ∨ 0 < ((zlib cz).out (m.take 294)).length := by
  have e : ∀ x, (zlib cz).out x = (feed {} x).rout.reverse := fun _ => rfl
  rcases Nat.lt_or_ge m.length 294 with hl | hl
  · rw [List.take_of_length_le (by omega)]
    rcases Nat.eq_zero_or_pos ((zlib cz).out m).length with h0 | h0
    · exact .inl (List.length_eq_zero_iff.mp h0)
    · exact .inr h0
  · rcases oneBlock_state m b hb h 294 with ⟨h1, h2⟩ | ⟨h1, _⟩
    · left
      have ht : Tail (feed {} (m.take 294)).mode := by
        rcases h2 with h2 | h2 | h2 | h2
        · omega
        · omega
        · exact h2
        · omega
      have e3 : m = m.take 294 ++ m.drop 294 := (List.take_append_drop _ _).symm
      rw [e, e3, feed_append, (tail_feed _ _ ht).2, h1]
      rfl
    · right
      rw [e, List.length_reverse]
      exact List.length_pos_iff.mpr h1

end GitDB.Deflate
