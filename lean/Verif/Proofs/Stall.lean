import Verif.Proofs.Stored
import Verif.Spec.Zip
/-!
# How long a DEFLATE stream can go on without output
-/
set_option autoImplicit false

namespace GitDB.Deflate
open Spec

/-- No more output will come. -/
inductive Tail : Mode → Prop
  | done : Tail .done
  | bad : Tail .bad
  | check (need got acc : Nat) : Tail (.collect .check need got acc)
  | dictId (need got acc : Nat) : Tail (.collect .dictId need got acc)
  | skip (left need : Nat) : Tail (.skip left .check need)

/-- In the data of the last block, with output or the end of the block after at most `k` further bits. -/
inductive Wait (k : Nat) : Mode → Prop
  | lit (c : Codes) (cs : List Nat) (code first index n : Nat) : c.final = true → c.lit.counts.length ≤ 15 → c.dist.counts.length ≤ 15 →
      cs.length ≤ n → 1 ≤ n → n + 33 ≤ k → Wait k (.decode (.lit c) cs code first index)
  | lenExtra (c : Codes) (base need got acc : Nat) : c.final = true → c.lit.counts.length ≤ 15 → c.dist.counts.length ≤ 15 →
      1 ≤ base → got < need → need - got + 28 ≤ k → Wait k (.collect (.lenExtra c base) need got acc)
  | dist (c : Codes) (len : Nat) (cs : List Nat) (code first index n : Nat) : c.final = true → c.lit.counts.length ≤ 15 →
      c.dist.counts.length ≤ 15 → 1 ≤ len → cs.length ≤ n → 1 ≤ n → n + 13 ≤ k → Wait k (.decode (.dist c len) cs code first index)
  | distExtra (c : Codes) (len base need got acc : Nat) : c.final = true → c.lit.counts.length ≤ 15 → c.dist.counts.length ≤ 15 →
      1 ≤ len → got < need → need - got ≤ k → Wait k (.collect (.distExtra c len base) need got acc)
  | storedByte (left need got acc : Nat) : got < need → need - got ≤ k → Wait k (.collect (.storedByte true left) need got acc)
  | storedLen (need got acc : Nat) : got < need → need - got + 8 ≤ k → Wait k (.collect (.storedLen true) need got acc)
  | skip (left need : Nat) : 1 ≤ left → 1 ≤ need → left + need + 8 ≤ k → Wait k (.skip left (.storedLen true) need)

theorem Wait.mono {k k' : Nat} {m : Mode} (h : Wait k m) (hk : k ≤ k') : Wait k' m := by
  cases h with
  | lit c cs code first index n h1 h2 h3 h4 h5 h6 => exact .lit _ _ _ _ _ n h1 h2 h3 h4 h5 (by omega)
  | lenExtra c base need got acc h1 h2 h3 h4 h5 h6 => exact .lenExtra _ _ _ _ _ h1 h2 h3 h4 h5 (by omega)
  | dist c len cs code first index n h1 h2 h3 h4 h5 h6 h7 => exact .dist _ _ _ _ _ _ n h1 h2 h3 h4 h5 h6 (by omega)
  | distExtra c len base need got acc h1 h2 h3 h4 h5 h6 => exact .distExtra _ _ _ _ _ _ h1 h2 h3 h4 h5 (by omega)
  | storedByte left need got acc h1 h2 => exact .storedByte _ _ _ _ h1 (by omega)
  | storedLen need got acc h1 h2 => exact .storedLen _ _ _ h1 (by omega)
  | skip left need h1 h2 h3 => exact .skip _ _ h1 h2 (by omega)

theorem Wait.pos {k : Nat} {m : Mode} (h : Wait k m) : 1 ≤ k := by
  cases h <;> omega

/-- In the data of the last block or behind it. -/
def Blk (m : Mode) : Prop := Tail m ∨ Wait 48 m

theorem tail_bitStep (s : Inf) (i : Nat) (b : Bool) (h : Tail s.mode) : Tail (bitStep s i b).mode ∧ (bitStep s i b).rout = s.rout := by
  obtain ⟨rout, mode⟩ := s
  cases h with
  | done => exact ⟨.done, rfl⟩
  | bad => exact ⟨.bad, rfl⟩
  | check need got acc =>
    obtain ⟨h1, h2⟩ := inCheck_bitStep ⟨rout, _⟩ i b (.inr (.inr ⟨need, got, acc, rfl⟩))
    refine ⟨?_, h2⟩
    rcases h1 with h1 | h1 | ⟨_, _, _, h1⟩ <;> rw [h1] <;> constructor
  | dictId need got acc =>
    unfold bitStep
    simp only
    split
    · exact ⟨.bad, rfl⟩
    · exact ⟨.dictId _ _ _, rfl⟩
  | skip left need =>
    unfold bitStep
    simp only
    refine ⟨?_, trivial⟩
    split
    · exact .check _ _ _
    · exact .skip _ _

theorem tail_runBits : ∀ (bs : List Bool) (s : Inf) (i : Nat), Tail s.mode →
    Tail (runBits s i bs).mode ∧ (runBits s i bs).rout = s.rout := by
  intro bs
  induction bs with
  | nil => intro s i h; exact ⟨h, rfl⟩
  | cons b bs ih =>
    intro s i h
    obtain ⟨h1, h2⟩ := tail_bitStep s i b h
    obtain ⟨h3, h4⟩ := ih _ (i + 1) h1
    exact ⟨h3, h4.trans h2⟩

theorem tail_feed : ∀ (x : Bytes) (s : Inf), Tail s.mode → Tail (feed s x).mode ∧ (feed s x).rout = s.rout := by
  intro x
  induction x with
  | nil => intro s h; exact ⟨h, rfl⟩
  | cons b x ih =>
    intro s h
    obtain ⟨h1, h2⟩ := tail_runBits (byteBits b) s 0 h
    obtain ⟨h3, h4⟩ := ih _ h1
    exact ⟨h3, h4.trans h2⟩

theorem tail_endBlock (i : Nat) : Tail (endBlock true i) := by
  unfold endBlock align
  rw [if_pos rfl]
  split
  · exact .check _ _ _
  · exact .skip _ _

/-- What happens within `k` bits: output, the end, or less to wait. -/
def Moves (k : Nat) (s t : Inf) : Prop :=
  (s.rout.length < t.rout.length ∧ Blk t.mode) ∨ Tail t.mode ∨ (s.rout = t.rout ∧ Wait k t.mode)

theorem wait_startLit (c : Codes) (hf : c.final = true) (hl : c.lit.counts.length ≤ 15) (hd : c.dist.counts.length ≤ 15) :
    Wait 48 (startSym (.lit c)) := by
  refine .lit c _ _ _ _ 15 hf hl hd hl (by omega) (by omega)

theorem lengthCodes_ok : ∀ p ∈ lengthCodes, 1 ≤ p.1 ∧ p.2 ≤ 5 := by decide

theorem distCodes_ok : ∀ p ∈ distCodes, p.2 ≤ 13 := by decide

theorem doMatch_moves (s : Inf) (c : Codes) (hf : c.final = true) (hl : c.lit.counts.length ≤ 15) (hd : c.dist.counts.length ≤ 15)
    (len dist k : Nat) (h : 1 ≤ len) : Moves k s (doMatch s.rout c len dist) := by
  unfold doMatch
  split
  · exact .inr (.inl .bad)
  · refine .inl ⟨?_, .inr (wait_startLit c hf hl hd)⟩
    rw [copyBack_length]
    omega

theorem wait_bitStep (s : Inf) (i : Nat) (b : Bool) (k : Nat) (h : Wait k s.mode) : Moves (k - 1) s (bitStep s i b) := by
  obtain ⟨rout, mode⟩ := s
  cases h with
  | lit c cs code first index n h1 h2 h3 h4 h5 h6 =>
    rcases cs with _ | ⟨x, cs⟩
    · exact .inr (.inl .bad)
    · unfold bitStep
      simp only
      generalize (if b = true then 1 else 0) = bb
      split
      · generalize (Sym.huff (.lit c)).syms.getD _ 0 = y
        simp only [decoded]
        split
        · exact .inl ⟨by simp, .inr (wait_startLit c h1 h2 h3)⟩
        · split
          · refine .inr (.inl ?_)
            rw [h1]
            exact tail_endBlock i
          · split
            · exact .inr (.inl .bad)
            · rename_i base hx
              have := lengthCodes_ok _ (List.mem_of_getElem? hx)
              simp only at this
              exact .inr (.inr ⟨rfl, .dist c base _ _ _ _ 15 h1 h2 h3 this.1 h3 (by omega) (by omega)⟩)
            · rename_i base extra hx
              have := lengthCodes_ok _ (List.mem_of_getElem? hx)
              simp only at this
              exact .inr (.inr ⟨rfl, .lenExtra c base _ _ _ h1 h2 h3 this.1 (by omega) (by omega)⟩)
      · split
        · exact .inr (.inl .bad)
        · rename_i hne
          simp only [List.length_cons] at h4
          have : cs.length ≠ 0 := by intro e; exact hne (by rw [List.length_eq_zero_iff.mp e]; rfl)
          exact .inr (.inr ⟨rfl, .lit c cs _ _ _ (n - 1) h1 h2 h3 (by omega) (by omega) (by omega)⟩)
  | lenExtra c base need got acc h1 h2 h3 h4 h5 h6 =>
    by_cases hg : got + 1 = need
    · rw [bitStep_collected _ _ _ _ _ _ _ hg, collected]
      exact .inr (.inr ⟨rfl, .dist c _ _ _ _ _ 15 h1 h2 h3 (by omega) h3 (by omega) (by omega)⟩)
    · rw [bitStep_collect _ _ _ _ _ _ _ (by omega)]
      exact .inr (.inr ⟨rfl, .lenExtra c base _ _ _ h1 h2 h3 h4 (by omega) (by omega)⟩)
  | dist c len cs code first index n h1 h2 h3 h4 h5 h6 h7 =>
    rcases cs with _ | ⟨x, cs⟩
    · exact .inr (.inl .bad)
    · unfold bitStep
      simp only
      generalize (if b = true then 1 else 0) = bb
      split
      · generalize (Sym.huff (.dist c len)).syms.getD _ 0 = y
        simp only [decoded]
        split
        · exact .inr (.inl .bad)
        · exact doMatch_moves ⟨rout, _⟩ c h1 h2 h3 _ _ _ h4
        · rename_i base extra hx
          have := distCodes_ok _ (List.mem_of_getElem? hx)
          simp only at this
          exact .inr (.inr ⟨rfl, .distExtra c len base _ _ _ h1 h2 h3 h4 (by omega) (by omega)⟩)
      · split
        · exact .inr (.inl .bad)
        · rename_i hne
          simp only [List.length_cons] at h5
          have : cs.length ≠ 0 := by intro e; exact hne (by rw [List.length_eq_zero_iff.mp e]; rfl)
          exact .inr (.inr ⟨rfl, .dist c len cs _ _ _ (n - 1) h1 h2 h3 h4 (by omega) (by omega) (by omega)⟩)
  | distExtra c len base need got acc h1 h2 h3 h4 h5 h6 =>
    by_cases hg : got + 1 = need
    · rw [bitStep_collected _ _ _ _ _ _ _ hg, collected]
      exact doMatch_moves ⟨rout, _⟩ c h1 h2 h3 _ _ _ h4
    · rw [bitStep_collect _ _ _ _ _ _ _ (by omega)]
      exact .inr (.inr ⟨rfl, .distExtra c len base _ _ _ h1 h2 h3 h4 (by omega) (by omega)⟩)
  | storedByte left need got acc h1 h2 =>
    by_cases hg : got + 1 = need
    · rw [bitStep_collected _ _ _ _ _ _ _ hg, collected]
      refine .inl ⟨by simp, ?_⟩
      simp only
      split
      · exact .inl (tail_endBlock i)
      · exact .inr (.storedByte _ _ _ _ (by omega) (by omega))
    · rw [bitStep_collect _ _ _ _ _ _ _ (by omega)]
      exact .inr (.inr ⟨rfl, .storedByte _ _ _ _ (by omega) (by omega)⟩)
  | storedLen need got acc h1 h2 =>
    by_cases hg : got + 1 = need
    · rw [bitStep_collected _ _ _ _ _ _ _ hg]
      generalize acc + _ = v
      rw [collected]
      split
      · exact .inr (.inl .bad)
      · split
        · exact .inr (.inl (tail_endBlock i))
        · exact .inr (.inr ⟨rfl, .storedByte _ _ _ _ (by omega) (by omega)⟩)
    · rw [bitStep_collect _ _ _ _ _ _ _ (by omega)]
      exact .inr (.inr ⟨rfl, .storedLen _ _ _ (by omega) (by omega)⟩)
  | skip left need h1 h2 h3 =>
    unfold bitStep
    refine .inr (.inr ⟨rfl, ?_⟩)
    simp only
    split
    · exact .storedLen _ _ _ (by omega) (by omega)
    · exact .skip _ _ (by omega) (by omega) (by omega)

theorem blk_bitStep (s : Inf) (i : Nat) (b : Bool) (h : Blk s.mode) : Blk (bitStep s i b).mode := by
  rcases h with h | h
  · exact .inl (tail_bitStep s i b h).1
  · rcases wait_bitStep s i b 48 h with ⟨_, h⟩ | h | ⟨_, h⟩
    · exact h
    · exact .inl h
    · exact .inr (h.mono (by omega))

theorem blk_runBits : ∀ (bs : List Bool) (s : Inf) (i : Nat), Blk s.mode → Blk (runBits s i bs).mode := by
  intro bs
  induction bs with
  | nil => intro s i h; exact h
  | cons b bs ih => intro s i h; exact ih _ _ (blk_bitStep s i b h)

theorem blk_feed : ∀ (x : Bytes) (s : Inf), Blk s.mode → Blk (feed s x).mode := by
  intro x
  induction x with
  | nil => intro s h; exact h
  | cons b x ih => intro s h; exact ih _ (blk_runBits _ s 0 h)

theorem wait_runBits : ∀ (bs : List Bool) (s : Inf) (i k : Nat), Wait k s.mode → Moves (k - bs.length) s (runBits s i bs) := by
  intro bs
  induction bs with
  | nil => intro s i k h; exact .inr (.inr ⟨rfl, h⟩)
  | cons b bs ih =>
    intro s i k h
    rw [runBits]
    rcases wait_bitStep s i b k h with ⟨h1, h2⟩ | h1 | ⟨h1, h2⟩
    · refine .inl ⟨?_, blk_runBits _ _ _ h2⟩
      have := (runBits_suffix bs (bitStep s i b) (i + 1)).length_le
      omega
    · exact .inr (.inl (tail_runBits _ _ _ h1).1)
    · have := ih (bitStep s i b) (i + 1) (k - 1) h2
      unfold Moves at this ⊢
      rw [h1, List.length_cons, show k - (bs.length + 1) = k - 1 - bs.length by omega]
      exact this

theorem wait_feed : ∀ (x : Bytes) (s : Inf) (k : Nat), Wait k s.mode → Moves (k - 8 * x.length) s (feed s x) := by
  intro x
  induction x with
  | nil => intro s k h; exact .inr (.inr ⟨rfl, h⟩)
  | cons b x ih =>
    intro s k h
    rw [feed_cons]
    have hb : (byteBits b).length = 8 := rfl
    rcases wait_runBits (byteBits b) s 0 k h with ⟨h1, h2⟩ | h1 | ⟨h1, h2⟩
    · refine .inl ⟨?_, blk_feed _ _ h2⟩
      have := (feed_suffix x (stepByte s b)).length_le
      unfold stepByte at this ⊢
      omega
    · exact .inr (.inl (tail_feed _ _ h1).1)
    · have := ih (stepByte s b) (k - 8) h2
      unfold Moves at this ⊢
      rw [h1, List.length_cons, show k - 8 * (x.length + 1) = k - 8 - 8 * x.length by omega]
      exact this

/-- The third byte of the stream begins a last block that is stored or has the fixed codes. -/
theorem third_byte (b : UInt8) (h : b.toNat % 8 = 1 ∨ b.toNat % 8 = 3) (rout : Bytes) :
    Moves 40 ⟨rout, .collect .type 3 0 0⟩ (stepByte ⟨rout, .collect .type 3 0 0⟩ b) := by
  have hbits : ∀ n : Fin 256, (n.val % 8 = 1 → n.val.testBit 0 = true ∧ n.val.testBit 1 = false ∧ n.val.testBit 2 = false) ∧
      (n.val % 8 = 3 → n.val.testBit 0 = true ∧ n.val.testBit 1 = true ∧ n.val.testBit 2 = false) := by decide +kernel
  have hb := hbits ⟨b.toNat, b.toNat_lt⟩
  simp only at hb
  unfold stepByte byteBits
  rw [show ∀ (a b c d e f g h : Bool), runBits ⟨rout, .collect .type 3 0 0⟩ 0 [a, b, c, d, e, f, g, h] =
    runBits (bitStep (bitStep (bitStep ⟨rout, .collect .type 3 0 0⟩ 0 a) 1 b) 2 c) 3 [d, e, f, g, h] from fun _ _ _ _ _ _ _ _ => rfl]
  rw [bitStep_collect _ _ _ _ _ _ _ (by omega), bitStep_collect _ _ _ _ _ _ _ (by omega), bitStep_collected _ _ _ _ _ _ _ (by omega)]
  rcases h with h | h
  · obtain ⟨h0, h1, h2⟩ := hb.1 h
    rw [h0, h1, h2]
    have : collected rout 2 (0 + (if true = true then 2 ^ 0 else 0) + (if false = true then 2 ^ (0 + 1) else 0) +
        if false = true then 2 ^ (0 + 1 + 1) else 0) .type = ⟨rout, .skip 5 (.storedLen true) 32⟩ := rfl
    rw [this]
    exact wait_runBits [_, _, _, _, _] ⟨rout, .skip 5 (.storedLen true) 32⟩ 3 45 (.skip _ _ (by omega) (by omega) (by omega))
  · obtain ⟨h0, h1, h2⟩ := hb.2 h
    rw [h0, h1, h2]
    have : collected rout 2 (0 + (if true = true then 2 ^ 0 else 0) + (if true = true then 2 ^ (0 + 1) else 0) +
        if false = true then 2 ^ (0 + 1 + 1) else 0) .type = ⟨rout, startSym (.lit ⟨true, fixedLit, fixedDist⟩)⟩ := rfl
    rw [this]
    refine wait_runBits [_, _, _, _, _] ⟨rout, startSym (.lit ⟨true, fixedLit, fixedDist⟩)⟩ 3 45 ?_
    refine .lit _ _ _ _ _ 9 rfl ?_ ?_ ?_ (by omega) (by omega) <;> decide +kernel

/-- After three bytes of such a stream. -/
theorem three_bytes (a b c : UInt8) (h : c.toNat % 8 = 1 ∨ c.toNat % 8 = 3) :
    (feed {} [a]).rout = [] ∧ (feed {} [a, b]).rout = [] ∧ Moves 40 {} (feed {} [a, b, c]) := by
  have h1 : feed {} [a] = ⟨[], .collect .head 16 8 (0 + 2 ^ 0 * a.toNat)⟩ :=
    stepByte_collect [] .head 16 0 0 a (by omega)
  have h2 : feed {} [a, b] = collected [] 7 (0 + 2 ^ 0 * a.toNat + 2 ^ 8 * b.toNat) .head := by
    rw [feed_cons, show stepByte {} a = _ from h1]
    exact stepByte_collected [] .head 16 8 _ b (by omega)
  have h3 : feed {} [a, b, c] = stepByte (feed {} [a, b]) c := rfl
  rw [h3, h1, h2]
  generalize 0 + 2 ^ 0 * a.toNat + 2 ^ 8 * b.toNat = v
  refine ⟨rfl, ?_⟩
  rw [collected]
  split
  · exact ⟨rfl, .inr (.inl (tail_runBits _ _ _ .bad).1)⟩
  · split
    · exact ⟨rfl, .inr (.inl (tail_runBits _ _ _ (.dictId _ _ _)).1)⟩
    · exact ⟨rfl, third_byte c h []⟩

theorem grows (s : Inf) (k : Nat) (hm : Blk s.mode) (x : Bytes) (hk : Wait 48 s.mode → Wait k s.mode) (hx : k ≤ 8 * x.length) (y : Bytes)
    (h : s.rout.length < (feed s (x ++ y)).rout.length) : s.rout.length < (feed s x).rout.length := by
  rw [feed_append] at h
  rcases hm with hm | hm
  · rw [(tail_feed _ _ (tail_feed x _ hm).1).2, (tail_feed x _ hm).2] at h
    omega
  · rcases wait_feed x s k (hk hm) with ⟨h1, _⟩ | h1 | ⟨h1, h2⟩
    · exact h1
    · rw [(tail_feed y _ h1).2] at h
      exact h
    · have := h2.pos
      omega

/-- A stream with a single block, stored or with the fixed codes, never goes on for eight bytes without output - whatever its bytes. -/
theorem oneBlock_noStall (cz : Compressor) (m : Bytes) (b : UInt8) (hb : m[2]? = some b) (h : b.toNat % 8 = 1 ∨ b.toNat % 8 = 3) :
    NoStall (zlib cz) m := by
  intro n hn
  have e : ∀ k, ((zlib cz).out (m.take k)).length = (feed {} (m.take k)).rout.length := fun k => List.length_reverse
  have em : ((zlib cz).out m).length = (feed {} m).rout.length := List.length_reverse
  rw [e, em] at hn
  rw [e, e]
  by_cases hl : m.length ≤ n + 8
  · rw [List.take_of_length_le hl]
    exact hn
  obtain ⟨a, b', c, r, rfl⟩ : ∃ a b' c r, m = a :: b' :: c :: r := by
    rcases m with _ | ⟨a, _ | ⟨b', _ | ⟨c, r⟩⟩⟩
    · simp at hb
    · simp at hb
    · simp at hb
    · exact ⟨a, b', c, r, rfl⟩
  obtain rfl : c = b := by simpa using hb
  obtain ⟨t1, t2, t3⟩ := three_bytes a b' c h
  have hblk : Blk (feed {} [a, b', c]).mode := by
    rcases t3 with ⟨_, h⟩ | h | ⟨_, h⟩
    · exact h
    · exact .inl h
    · exact .inr (h.mono (by omega))
  by_cases h3 : 3 ≤ n
  · obtain ⟨j, rfl⟩ : ∃ j, n = j + 3 := ⟨n - 3, by omega⟩
    have e1 : (a :: b' :: c :: r).take (j + 3) = [a, b', c] ++ r.take j := rfl
    have e2 : (a :: b' :: c :: r).take (j + 3 + 8) = ([a, b', c] ++ r.take j) ++ (r.drop j).take 8 := by
      show [a, b', c] ++ r.take (j + 8) = _
      rw [List.append_assoc, List.take_add]
    have e3 : a :: b' :: c :: r = (([a, b', c] ++ r.take j) ++ (r.drop j).take 8) ++ (r.drop j).drop 8 := by
      rw [List.append_assoc, List.append_assoc, List.take_append_drop, List.take_append_drop]; rfl
    rw [e1, e3, List.append_assoc _ _ (List.drop 8 _), feed_append _ ([a, b', c] ++ r.take j)] at hn
    rw [e1, e2, feed_append _ ([a, b', c] ++ r.take j)]
    rw [feed_append _ [a, b', c]] at hn ⊢
    refine grows _ 48 (blk_feed _ _ hblk) _ (fun h => h) ?_ ((r.drop j).drop 8) hn
    simp only [List.length_cons] at hl
    simp only [List.length_take, List.length_drop]
    omega
  · -- nothing is there before the third byte
    have h0 : (feed {} ((a :: b' :: c :: r).take n)).rout = [] := by
      rcases n with _ | _ | _ | n
      · rfl
      · exact t1
      · exact t2
      · omega
    rw [h0] at hn ⊢
    have e2 : (a :: b' :: c :: r).take (n + 8) = [a, b', c] ++ r.take (n + 5) := by
      rfl
    have e3 : a :: b' :: c :: r = [a, b', c] ++ (r.take (n + 5) ++ r.drop (n + 5)) := by
      rw [List.take_append_drop]; rfl
    rw [e3, feed_append] at hn
    rw [e2, feed_append]
    rcases t3 with ⟨h1, _⟩ | h1 | ⟨h1, h2⟩
    · have := (feed_suffix (r.take (n + 5)) (feed {} [a, b', c])).length_le
      simp only [List.length_nil]
      have : (0 : Nat) < (feed {} [a, b', c]).rout.length := h1
      omega
    · rw [(tail_feed _ _ h1).2] at hn ⊢
      exact hn
    · have h1' : (feed {} [a, b', c]).rout = [] := h1.symm
      have := grows (feed {} [a, b', c]) 40 hblk (r.take (n + 5)) (fun _ => h2) (by
        simp only [List.length_cons] at hl
        simp only [List.length_take]
        omega) (r.drop (n + 5)) (by rw [h1']; exact hn)
      rw [h1'] at this
      exact this

end GitDB.Deflate
