import Verif.Model.Sha1
import Verif.Spec.Sha1
/-!
# `hashlib.sha1` computes SHA-1
-/
set_option autoImplicit false

namespace GitDB
open Spec.Sha1

/-! ## Words -/

theorem rolc_eq (x n : Nat) (hx : x < 2 ^ 32) (hn : n < 32) : rolc x n = rot n x := by
  unfold rolc rot
  have h32 : 2 ^ 32 = 2 ^ (32 - n) * 2 ^ n := by rw [← Nat.pow_add]; congr 1; omega
  have hlt : x / 2 ^ (32 - n) < 2 ^ n := by
    rw [Nat.div_lt_iff_lt_mul (Nat.two_pow_pos _), Nat.mul_comm, ← h32]
    exact hx
  have hm : x * 2 ^ n % 2 ^ 32 = (x % 2 ^ (32 - n)) * 2 ^ n := by rw [h32, Nat.mul_mod_mul_right]
  have hle : 2 ^ n ≤ 2 ^ 32 := Nat.pow_le_pow_right (by omega) (by omega)
  rw [Nat.or_mod_two_pow, Nat.shiftLeft_eq, Nat.shiftRight_eq_div_pow, Nat.mod_eq_of_lt (a := x / _) (Nat.lt_of_lt_of_le hlt hle), hm]
  have := Nat.shiftLeft_add_eq_or_of_lt hlt (x % 2 ^ (32 - n))
  rw [Nat.shiftLeft_eq] at this
  exact this.symm

theorem rot_lt (x n : Nat) (hx : x < 2 ^ 32) (hn : n < 32) : rot n x < 2 ^ 32 := by
  rw [← rolc_eq x n hx hn]
  exact Nat.mod_lt _ (by decide)

theorem ch_eq (b c d : Nat) (hb : b < 2 ^ 32) (hd : d < 2 ^ 32) :
    d ^^^ (b &&& (c ^^^ d)) = (b &&& c) ^^^ ((2 ^ 32 - 1 - b) &&& d) := by
  apply Nat.eq_of_testBit_eq
  intro i
  have h1 : 2 ^ 32 - 1 - b = 2 ^ 32 - (b + 1) := by omega
  simp only [Nat.testBit_xor, Nat.testBit_and, h1, Nat.testBit_two_pow_sub_succ hb]
  by_cases hi : i < 32
  · simp only [hi, decide_true, Bool.true_and]
    cases b.testBit i <;> cases c.testBit i <;> cases d.testBit i <;> rfl
  · have hpow : 2 ^ 32 ≤ 2 ^ i := Nat.pow_le_pow_right (by omega) (by omega)
    have e1 : b.testBit i = false := Nat.testBit_lt_two_pow (by omega)
    have e2 : d.testBit i = false := Nat.testBit_lt_two_pow (by omega)
    simp [e1, e2]

theorem maj_eq (b c d : Nat) : (b &&& c) ||| (d &&& (b ||| c)) = (b &&& c) ^^^ (b &&& d) ^^^ (c &&& d) := by
  apply Nat.eq_of_testBit_eq
  intro i
  simp only [Nat.testBit_xor, Nat.testBit_and, Nat.testBit_or]
  cases b.testBit i <;> cases c.testBit i <;> cases d.testBit i <;> rfl

/-- The words of the machine as those of the standard. -/
def ShaWords.std (s : ShaWords) : Words := ⟨s.a, s.b, s.c, s.d, s.e⟩

/-- All words have 32 bits. -/
structure ShaWords.Small (s : ShaWords) : Prop where
  a : s.a < 2 ^ 32
  b : s.b < 2 ^ 32
  c : s.c < 2 ^ 32
  d : s.d < 2 ^ 32
  e : s.e < 2 ^ 32

theorem shaRound_std (s : ShaWords) (hs : s.Small) (W : Nat → Nat) (t fv k : Nat) (hf : fv = f t s.b s.c s.d) (hk : k = K t) :
    (shaRound s fv k (W t)).std = round W t s.std ∧ (shaRound s fv k (W t)).Small := by
  constructor
  · unfold shaRound ShaWords.std round
    simp only [Words.mk.injEq, and_true, true_and]
    rw [rolc_eq _ _ hs.a (by omega), rolc_eq _ _ hs.b (by omega), hf, hk]
    refine ⟨?_, rfl⟩
    congr 1
    omega
  · refine ⟨Nat.mod_lt _ (by decide), hs.a, ?_, hs.c, hs.d⟩
    unfold shaRound
    simp only
    rw [rolc_eq _ _ hs.b (by omega)]
    exact rot_lt _ _ hs.b (by omega)

theorem shaRounds_std (W : Nat → Nat) (s0 : Words) : ∀ (ws : List Nat) (i : Nat) (s : ShaWords), s.Small → s.std = rounds W s0 i →
    (∀ j, j < ws.length → ws.getD j 0 = W (i + j)) →
    (shaRounds i ws s).std = rounds W s0 (i + ws.length) ∧ (shaRounds i ws s).Small := by
  intro ws
  induction ws with
  | nil => intro i s hs hr _; exact ⟨hr, hs⟩
  | cons w ws ih =>
    intro i s hs hr hw
    have h0 : w = W i := by simpa using hw 0 (by simp)
    subst h0
    rw [shaRounds]
    have key : ∀ s', s'.std = round W i s.std ∧ s'.Small → (shaRounds (i + 1) ws s').std = rounds W s0 (i + (W i :: ws).length) ∧
        (shaRounds (i + 1) ws s').Small := by
      intro s' ⟨k1, k2⟩
      have := ih (i + 1) s' k2 (by rw [k1, hr]; rfl) (by
        intro j hj
        have := hw (j + 1) (by simpa using hj)
        simpa [Nat.add_assoc, Nat.add_comm 1 j] using this)
      rwa [List.length_cons, Nat.add_comm ws.length 1, ← Nat.add_assoc]
    apply key
    split
    · rename_i h1
      apply shaRound_std s hs
      · rw [f, if_pos h1]; exact ch_eq _ _ _ hs.b hs.d
      · rw [K, if_pos h1]
    split
    · rename_i h1 h2
      apply shaRound_std s hs
      · rw [f, if_neg h1, if_pos h2]
      · rw [K, if_neg h1, if_pos h2]
    split
    · rename_i h1 h2 h3
      apply shaRound_std s hs
      · rw [f, if_neg h1, if_neg h2, if_pos h3]; exact maj_eq _ _ _
      · rw [K, if_neg h1, if_neg h2, if_pos h3]
    · rename_i h1 h2 h3
      apply shaRound_std s hs
      · rw [f, if_neg h1, if_neg h2, if_neg h3]
      · rw [K, if_neg h1, if_neg h2, if_neg h3]

/-! ## The schedule -/

theorem be_four (b0 b1 b2 b3 : UInt8) : be [b0, b1, b2, b3] = b0.toNat * 2 ^ 24 + b1.toNat * 2 ^ 16 + b2.toNat * 2 ^ 8 + b3.toNat := by
  simp only [be, List.foldl_cons, List.foldl_nil]
  omega

theorem load32s_spec : ∀ (k : Nat) (block : Bytes) (acc : List Nat), block.length = 4 * k →
    ∃ ws, load32s block acc = ws ++ acc ∧ ws.length = k ∧ (∀ w ∈ ws, w < 2 ^ 32) ∧
      ∀ t, t < k → ws.reverse.getD t 0 = be ((block.drop (4 * t)).take 4) := by
  intro k
  induction k with
  | zero =>
    intro block acc h
    have : block = [] := List.length_eq_zero_iff.1 (by omega)
    subst this
    exact ⟨[], rfl, rfl, by simp, by omega⟩
  | succ k ih =>
    intro block acc h
    match block, h with
    | b0 :: b1 :: b2 :: b3 :: rest, h =>
      rw [load32s]
      obtain ⟨ws, h1, h2, h3, h4⟩ := ih rest ((b0.toNat * 2 ^ 24 + b1.toNat * 2 ^ 16 + b2.toNat * 2 ^ 8 + b3.toNat) :: acc)
        (by simp only [List.length_cons] at h; omega)
      refine ⟨ws ++ [b0.toNat * 2 ^ 24 + b1.toNat * 2 ^ 16 + b2.toNat * 2 ^ 8 + b3.toNat], by rw [h1]; simp, by simp [h2], ?_, ?_⟩
      · intro w hw
        rw [List.mem_append, List.mem_singleton] at hw
        rcases hw with hw | rfl
        · exact h3 w hw
        · have := b0.toNat_lt; have := b1.toNat_lt; have := b2.toNat_lt; have := b3.toNat_lt
          omega
      · intro t ht
        rw [List.reverse_append, List.reverse_singleton, List.singleton_append]
        cases t with
        | zero =>
          rw [List.getD_cons_zero, Nat.mul_zero, List.drop_zero]
          exact (be_four b0 b1 b2 b3).symm
        | succ t =>
          rw [List.getD_cons_succ, h4 t (by omega), show 4 * (t + 1) = 4 * t + 1 + 1 + 1 + 1 by omega]
          rfl
    | [], h => simp at h
    | [_], h => simp at h; omega
    | [_, _], h => simp at h; omega
    | [_, _, _], h => simp at h; omega

theorem getD_left (x y : List Nat) (i : Nat) (h : i < x.length) : (x ++ y).getD i 0 = x.getD i 0 := by
  rw [List.getD_eq_getElem?_getD, List.getD_eq_getElem?_getD, List.getElem?_append_left h]

theorem getD_right (x y : List Nat) (i : Nat) (h : x.length ≤ i) : (x ++ y).getD i 0 = y.getD (i - x.length) 0 := by
  rw [List.getD_eq_getElem?_getD, List.getD_eq_getElem?_getD, List.getElem?_append_right h]

theorem getD_rev (ws : List Nat) (i : Nat) (h : i < ws.length) : ws.getD i 0 = ws.reverse.getD (ws.length - 1 - i) 0 := by
  rw [List.getD_eq_getElem?_getD, List.getD_eq_getElem?_getD, List.getElem?_reverse (by omega)]
  congr 2
  omega

/-- The words from the 16th on are computed from earlier ones. -/
def Extends (ws : List Nat) : Prop := ∀ t, 16 ≤ t → t < ws.length →
  ws.reverse.getD t 0 = rot 1 (ws.reverse.getD (t - 3) 0 ^^^ ws.reverse.getD (t - 8) 0 ^^^ ws.reverse.getD (t - 14) 0 ^^^
    ws.reverse.getD (t - 16) 0)

theorem getD_small {ws : List Nat} (h : ∀ w ∈ ws, w < 2 ^ 32) (i : Nat) : ws.getD i 0 < 2 ^ 32 := by
  rw [List.getD_eq_getElem?_getD]
  cases he : ws[i]? with
  | none => decide
  | some w => exact h w (List.mem_of_getElem? he)

theorem shaExpand_spec : ∀ (n : Nat) (ws : List Nat), 16 ≤ ws.length → (∀ w ∈ ws, w < 2 ^ 32) → Extends ws →
    ∃ more, shaExpand n ws = more ++ ws ∧ more.length = n ∧ (∀ w ∈ shaExpand n ws, w < 2 ^ 32) ∧ Extends (shaExpand n ws) := by
  intro n
  induction n with
  | zero => intro ws _ h2 h3; exact ⟨[], rfl, rfl, h2, h3⟩
  | succ n ih =>
    intro ws h1 h2 h3
    have hx : ws.getD 2 0 ^^^ ws.getD 7 0 ^^^ ws.getD 13 0 ^^^ ws.getD 15 0 < 2 ^ 32 :=
      Nat.xor_lt_two_pow (Nat.xor_lt_two_pow (Nat.xor_lt_two_pow (getD_small h2 _) (getD_small h2 _)) (getD_small h2 _)) (getD_small h2 _)
    rw [shaExpand, rolc_eq _ _ hx (by omega)]
    generalize hv : rot 1 (ws.getD 2 0 ^^^ ws.getD 7 0 ^^^ ws.getD 13 0 ^^^ ws.getD 15 0) = v
    have hv' : v < 2 ^ 32 := by rw [← hv]; exact rot_lt _ _ hx (by omega)
    obtain ⟨more, k1, k2, k3, k4⟩ := ih (v :: ws) (by simp; omega) (by
      intro w hw
      rw [List.mem_cons] at hw
      rcases hw with rfl | hw
      · exact hv'
      · exact h2 w hw) (by
      intro t ht htl
      rw [List.length_cons] at htl
      have hap : ∀ j, j < ws.length → (v :: ws).reverse.getD j 0 = ws.reverse.getD j 0 := by
        intro j hj
        rw [List.reverse_cons, getD_left _ _ _ (by simpa using hj)]
      by_cases hlast : t = ws.length
      · subst hlast
        rw [hap (_ - 3) (by omega), hap (_ - 8) (by omega), hap (_ - 14) (by omega), hap (_ - 16) (by omega), List.reverse_cons,
          getD_right _ _ _ (by simp)]
        rw [getD_rev ws 2 (by omega), getD_rev ws 7 (by omega), getD_rev ws 13 (by omega), getD_rev ws 15 (by omega)] at hv
        rw [show ws.length - 1 - 2 = ws.length - 3 by omega, show ws.length - 1 - 7 = ws.length - 8 by omega,
          show ws.length - 1 - 13 = ws.length - 14 by omega, show ws.length - 1 - 15 = ws.length - 16 by omega] at hv
        simp [← hv]
      · rw [hap _ (by omega), hap _ (by omega), hap _ (by omega), hap _ (by omega), hap _ (by omega)]
        exact h3 t ht (by omega))
    exact ⟨more ++ [v], by rw [k1]; simp, by simp [k2], k3, k4⟩

/-- One block. -/
theorem shaCompress_std (s : ShaWords) (hs : s.Small) (block : Bytes) (hb : block.length = 64) :
    ∃ W, Schedule block W ∧ (shaCompress s block).std = add s.std (rounds W s.std 80) ∧ (shaCompress s block).Small := by
  obtain ⟨ws, h1, h2, h3, h4⟩ := load32s_spec 16 block [] (by omega)
  rw [List.append_nil] at h1
  obtain ⟨more, k1, k2, k3, k4⟩ := shaExpand_spec 64 ws (by omega) h3 (by intro t _ _; omega)
  have hlen : (shaExpand 64 ws).length = 80 := by rw [k1, List.length_append, k2, h2]
  refine ⟨fun t => (shaExpand 64 ws).reverse.getD t 0, ⟨?_, ?_⟩, ?_⟩
  · intro t ht
    rw [← h4 t ht]
    simp only [k1, List.reverse_append]
    rw [getD_left _ _ _ (by rw [List.length_reverse]; omega)]
  · intro t ht ht'
    exact k4 t ht (by omega)
  · obtain ⟨j1, j2⟩ := shaRounds_std (fun t => (shaExpand 64 ws).reverse.getD t 0) s.std (shaExpand 64 ws).reverse 0 s hs rfl
      (by intro j _; rw [Nat.zero_add])
    rw [List.length_reverse, hlen, Nat.zero_add] at j1
    unfold shaCompress
    simp only [h1]
    refine ⟨?_, ⟨Nat.mod_lt _ (by decide), Nat.mod_lt _ (by decide), Nat.mod_lt _ (by decide), Nat.mod_lt _ (by decide),
      Nat.mod_lt _ (by decide)⟩⟩
    rw [← j1]
    rfl

theorem run_std : ∀ (blocks : List Bytes) (s : ShaWords), s.Small → (∀ b ∈ blocks, b.length = 64) →
    Run s.std blocks (blocks.foldl shaCompress s).std ∧ (blocks.foldl shaCompress s).Small := by
  intro blocks
  induction blocks with
  | nil => intro s hs _; exact ⟨.nil _, hs⟩
  | cons b bs ih =>
    intro s hs hb
    obtain ⟨W, h1, h2, h3⟩ := shaCompress_std s hs b (hb b (by simp))
    obtain ⟨k1, k2⟩ := ih _ h3 (fun x hx => hb x (by simp [hx]))
    rw [h2] at k1
    exact ⟨.cons W (hb b (by simp)) h1 k1, k2⟩

/-! ## Updates -/

/-- What the object is after `msg`. -/
structure Sha.Holds (s : Sha) (msg : Bytes) : Prop where
  small : s.buf.length < 64
  blocks : ∃ bs : List Bytes, (∀ b ∈ bs, b.length = 64) ∧ msg = bs.flatten ++ s.buf ∧
    s.state = bs.foldl shaCompress (({} : Sha).state) ∧ s.bits = 512 * bs.length % 2 ^ 64

theorem sha_holds_init : ({} : Sha).Holds [] := ⟨by decide, [], by simp, rfl, rfl, rfl⟩

theorem process_holds : ∀ (fuel : Nat) (s : Sha) (msg d : Bytes), s.Holds msg → d.length ≤ fuel →
    (Sha.process fuel s d).Holds (msg ++ d) := by
  intro fuel
  induction fuel with
  | zero =>
    intro s msg d h hd
    have : d = [] := List.length_eq_zero_iff.1 (by omega)
    subst this
    rw [List.append_nil]
    exact h
  | succ fuel ih =>
    intro s msg d h hd
    rw [Sha.process]
    split
    · rename_i h0
      rw [h0, List.append_nil]
      exact h
    rename_i h0
    have hpos : 0 < d.length := List.length_pos_iff.2 h0
    obtain ⟨hs, bs, b1, b2, b3, b4⟩ := h
    split
    · rename_i hc
      have := ih { s with state := shaCompress s.state (d.take 64), bits := (s.bits + 512) % 2 ^ 64 } (msg ++ d.take 64) (d.drop 64)
        ⟨hs, bs ++ [d.take 64], by
          intro b hb
          rw [List.mem_append, List.mem_singleton] at hb
          rcases hb with hb | rfl
          · exact b1 b hb
          · rw [List.length_take]; omega, by simp [b2, hc.1], by simp [b3], by simp [b4]; omega⟩ (by rw [List.length_drop]; omega)
      rwa [List.append_assoc, List.take_append_drop] at this
    · simp only
      split
      · rename_i hn hf
        have := ih { state := shaCompress s.state (s.buf ++ d.take (min d.length (64 - s.buf.length))), buf := [], bits := (s.bits + 512) % 2 ^ 64 }
          (msg ++ d.take (min d.length (64 - s.buf.length))) (d.drop (min d.length (64 - s.buf.length)))
          ⟨by simp, bs ++ [s.buf ++ d.take (min d.length (64 - s.buf.length))], by
            intro b hb
            rw [List.mem_append, List.mem_singleton] at hb
            rcases hb with hb | rfl
            · exact b1 b hb
            · exact hf, by simp [b2], by simp [b3], by simp [b4]; omega⟩ (by rw [List.length_drop]; omega)
        rwa [List.append_assoc, List.take_append_drop] at this
      · rename_i hn hf
        have := ih { s with buf := s.buf ++ d.take (min d.length (64 - s.buf.length)) }
          (msg ++ d.take (min d.length (64 - s.buf.length))) (d.drop (min d.length (64 - s.buf.length)))
          ⟨by simp only; rw [List.length_append, List.length_take] at hf ⊢; omega, bs, b1, by simp [b2], b3, b4⟩
          (by rw [List.length_drop]; omega)
        rwa [List.append_assoc, List.take_append_drop] at this

theorem update_holds (s : Sha) (msg d : Bytes) (h : s.Holds msg) : (s.update d).Holds (msg ++ d) :=
  process_holds _ s msg d h (Nat.le_refl _)

theorem updates_hold : ∀ (ds : List Bytes) (s : Sha) (msg : Bytes), s.Holds msg → (ds.foldl Sha.update s).Holds (msg ++ ds.flatten) := by
  intro ds
  induction ds with
  | nil => intro s msg h; simpa using h
  | cons d ds ih =>
    intro s msg h
    have := ih _ _ (update_holds s msg d h)
    rwa [List.append_assoc] at this

/-- Blocks are determined by their concatenation. -/
theorem blocks_unique : ∀ (bs bs' : List Bytes) (r r' : Bytes), (∀ b ∈ bs, b.length = 64) → (∀ b ∈ bs', b.length = 64) → r.length < 64 →
    r'.length < 64 → bs.flatten ++ r = bs'.flatten ++ r' → bs = bs' ∧ r = r' := by
  intro bs
  induction bs with
  | nil =>
    intro bs' r r' _ h' hr hr' he
    cases bs' with
    | nil => exact ⟨rfl, by simpa using he⟩
    | cons b bs' =>
      have := congrArg List.length he
      simp [h' b (by simp)] at this
      omega
  | cons b bs ih =>
    intro bs' r r' h h' hr hr' he
    cases bs' with
    | nil =>
      have := congrArg List.length he
      simp [h b (by simp)] at this
      omega
    | cons b' bs' =>
      simp only [List.flatten_cons, List.append_assoc] at he
      obtain ⟨e1, e2⟩ := List.append_inj he (by rw [h b (by simp), h' b' (by simp)])
      obtain ⟨k1, k2⟩ := ih bs' r r' (fun x hx => h x (by simp [hx])) (fun x hx => h' x (by simp [hx])) hr hr' e2
      exact ⟨by rw [e1, k1], k2⟩

theorem holds_unique {s s' : Sha} {msg : Bytes} (h : s.Holds msg) (h' : s'.Holds msg) : s = s' := by
  obtain ⟨a1, bs, a2, a3, a4, a5⟩ := h
  obtain ⟨c1, bs', c2, c3, c4, c5⟩ := h'
  obtain ⟨e1, e2⟩ := blocks_unique bs bs' s.buf s'.buf a2 c2 a1 c1 (by rw [← a3, ← c3])
  subst e1
  cases s; cases s'
  simp only at *
  rw [a4, a5, e2, c4, c5]

/-! ## Digests -/

theorem store32_be (v : Nat) (h : v < 2 ^ 32) : be (store32 v) = v := by
  unfold store32
  rw [be_four]
  simp only [UInt8.toNat_ofNat']
  omega

theorem be_append (x y : Bytes) : be (x ++ y) = be x * 256 ^ y.length + be y := by
  have gen : ∀ (y : Bytes) (v : Nat), y.foldl (fun v b => 256 * v + b.toNat) v = v * 256 ^ y.length + be y := by
    intro y
    induction y with
    | nil => intro v; simp [be]
    | cons b y ih =>
      intro v
      rw [List.foldl_cons, ih, show be (b :: y) = y.foldl (fun v b => 256 * v + b.toNat) (256 * 0 + b.toNat) from rfl, ih, List.length_cons, Nat.pow_succ, Nat.add_mul, Nat.add_mul,
        Nat.mul_comm 256 v, Nat.mul_assoc, Nat.mul_comm 256 (256 ^ _)]
      omega
  unfold be
  rw [List.foldl_append, gen]
  rfl

theorem len_be (n : Nat) : be (store32 (n % 2 ^ 64 / 2 ^ 32) ++ store32 (n % 2 ^ 64)) = n % 2 ^ 64 := by
  rw [be_append, store32_be _ (by omega)]
  have h : store32 (n % 2 ^ 64) = store32 (n % 2 ^ 64 % 2 ^ 32) := by
    unfold store32
    have e : ∀ a b : Nat, a % 256 = b % 256 → UInt8.ofNat a = UInt8.ofNat b := by
      intro a b h
      apply UInt8.toNat_inj.1
      simp only [UInt8.toNat_ofNat']
      exact h
    congr 1
    · apply e; omega
    congr 1
    · apply e; omega
    congr 1
    · apply e; omega
    congr 1
    · apply e; omega
  rw [h, store32_be _ (Nat.mod_lt _ (by decide)), show (store32 (n % 2 ^ 64 % 2 ^ 32)).length = 4 from rfl]
  omega

theorem init_small : ({} : Sha).state.Small := by constructor <;> decide

theorem digest_isSha1 (s : Sha) (msg : Bytes) (h : s.Holds msg) (hm : 8 * msg.length < 2 ^ 64) : IsSha1 msg s.digest := by
  obtain ⟨h1, bs, h2, h3, h4, h5⟩ := h
  have hfl : ∀ bs : List Bytes, (∀ b ∈ bs, b.length = 64) → bs.flatten.length = 64 * bs.length := by
    intro bs
    induction bs with
    | nil => intro _; rfl
    | cons b bs ih =>
      intro h
      rw [List.flatten_cons, List.length_append, h b (by simp), ih (fun x hx => h x (by simp [hx])), List.length_cons]
      omega
  have hml : msg.length = 64 * bs.length + s.buf.length := by
    have := congrArg List.length h3
    rwa [List.length_append, hfl bs h2] at this
  have hbits : (s.bits + 8 * s.buf.length) % 2 ^ 64 = 8 * msg.length % 2 ^ 64 := by rw [h5, hml]; omega
  have hlen := len_be (8 * msg.length)
  rw [Nat.mod_eq_of_lt hm] at hlen hbits
  unfold Sha.digest
  simp only [hbits]
  have fin : ∀ (more : List Bytes) (k : Nat), k < 64 → (∀ b ∈ more, b.length = 64) → more.flatten =
        s.buf ++ 0x80 :: (List.replicate k 0 ++ (store32 (8 * msg.length / 2 ^ 32) ++ store32 (8 * msg.length))) →
      ∀ st : ShaWords, st = more.foldl shaCompress s.state →
      IsSha1 msg (store32 st.a ++ store32 st.b ++ store32 st.c ++ store32 st.d ++ store32 st.e) := by
    intro more k hk hmore hflat st hst
    have hall : ∀ b ∈ bs ++ more, b.length = 64 := by
      intro b hb
      rw [List.mem_append] at hb
      exact hb.elim (h2 b) (hmore b)
    obtain ⟨r1, r2⟩ := run_std (bs ++ more) ({} : Sha).state init_small hall
    rw [List.foldl_append, ← h4, ← hst] at r1 r2
    refine ⟨bs ++ more, st.std, ⟨k, _, hk, ?_, rfl, hlen, ?_⟩, r1, rfl, ?_, ?_, ?_, ?_, ?_⟩
    · rw [List.flatten_append, hflat, ← List.append_assoc, ← h3]
    · rw [hfl _ hall]; omega
    · exact store32_be _ r2.a
    · exact store32_be _ r2.b
    · exact store32_be _ r2.c
    · exact store32_be _ r2.d
    · exact store32_be _ r2.e
  have hb1 : (s.buf ++ [(0x80 : UInt8)]).length = s.buf.length + 1 := by simp
  split
  · rename_i h56
    rw [hb1] at h56
    refine fin [s.buf ++ [0x80] ++ List.replicate (64 - (s.buf ++ [(0x80 : UInt8)]).length) 0,
      List.replicate 56 0 ++ (store32 (8 * msg.length / 2 ^ 32) ++ store32 (8 * msg.length))] (64 - (s.buf.length + 1) + 56) (by omega) ?_ ?_ _ rfl
    · intro b hb
      simp only [List.mem_cons, List.not_mem_nil, or_false] at hb
      rcases hb with rfl | rfl
      · rw [List.length_append, List.length_replicate, hb1]; omega
      · rfl
    · rw [hb1]
      simp only [List.flatten_cons, List.flatten_nil, List.append_nil, List.append_assoc, ← List.replicate_append_replicate]
      rfl
  · rename_i h56
    rw [hb1] at h56
    refine fin [s.buf ++ [0x80] ++ List.replicate (56 - (s.buf ++ [(0x80 : UInt8)]).length) 0 ++
      (store32 (8 * msg.length / 2 ^ 32) ++ store32 (8 * msg.length))] (56 - (s.buf.length + 1)) (by omega) ?_ ?_ _ rfl
    · intro b hb
      simp only [List.mem_cons, List.not_mem_nil, or_false] at hb
      subst hb
      rw [List.length_append, List.length_append, List.length_replicate, hb1,
        show (store32 (8 * msg.length / 2 ^ 32) ++ store32 (8 * msg.length)).length = 8 from rfl]
      omega
    · rw [hb1]
      simp only [List.flatten_cons, List.flatten_nil, List.append_nil, List.append_assoc]
      rfl

/-! ## The standard determines the digest -/

theorem be_inj : ∀ (x y : Bytes), x.length = y.length → be x = be y → x = y := by
  intro x
  induction x with
  | nil => intro y h _; exact (List.length_eq_zero_iff.1 h.symm).symm
  | cons a x ih =>
    intro y h he
    cases y with
    | nil => simp at h
    | cons b y =>
      have hl : x.length = y.length := by simpa using h
      have e1 := be_append [a] x
      have e2 := be_append [b] y
      simp only [List.singleton_append] at e1 e2
      have hlt : ∀ z : Bytes, be z < 256 ^ z.length := by
        intro z
        induction z with
        | nil => decide
        | cons c z ihz =>
          have := be_append [c] z
          simp only [List.singleton_append] at this
          have hc := c.toNat_lt
          have h1 : be [c] = c.toNat := by simp [be]
          rw [this, h1, List.length_cons, Nat.pow_succ]
          have : c.toNat * 256 ^ z.length ≤ 255 * 256 ^ z.length := Nat.mul_le_mul_right _ (by omega)
          omega
      have ha : be [a] = a.toNat := by simp [be]
      have hb : be [b] = b.toNat := by simp [be]
      rw [e1, e2, ha, hb, hl] at he
      have hx := hlt x
      have hy := hlt y
      rw [hl] at hx
      generalize 256 ^ y.length = N at *
      have hN : 0 < N := by omega
      have d1 : (a.toNat * N + be x) / N = a.toNat := by
        rw [Nat.mul_comm, Nat.mul_add_div hN, Nat.div_eq_of_lt hx, Nat.add_zero]
      have d2 : (b.toNat * N + be y) / N = b.toNat := by
        rw [Nat.mul_comm, Nat.mul_add_div hN, Nat.div_eq_of_lt hy, Nat.add_zero]
      have hab : a.toNat = b.toNat := by rw [← d1, he, d2]
      have := UInt8.toNat_inj.1 hab
      subst this
      rw [ih y hl (by omega)]

theorem schedule_unique {block : Bytes} {W W' : Nat → Nat} (h : Schedule block W) (h' : Schedule block W') : ∀ t, t < 80 → W t = W' t := by
  intro t
  induction t using Nat.strongRecOn with
  | _ t ih =>
    intro ht
    by_cases h16 : t < 16
    · rw [h.first t h16, h'.first t h16]
    · rw [h.next t (by omega) ht, h'.next t (by omega) ht, ih (t - 3) (by omega) (by omega), ih (t - 8) (by omega) (by omega),
        ih (t - 14) (by omega) (by omega), ih (t - 16) (by omega) (by omega)]

theorem rounds_congr {W W' : Nat → Nat} (s : Words) : ∀ n, (∀ t, t < n → W t = W' t) → rounds W s n = rounds W' s n := by
  intro n
  induction n with
  | zero => intro _; rfl
  | succ n ih =>
    intro h
    rw [rounds, rounds, ih (fun t ht => h t (by omega)), round, round, h n (by omega)]

theorem run_unique {s s1 s2 : Words} {blocks : List Bytes} (h : Run s blocks s1) (h' : Run s blocks s2) : s1 = s2 := by
  induction h with
  | nil => cases h'; rfl
  | cons W hl hW t ih =>
    cases h' with
    | cons W' _ hW' t' =>
      rw [rounds_congr _ 80 (schedule_unique hW' hW)] at t'
      exact ih t'

theorem run_blocks {s s1 : Words} {blocks : List Bytes} (h : Run s blocks s1) : ∀ b ∈ blocks, b.length = 64 := by
  induction h with
  | nil => simp
  | cons W hl hW t ih =>
    intro b hb
    rw [List.mem_cons] at hb
    rcases hb with rfl | hb
    · exact hl
    · exact ih b hb

theorem padded_unique {msg p p' : Bytes} (h : Padded msg p) (h' : Padded msg p') : p = p' := by
  obtain ⟨k, len, h1, h2, h3, h4, h5⟩ := h
  obtain ⟨k', len', c1, c2, c3, c4, c5⟩ := h'
  have hl : len = len' := be_inj _ _ (by omega) (by omega)
  rw [h2] at h5
  rw [c2] at c5
  simp only [List.length_append, List.length_cons, List.length_replicate] at h5 c5
  have : k = k' := by omega
  rw [h2, c2, hl, this]

theorem isSha1_unique {msg d d' : Bytes} (h : IsSha1 msg d) (h' : IsSha1 msg d') : d = d' := by
  obtain ⟨bs, s, h1, h2, h3, h4, h5, h6, h7, h8⟩ := h
  obtain ⟨bs', s', c1, c2, c3, c4, c5, c6, c7, c8⟩ := h'
  have hb := blocks_unique bs bs' [] [] (run_blocks h2) (run_blocks c2) (by simp) (by simp)
    (by rw [padded_unique h1 c1])
  rw [← hb.1] at c2
  have := run_unique h2 c2
  subst this
  have split5 : ∀ x : Bytes, x = x.take 4 ++ ((x.drop 4).take 4 ++ ((x.drop 8).take 4 ++ ((x.drop 12).take 4 ++ x.drop 16))) := by
    intro x
    have e3 : (x.drop 12).take 4 ++ x.drop 16 = x.drop 12 := by
      have := List.take_append_drop 4 (x.drop 12)
      rwa [List.drop_drop] at this
    have e2 : (x.drop 8).take 4 ++ x.drop 12 = x.drop 8 := by
      have := List.take_append_drop 4 (x.drop 8)
      rwa [List.drop_drop] at this
    have e1 : (x.drop 4).take 4 ++ x.drop 8 = x.drop 4 := by
      have := List.take_append_drop 4 (x.drop 4)
      rwa [List.drop_drop] at this
    rw [e3, e2, e1, List.take_append_drop]
  have l : ∀ x : Bytes, x.length = 20 → (x.take 4).length = 4 ∧ ((x.drop 4).take 4).length = 4 ∧ ((x.drop 8).take 4).length = 4 ∧
      ((x.drop 12).take 4).length = 4 ∧ (x.drop 16).length = 4 := by
    intro x hx
    simp only [List.length_take, List.length_drop, hx]
    decide
  obtain ⟨a1, a2, a3, a4, a5⟩ := l d h3
  obtain ⟨b1, b2, b3, b4, b5⟩ := l d' c3
  rw [split5 d, split5 d', be_inj _ _ (a1.trans b1.symm) (h4.trans c4.symm), be_inj _ _ (a2.trans b2.symm) (h5.trans c5.symm),
    be_inj _ _ (a3.trans b3.symm) (h6.trans c6.symm), be_inj _ _ (a4.trans b4.symm) (h7.trans c7.symm),
    be_inj _ _ (a5.trans b5.symm) (h8.trans c8.symm)]

end GitDB
