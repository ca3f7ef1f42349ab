import Verif.Spec.Deflate
import Verif.Proofs.Stored
/-!
# The decompressor of `Verif/Model/Inflate.lean` reads what `Verif/Spec/Deflate.lean` describes
-/
set_option autoImplicit false

namespace GitDB.Deflate
open Spec.Rfc

/-! ## Bits -/

/-- Bits from bit `i` on, counted from the beginning of a byte. -/
def runM (s : Inf) : Nat → List Bool → Inf
  | _, [] => s
  | i, b :: bs => runM (bitStep s (i % 8) b) (i + 1) bs

theorem runM_append : ∀ (a b : List Bool) (s : Inf) (i : Nat), runM s i (a ++ b) = runM (runM s i a) (i + a.length) b := by
  intro a
  induction a with
  | nil => intro b s i; rfl
  | cons x a ih =>
    intro b s i
    rw [List.cons_append, runM, runM, ih, List.length_cons, show i + (a.length + 1) = i + 1 + a.length by omega]

theorem runM_mod : ∀ (a : List Bool) (s : Inf) (i j : Nat), i % 8 = j % 8 → runM s i a = runM s j a := by
  intro a
  induction a with
  | nil => intro s i j h; rfl
  | cons x a ih => intro s i j h; rw [runM, runM, h]; exact ih _ _ _ (by omega)

theorem runBits_runM : ∀ (a : List Bool) (s : Inf) (i : Nat), i + a.length ≤ 8 → runBits s i a = runM s i a := by
  intro a
  induction a with
  | nil => intro s i h; rfl
  | cons x a ih =>
    intro s i h
    rw [List.length_cons] at h
    rw [runBits, runM, Nat.mod_eq_of_lt (by omega), ih _ _ (by omega)]

theorem byteBits_lsb (b : UInt8) : byteBits b = lsb 8 b.toNat := by
  simp only [byteBits, lsb, Nat.testBit_eq_decide_div_mod_eq, Nat.div_div_eq_div_mul, Nat.pow_zero, Nat.div_one]
  simp [BEq.beq]

theorem lsb_length : ∀ (w n : Nat), (lsb w n).length = w := by
  intro w
  induction w with
  | zero => intro n; rfl
  | succ w ih => intro n; rw [lsb, List.length_cons, ih]

theorem bitsOf_cons (b : UInt8) (x : Bytes) : bitsOf (b :: x) = lsb 8 b.toNat ++ bitsOf x := rfl

theorem bitsOf_append (x y : Bytes) : bitsOf (x ++ y) = bitsOf x ++ bitsOf y := List.flatMap_append

theorem bitsOf_length : ∀ x : Bytes, (bitsOf x).length = 8 * x.length := by
  intro x
  induction x with
  | nil => rfl
  | cons b x ih => rw [bitsOf_cons, List.length_append, lsb_length, ih, List.length_cons]; omega

theorem feed_runM : ∀ (x : Bytes) (s : Inf) (i : Nat), i % 8 = 0 → feed s x = runM s i (bitsOf x) := by
  intro x
  induction x with
  | nil => intro s i h; rfl
  | cons b x ih =>
    intro s i h
    rw [feed_cons, ih _ 0 rfl, bitsOf_cons, runM_append, stepByte, byteBits_lsb, runBits_runM _ _ _ (by rw [lsb_length]; omega),
      runM_mod _ s 0 i (by omega)]
    exact runM_mod _ _ _ _ (by rw [lsb_length]; omega)

/-! ## Numbers -/

theorem run_collect (rout : Bytes) (w : Want) (need : Nat) : ∀ (k got acc v i : Nat), got + k = need → 0 < k → v < 2 ^ k →
    runM ⟨rout, .collect w need got acc⟩ i (lsb k v) = collected rout ((i + k - 1) % 8) (acc + 2 ^ got * v) w := by
  intro k
  induction k with
  | zero => intro got acc v i h0 h1; omega
  | succ k ih =>
    intro got acc v i h0 h1 hv
    rw [lsb, runM]
    have hacc : acc + (if (v % 2 == 1) = true then 2 ^ got else 0) = acc + 2 ^ got * (v % 2) := by
      rcases Nat.mod_two_eq_zero_or_one v with h | h <;> simp [h]
    by_cases hk : k = 0
    · subst hk
      rw [bitStep_collected _ _ _ _ _ _ _ (by omega), hacc, Nat.mod_eq_of_lt (a := v) (by simpa using hv)]
      rfl
    · rw [bitStep_collect _ _ _ _ _ _ _ (by omega), hacc, ih (got + 1) _ (v / 2) (i + 1) (by omega) (by omega) (by rw [Nat.pow_succ] at hv; omega)]
      have e1 : acc + 2 ^ got * (v % 2) + 2 ^ (got + 1) * (v / 2) = acc + 2 ^ got * v := by
        rw [Nat.pow_succ, Nat.mul_assoc, Nat.add_assoc, ← Nat.mul_add]
        congr 2
        omega
      rw [e1]
      congr 1
      omega

/-- A number of `k` bits. -/
theorem run_number (rout : Bytes) (w : Want) (k v i : Nat) (hk : 0 < k) (hv : v < 2 ^ k) :
    runM ⟨rout, .collect w k 0 0⟩ i (lsb k v) = collected rout ((i + k - 1) % 8) v w := by
  rw [run_collect rout w k k 0 0 v i (by omega) hk hv]
  simp

/-- Bits up to the next byte. -/
theorem run_skip (rout : Bytes) (w : Want) (need : Nat) : ∀ (pad : List Bool) (i : Nat), pad ≠ [] →
    runM ⟨rout, .skip pad.length w need⟩ i pad = ⟨rout, .collect w need 0 0⟩ := by
  intro pad
  induction pad with
  | nil => intro i h; exact absurd rfl h
  | cons b pad ih =>
    intro i _
    rw [runM]
    simp only [bitStep]
    by_cases hp : pad = []
    · subst hp; rfl
    · have : 0 < pad.length := List.length_pos_iff.2 hp
      rw [if_neg (by simp only [List.length_cons]; omega), List.length_cons, Nat.add_sub_cancel]
      exact ih _ hp

theorem run_align (rout : Bytes) (w : Want) (need i : Nat) (pad : List Bool) (hi : i < 8) (hp : (i + 1 + pad.length) % 8 = 0)
    (hl : pad.length < 8) (j : Nat) : runM ⟨rout, align i w need⟩ j pad = ⟨rout, .collect w need 0 0⟩ := by
  unfold align
  by_cases h : i = 7
  · have : pad = [] := List.eq_nil_of_length_eq_zero (by omega)
    rw [this, if_pos h]; rfl
  · rw [if_neg h, show 7 - i = pad.length by omega]
    refine run_skip _ _ _ _ _ ?_
    intro h'
    rw [h', List.length_nil] at hp
    omega

/-! ## Codes -/

/-- Codes of at most `n` bits, continued to `n` bits. -/
def upTo (lens : List Nat) (n : Nat) : Nat := firstCode lens n + if n = 0 then 0 else lens.count n

theorem firstCode_succ (lens : List Nat) (n : Nat) : firstCode lens (n + 1) = 2 * upTo lens n := rfl

theorem upTo_zero (lens : List Nat) : upTo lens 0 = 0 := rfl

theorem upTo_succ (lens : List Nat) (n : Nat) : upTo lens (n + 1) = 2 * upTo lens n + lens.count (n + 1) := by
  rw [upTo, firstCode_succ, if_neg (by omega)]

theorem upTo_nil : ∀ n, upTo [] n = 0 := by
  intro n
  induction n with
  | zero => rfl
  | succ n ih => rw [upTo_succ, ih]; rfl

theorem upTo_cons (l : Nat) (lens : List Nat) : ∀ n, upTo (l :: lens) n = upTo lens n + if 1 ≤ l ∧ l ≤ n then 2 ^ (n - l) else 0 := by
  intro n
  induction n with
  | zero => rw [upTo_zero, upTo_zero, if_neg (by omega)]
  | succ n ih =>
    rw [upTo_succ, upTo_succ, ih, List.count_cons]
    by_cases h : 1 ≤ l ∧ l ≤ n
    · have e : n + 1 - l = (n - l) + 1 := by omega
      have h2 : (l == n + 1) = false := by simp; omega
      have h3 : 1 ≤ l ∧ l ≤ n + 1 := by omega
      rw [h2, e, Nat.pow_succ]
      simp only [Bool.false_eq_true, if_false, if_pos h, if_pos h3]
      omega
    · by_cases h1 : l = n + 1
      · subst h1
        have h3 : ¬ (1 ≤ n + 1 ∧ n + 1 ≤ n) := by omega
        rw [if_neg h3]
        simp
        omega
      · have h2 : (l == n + 1) = false := by simp; omega
        have h3 : ¬ (1 ≤ l ∧ l ≤ n + 1) := by omega
        rw [h2]
        simp only [Bool.false_eq_true, if_false, if_neg h, if_neg h3]
        omega

theorem upTo_covered (m : Nat) : ∀ (lens : List Nat) (n : Nat), n ≤ m → upTo lens n * 2 ^ (m - n) ≤ covered m lens := by
  intro lens
  induction lens with
  | nil => intro n h; rw [upTo_nil]; simp
  | cons l lens ih =>
    intro n h
    have := ih n h
    rw [upTo_cons, Nat.add_mul]
    have e : covered m (l :: lens) = (if l = 0 then 0 else 2 ^ (m - l)) + covered m lens := rfl
    rw [e]
    by_cases h1 : 1 ≤ l ∧ l ≤ n
    · rw [if_pos h1, if_neg (by omega), ← Nat.pow_add, show n - l + (m - n) = m - l by omega]
      omega
    · rw [if_neg h1]; omega

theorem upTo_all (m : Nat) : ∀ (lens : List Nat), (∀ l ∈ lens, l ≤ m) → upTo lens m = covered m lens := by
  intro lens
  induction lens with
  | nil => intro h; rw [upTo_nil]; rfl
  | cons l lens ih =>
    intro h
    have hl := h l (by simp)
    rw [upTo_cons, ih fun x hx => h x (by simp [hx])]
    have e : covered m (l :: lens) = (if l = 0 then 0 else 2 ^ (m - l)) + covered m lens := rfl
    rw [e]
    by_cases h1 : l = 0
    · rw [if_neg (by omega), if_pos h1]; omega
    · rw [if_pos (by omega), if_neg h1]; omega

theorem upTo_beyond (lens : List Nat) (m : Nat) (h : ∀ l ∈ lens, l ≤ m) : ∀ k, upTo lens (m + k) = 2 ^ k * upTo lens m := by
  intro k
  induction k with
  | zero => simp
  | succ k ih =>
    rw [← Nat.add_assoc, upTo_succ, ih, List.count_eq_zero.2 (fun hm => by have := h _ hm; omega), Nat.pow_succ]
    rw [Nat.add_zero, ← Nat.mul_assoc, Nat.mul_comm 2]

/-- The longest code. -/
def longest (lens : List Nat) : Nat := lens.foldl max 0

theorem foldl_max_le : ∀ (lens : List Nat) (a : Nat), a ≤ lens.foldl max a ∧ (∀ l ∈ lens, l ≤ lens.foldl max a) ∧
    (lens.foldl max a = a ∨ lens.foldl max a ∈ lens) := by
  intro lens
  induction lens with
  | nil => intro a; exact ⟨Nat.le_refl _, by simp, .inl rfl⟩
  | cons l lens ih =>
    intro a
    obtain ⟨h1, h2, h3⟩ := ih (max a l)
    rw [List.foldl_cons]
    refine ⟨by omega, ?_, ?_⟩
    · intro x hx
      rcases List.mem_cons.1 hx with rfl | hx
      · omega
      · exact h2 x hx
    · rcases h3 with h3 | h3
      · rw [h3]
        rcases Nat.le_total a l with h | h
        · rw [Nat.max_eq_right h]; exact .inr (by simp)
        · rw [Nat.max_eq_left h]; exact .inl rfl
      · exact .inr (by simp [h3])

theorem le_longest (lens : List Nat) (l : Nat) (h : l ∈ lens) : l ≤ longest lens := (foldl_max_le lens 0).2.1 l h

theorem longest_mem (lens : List Nat) : longest lens = 0 ∨ longest lens ∈ lens := (foldl_max_le lens 0).2.2

theorem longest_le (lens : List Nat) (m : Nat) (h : ∀ l ∈ lens, l ≤ m) : longest lens ≤ m := by
  rcases longest_mem lens with h1 | h1
  · omega
  · exact h _ h1

/-- No more codes than possible. -/
def Fits (lens : List Nat) : Prop := ∀ n, n ≤ longest lens → upTo lens n ≤ 2 ^ n

theorem fits_of_covered (lens : List Nat) (m : Nat) (h : ∀ l ∈ lens, l ≤ m) (hc : covered m lens ≤ 2 ^ m) : Fits lens := by
  intro n hn
  have hm := longest_le lens m h
  have := upTo_covered m lens n (by omega)
  have e : 2 ^ m = 2 ^ n * 2 ^ (m - n) := by rw [← Nat.pow_add]; congr 1; omega
  rw [e] at hc
  exact Nat.le_of_mul_le_mul_right (Nat.le_trans this hc) (Nat.two_pow_pos _)

theorem counts_drop (lens : List Nat) (n : Nat) (h : n < longest lens) :
    (Huff.ofLengths lens).counts.drop n = lens.count (n + 1) :: (Huff.ofLengths lens).counts.drop (n + 1) := by
  have hl : n < (Huff.ofLengths lens).counts.length := by
    show n < ((List.range (longest lens)).map _).length
    simpa using h
  rw [List.drop_eq_getElem_cons hl]
  congr 1
  simp [Huff.ofLengths, List.count]

theorem counts_length (lens : List Nat) : (Huff.ofLengths lens).counts.length = longest lens := by
  show ((List.range (longest lens)).map _).length = _
  simp

theorem kraft_counts (lens : List Nat) (hf : Fits lens) : ∀ (k n : Nat), n + k = longest lens →
    kraft ((Huff.ofLengths lens).counts.drop n) (2 ^ n - upTo lens n) = some (2 ^ longest lens - upTo lens (longest lens)) := by
  intro k
  induction k with
  | zero =>
    intro n h
    rw [List.drop_eq_nil_of_le (by rw [counts_length]; omega), kraft, ← h]
    rfl
  | succ k ih =>
    intro n h
    rw [counts_drop lens n (by omega), kraft]
    have h1 := hf (n + 1) (by omega)
    have h2 := hf n (by omega)
    rw [upTo_succ, Nat.pow_succ] at h1
    rw [if_neg (by omega), ← ih (n + 1) (by omega), upTo_succ, Nat.pow_succ]
    congr 1
    omega

theorem ok_of_complete (lens : List Nat) (h : Complete lens) (single : Bool) : (Huff.ofLengths lens).ok single = true ∧ Fits lens := by
  obtain ⟨m, h1, h2⟩ := h
  have hf := fits_of_covered lens m h1 (by omega)
  refine ⟨?_, hf⟩
  have hk := kraft_counts lens hf (longest lens) 0 (by omega)
  rw [List.drop_zero, upTo_zero] at hk
  have hm := longest_le lens m h1
  have e := upTo_beyond lens (longest lens) (le_longest lens) (m - longest lens)
  rw [show longest lens + (m - longest lens) = m by omega, upTo_all m lens h1, h2] at e
  have e2 : 2 ^ m = 2 ^ (m - longest lens) * 2 ^ longest lens := by rw [← Nat.pow_add]; congr 1; omega
  have e3 : upTo lens (longest lens) = 2 ^ longest lens := by
    rw [e2] at e
    exact (Nat.eq_of_mul_eq_mul_left (Nat.two_pow_pos _) e).symm
  unfold Huff.ok
  have hk' : kraft (Huff.ofLengths lens).counts 1 = some 0 := by rw [hk, e3]; simp
  rw [hk']
  rfl

theorem upTo_of_small (lens : List Nat) (h : ∀ l ∈ lens, l ≤ 1) : longest lens ≤ 1 := longest_le lens 1 h

theorem ok_of_usable (lens : List Nat) (h : Usable lens) : (Huff.ofLengths lens).ok true = true ∧ Fits lens := by
  rcases h with h | h | ⟨h1, h2⟩
  · exact ok_of_complete lens h true
  · have hl : longest lens = 0 := by have := longest_le lens 0 (fun l hl => by rw [h l hl]; exact Nat.le_refl 0); omega
    have hf : Fits lens := by intro n hn; rw [show n = 0 by omega, upTo_zero]; omega
    refine ⟨?_, hf⟩
    have hk := kraft_counts lens hf (longest lens) 0 (by omega)
    rw [List.drop_zero, upTo_zero] at hk
    unfold Huff.ok
    have hk' : kraft (Huff.ofLengths lens).counts 1 = some (2 ^ longest lens - upTo lens (longest lens)) := hk
    rw [hk', counts_length, hl]
    rfl
  · have hl : longest lens = 1 := by
      have := longest_le lens 1 h1
      have hm : (1 : Nat) ∈ lens := List.count_pos_iff.1 (by omega)
      have := le_longest lens 1 hm
      omega
    have h1' : upTo lens 1 = 1 := by rw [upTo_succ, upTo_zero, h2]
    have hf : Fits lens := by
      intro n hn
      rw [hl] at hn
      rcases Nat.le_one_iff_eq_zero_or_eq_one.1 hn with rfl | rfl
      · rw [upTo_zero]; omega
      · rw [h1']; omega
    refine ⟨?_, hf⟩
    have hk := kraft_counts lens hf (longest lens) 0 (by omega)
    rw [List.drop_zero, upTo_zero] at hk
    unfold Huff.ok
    have hk' : kraft (Huff.ofLengths lens).counts 1 = some (2 ^ longest lens - upTo lens (longest lens)) := hk
    rw [hk', counts_length, hl]
    simp

/-- Symbols with codes of `l` bits. -/
def group (lens : List Nat) (k l : Nat) : List Nat := (lens.zipIdx k).filterMap fun p => if p.1 = l then some p.2 else none

theorem group_length (l : Nat) : ∀ (lens : List Nat) (k : Nat), (group lens k l).length = lens.count l := by
  intro lens
  induction lens with
  | nil => intro k; rfl
  | cons a lens ih =>
    intro k
    have := ih (k + 1)
    unfold group at this ⊢
    rw [List.zipIdx_cons, List.filterMap_cons]
    by_cases h : a = l
    · subst h; simp [this]
    · have hb : (a == l) = false := by simpa using h
      rw [List.count_cons, hb]; simp [h, this]

theorem group_getElem (l : Nat) : ∀ (lens : List Nat) (k s : Nat), lens[s]? = some l →
    (group lens k l)[(lens.take s).count l]? = some (k + s) := by
  intro lens
  induction lens with
  | nil => intro k s h; simp at h
  | cons a lens ih =>
    intro k s h
    unfold group at ih ⊢
    rw [List.zipIdx_cons, List.filterMap_cons]
    cases s with
    | zero =>
      have h : a = l := by simpa using h
      subst h
      simp
    | succ s =>
      rw [List.getElem?_cons_succ] at h
      have := ih (k + 1) s h
      rw [List.take_succ_cons, List.count_cons]
      by_cases h1 : a = l
      · subst h1; simp [this]; omega
      · have hb : (a == l) = false := by simpa using h1
        simp [h1, hb, this]; omega

/-- How many codes have at most `n` bits. -/
def upToIndex (lens : List Nat) (n : Nat) : Nat := ((List.range n).map fun i => lens.count (i + 1)).sum

theorem upToIndex_succ (lens : List Nat) (n : Nat) : upToIndex lens (n + 1) = upToIndex lens n + lens.count (n + 1) := by
  simp [upToIndex, List.range_succ]

theorem syms_getElem (lens : List Nat) (s n : Nat) (h : lens[s]? = some (n + 1)) :
    (Huff.ofLengths lens).syms[upToIndex lens n + (lens.take s).count (n + 1)]? = some s := by
  have hn : n + 1 ≤ longest lens := le_longest lens _ (List.mem_of_getElem? h)
  have e : (Huff.ofLengths lens).syms = (List.range (longest lens)).flatMap fun i => group lens 0 (i + 1) := rfl
  have e2 : List.range (longest lens) = List.range n ++ (n :: (List.range (longest lens - n - 1)).map (n + 1 + ·)) := by
    have : longest lens = (n + 1) + (longest lens - n - 1) := by omega
    conv => lhs; rw [this, List.range_add, List.range_succ]
    simp
  have hlen : ((List.range n).flatMap fun i => group lens 0 (i + 1)).length = upToIndex lens n := by
    rw [List.length_flatMap]
    unfold upToIndex
    congr 1
    exact List.map_congr_left fun i _ => group_length _ _ _
  rw [e, e2, List.flatMap_append, List.getElem?_append_right (by rw [hlen]; omega), hlen, Nat.add_sub_cancel_left, List.flatMap_cons]
  have := group_getElem (n + 1) lens 0 s h
  rw [List.getElem?_append_left, this, Nat.zero_add]
  exact (List.getElem?_eq_some_iff.1 this).1

theorem lsb_snoc : ∀ (w v : Nat), lsb (w + 1) v = lsb w v ++ [v / 2 ^ w % 2 == 1] := by
  intro w
  induction w with
  | zero => intro v; simp [lsb]
  | succ w ih =>
    intro v
    rw [lsb, ih, lsb, List.cons_append, Nat.div_div_eq_div_mul, Nat.pow_succ, Nat.mul_comm 2]

theorem firstCode_mono (lens : List Nat) (j : Nat) (hj : 0 < j) : ∀ k, (firstCode lens j + lens.count j) * 2 ^ (k + 1) ≤ firstCode lens (j + k + 1) := by
  have e : upTo lens j = firstCode lens j + lens.count j := by rw [upTo, if_neg (by omega)]
  intro k
  induction k with
  | zero => rw [Nat.add_zero, firstCode_succ, e]; omega
  | succ k ih =>
    rw [firstCode_succ, upTo, if_neg (by omega), Nat.pow_succ]
    have := ih
    rw [show j + (k + 1) = j + k + 1 by omega, Nat.pow_succ]
    rw [Nat.pow_succ] at this
    rw [← Nat.mul_assoc, Nat.mul_comm _ 2]
    omega

theorem mod_div_two (v r : Nat) : 2 * (v / 2 ^ (r + 1)) + v / 2 ^ r % 2 = v / 2 ^ r := by
  rw [Nat.pow_succ, ← Nat.div_div_eq_div_mul]
  omega

theorem bit_value (x : Nat) : (if (x % 2 == 1) = true then 1 else 0) = x % 2 := by
  rcases Nat.mod_two_eq_zero_or_one x with h | h <;> simp [h]

/-- The bits of a code lead to its symbol. -/
theorem run_code_aux (rout : Bytes) (sym : Sym) (lens : List Nat) (hh : sym.huff = Huff.ofLengths lens) (s L : Nat)
    (hs : lens[s]? = some L) : ∀ (r n i : Nat), n + (r + 1) = L →
    runM ⟨rout, .decode sym ((Huff.ofLengths lens).counts.drop n) (2 * (codeValue lens s / 2 ^ (r + 1))) (firstCode lens (n + 1)) (upToIndex lens n)⟩ i
      (lsb (r + 1) (codeValue lens s)).reverse = decoded rout ((i + r) % 8) s sym := by
  have hL : L ≤ longest lens := le_longest lens _ (List.mem_of_getElem? hs)
  have hgd : lens.getD s 0 = L := by simp [List.getD, hs]
  have hv : codeValue lens s = firstCode lens L + (lens.take s).count L := by rw [codeValue, hgd]
  have hcnt : (lens.take s).count L < lens.count L := by
    have hlt := (List.getElem?_eq_some_iff.1 hs).1
    have h2 := (List.getElem?_eq_some_iff.1 hs).2
    conv => rhs; rw [← List.take_append_drop s lens, List.drop_eq_getElem_cons hlt, h2]
    rw [List.count_append, List.count_cons]
    simp
  intro r
  induction r with
  | zero =>
    intro n i h
    rw [lsb_snoc, counts_drop lens n (by omega)]
    simp only [lsb, List.nil_append, List.reverse_singleton, runM, bitStep]
    have e : 2 * (codeValue lens s / 2 ^ (0 + 1)) + (if (codeValue lens s / 2 ^ 0 % 2 == 1) = true then 1 else 0) = codeValue lens s := by
      rw [bit_value]; exact (mod_div_two (codeValue lens s) 0).trans (Nat.div_one _)
    rw [e]
    have hn : n + 1 = L := by omega
    rw [hn, if_pos (by rw [hv]; omega), hv, Nat.add_sub_cancel_left, hh]
    have := syms_getElem lens s n (by rw [hs, hn])
    rw [hn] at this
    rw [List.getD, this]
    rfl
  | succ r ih =>
    intro n i h
    rw [lsb_snoc, counts_drop lens n (by omega), List.reverse_append, List.reverse_singleton, List.singleton_append, runM]
    simp only [bitStep]
    have e : 2 * (codeValue lens s / 2 ^ (r + 1 + 1)) + (if (codeValue lens s / 2 ^ (r + 1) % 2 == 1) = true then 1 else 0) =
        codeValue lens s / 2 ^ (r + 1) := by
      rw [bit_value]; exact mod_div_two (codeValue lens s) (r + 1)
    rw [e]
    have hge : firstCode lens (n + 1) + lens.count (n + 1) ≤ codeValue lens s / 2 ^ (r + 1) := by
      rw [Nat.le_div_iff_mul_le (Nat.two_pow_pos _)]
      have := firstCode_mono lens (n + 1) (by omega) r
      rw [show n + 1 + r + 1 = L by omega] at this
      omega
    rw [if_neg (by omega)]
    have hne : ((Huff.ofLengths lens).counts.drop (n + 1)).isEmpty = false := by
      rw [counts_drop lens (n + 1) (by omega)]; rfl
    rw [hne]
    simp only [Bool.false_eq_true, if_false]
    have := ih (n + 1) (i + 1) (by omega)
    rw [firstCode_succ, upTo, if_neg (by omega), upToIndex_succ] at this
    rw [this]
    congr 1
    omega

theorem codeValue_lt (lens : List Nat) (hf : Fits lens) (s L : Nat) (hs : lens[s]? = some L) (h0 : L ≠ 0) : codeValue lens s < 2 ^ L := by
  have hgd : lens.getD s 0 = L := by simp [List.getD, hs]
  have hcnt : (lens.take s).count L < lens.count L := by
    have hlt := (List.getElem?_eq_some_iff.1 hs).1
    have h2 := (List.getElem?_eq_some_iff.1 hs).2
    conv => rhs; rw [← List.take_append_drop s lens, List.drop_eq_getElem_cons hlt, h2]
    rw [List.count_append, List.count_cons]
    simp
  have := hf L (le_longest lens _ (List.mem_of_getElem? hs))
  rw [upTo, if_neg h0] at this
  rw [codeValue, hgd]
  omega

theorem coded_getElem (lens : List Nat) (s : Nat) (h : Coded lens s) : ∃ r, lens[s]? = some (r + 1) := by
  unfold Coded at h
  rw [List.getD] at h
  cases hs : lens[s]? with
  | none => rw [hs] at h; exact absurd rfl h
  | some L =>
    rw [hs] at h
    cases L with
    | zero => exact absurd rfl h
    | succ r => exact ⟨r, rfl⟩

/-- **Decoding**: the bits of a code lead to its symbol. -/
theorem run_code (rout : Bytes) (sym : Sym) (lens : List Nat) (hh : sym.huff = Huff.ofLengths lens) (hf : Fits lens) (s i : Nat)
    (hs : Coded lens s) : runM ⟨rout, startSym sym⟩ i (codeBits lens s) = decoded rout ((i + (codeBits lens s).length - 1) % 8) s sym := by
  obtain ⟨r, hr⟩ := coded_getElem lens s hs
  have hgd : lens.getD s 0 = r + 1 := by simp [List.getD, hr]
  have := run_code_aux rout sym lens hh s (r + 1) hr r 0 i (by omega)
  rw [List.drop_zero, Nat.div_eq_of_lt (codeValue_lt lens hf s (r + 1) hr (by omega))] at this
  rw [startSym, codeBits, hgd, hh, List.length_reverse, lsb_length]
  exact this

/-! ## Literals and matches -/

theorem length_table : ∀ e, e < 6 → ∀ j, j < 4 → 1 ≤ e → lengthCodes[4 + 4 * e + j]? = some (3 + (4 + j) * 2 ^ e, e) := by decide

theorem short_table : ∀ k, k < 8 → lengthCodes[k]? = some (k + 3, 0) := by decide

theorem dist_table : ∀ e, e < 14 → ∀ j, j < 2 → distCodes[2 + 2 * e + j]? = some (1 + (2 + j) * 2 ^ e, e) := by decide

theorem near_table : ∀ k, k < 2 → distCodes[k]? = some (k + 1, 0) := by decide

theorem lengthCode_table {len s e x : Nat} (h : LengthCode len s e x) :
    256 < s ∧ x < 2 ^ e ∧ ∃ base, lengthCodes[s - 257]? = some (base, e) ∧ len = base + x := by
  cases h with
  | short k hk => exact ⟨by omega, by omega, _, by rw [Nat.add_sub_cancel_left]; exact short_table k hk, rfl⟩
  | group e j x h1 h2 h3 h4 =>
    exact ⟨by omega, h4, _, by rw [show 261 + 4 * e + j - 257 = 4 + 4 * e + j by omega]; exact length_table e (by omega) j h3 h1, rfl⟩
  | longest => exact ⟨by omega, by omega, 258, rfl, rfl⟩

theorem distCode_table {d s e x : Nat} (h : DistCode d s e x) :
    x < 2 ^ e ∧ ∃ base, distCodes[s]? = some (base, e) ∧ d = base + x := by
  cases h with
  | near k hk => exact ⟨by omega, _, near_table _ hk, rfl⟩
  | group e j x h1 h2 h3 => exact ⟨h3, _, dist_table e (by omega) j h2, rfl⟩

theorem copyBack_spec (d : Nat) : ∀ (x out : Bytes), 1 ≤ d → d ≤ out.length →
    (∀ i, out.length ≤ i → i < (out ++ x).length → (out ++ x)[i]? = (out ++ x)[i - d]?) →
    copyBack d x.length out.reverse = (out ++ x).reverse := by
  intro x
  induction x with
  | nil => intro out h1 h2 h; simp [copyBack]
  | cons a x ih =>
    intro out h1 h2 h
    rw [List.length_cons, copyBack]
    have h0 := h out.length (Nat.le_refl _) (by simp)
    rw [List.getElem?_append_right (Nat.le_refl _), Nat.sub_self, List.getElem?_cons_zero, List.getElem?_append_left (by omega)] at h0
    have e : out.reverse.getD (d - 1) 0 = a := by
      rw [List.getD, List.getElem?_reverse (by omega), show out.length - 1 - (d - 1) = out.length - d by omega, ← h0]
      rfl
    rw [e, show a :: out.reverse = (out ++ [a]).reverse by simp, ih (out ++ [a]) h1 (by simp; omega)]
    · simp
    · intro i hi hi2
      rw [List.append_assoc, List.singleton_append] at hi2 ⊢
      exact h i (by simp at hi; omega) hi2

/-- After a code with extra bits. -/
theorem run_token {lit dist : List Nat} (hl : Fits lit) (hd : Fits dist) (final : Bool) {t : Token} {b : List Bool} (h : TokenBits lit dist t b)
    {out : Bytes} {ts : List Token} {out' : Bytes} (hx : Expands out (t :: ts) out') (i : Nat) :
    ∃ mid, Expands mid ts out' ∧
      runM ⟨out.reverse, startSym (.lit ⟨final, Huff.ofLengths lit, Huff.ofLengths dist⟩)⟩ i b =
        ⟨mid.reverse, startSym (.lit ⟨final, Huff.ofLengths lit, Huff.ofLengths dist⟩)⟩ := by
  generalize hc : (⟨final, Huff.ofLengths lit, Huff.ofLengths dist⟩ : Codes) = c
  have hcl : c.lit = Huff.ofLengths lit := by rw [← hc]
  have hcd : c.dist = Huff.ofLengths dist := by rw [← hc]
  cases h with
  | lit a ha =>
    cases hx with
    | lit _ _ _ _ hx =>
      refine ⟨_, hx, ?_⟩
      rw [run_code _ (.lit c) lit hcl hl _ _ ha]
      have := a.toNat_lt
      simp only [decoded]
      rw [if_pos (by omega)]
      simp
  | copy len d s e x s' e' x' h1 h2 h3 h4 =>
    cases hx with
    | copy _ y _ _ _ k1 k2 k3 k4 =>
      refine ⟨_, k4, ?_⟩
      obtain ⟨a1, a2, base, a3, a4⟩ := lengthCode_table h1
      obtain ⟨b2, base', b3, b4⟩ := distCode_table h2
      have e1 : ∀ i, runM ⟨out.reverse, startSym (.lit c)⟩ i (codeBits lit s ++ lsb e x) = ⟨out.reverse, startSym (.dist c y.length)⟩ := by
        intro i
        rw [runM_append, run_code _ (.lit c) lit hcl hl _ _ h3]
        simp only [decoded]
        rw [if_neg (by omega), if_neg (by omega), a3]
        cases e with
        | zero => simp only [lsb, runM]; rw [show y.length = base by omega]
        | succ e =>
          simp only
          rw [run_number _ _ _ _ _ (by omega) a2, collected, a4]
      have e2 : ∀ i, runM ⟨out.reverse, startSym (.dist c y.length)⟩ i (codeBits dist s' ++ lsb e' x') =
          ⟨(out ++ y).reverse, startSym (.lit c)⟩ := by
        intro i
        have hm : doMatch out.reverse c y.length d = ⟨(out ++ y).reverse, startSym (.lit c)⟩ := by
          unfold doMatch
          rw [if_neg (by rw [List.length_reverse]; omega), copyBack_spec d y out k1 k2 k3]
        rw [runM_append, run_code _ (.dist c y.length) dist hcd hd _ _ h4]
        simp only [decoded]
        rw [b3]
        cases e' with
        | zero =>
          simp only [lsb, runM]
          rw [← hm, show d = base' by omega]
        | succ e' =>
          simp only
          rw [run_number _ _ _ _ _ (by omega) b2, collected, ← b4, hm]
      rw [runM_append, e1, e2]

theorem run_tokens {lit dist : List Nat} (hl : Fits lit) (hd : Fits dist) (final : Bool) {ts : List Token} {b : List Bool}
    (h : TokensBits lit dist ts b) : ∀ {out out' : Bytes} (_ : Expands out ts out') (i : Nat),
      runM ⟨out.reverse, startSym (.lit ⟨final, Huff.ofLengths lit, Huff.ofLengths dist⟩)⟩ i b =
        ⟨out'.reverse, startSym (.lit ⟨final, Huff.ofLengths lit, Huff.ofLengths dist⟩)⟩ := by
  induction h with
  | nil => intro out out' hx i; cases hx; rfl
  | cons t ts a b h1 _ ih =>
    intro out out' hx i
    obtain ⟨mid, k1, k2⟩ := run_token hl hd final h1 hx i
    rw [runM_append, k2, ih k1]

/-! ## Code lengths -/

theorem lsb_append : ∀ (w a w' b : Nat), a < 2 ^ w → lsb w a ++ lsb w' b = lsb (w + w') (a + 2 ^ w * b) := by
  intro w
  induction w with
  | zero => intro a w' b h; rw [show a = 0 by simpa using h]; simp [lsb]
  | succ w ih =>
    intro a w' b h
    rw [show w + 1 + w' = (w + w') + 1 by omega, lsb, lsb, List.cons_append, ih (a / 2) w' b (by rw [Nat.pow_succ] at h; omega)]
    have e : 2 ^ (w + 1) * b = 2 * (2 ^ w * b) := by rw [Nat.pow_succ, Nat.mul_comm (2 ^ w) 2, Nat.mul_assoc]
    rw [e]
    congr 2
    · omega
    · omega

theorem order_eq : lengthOrder = order := by decide

/-- The table of the lengths of the codes for code lengths. -/
def clTable (known : List (Nat × Nat)) : List Nat := (List.range 19).map fun s => ((known.find? (·.1 == s)).map (·.2)).getD 0

theorem run_lenLens (rout : Bytes) (final : Bool) (nlen ndist : Nat) (cl : List Nat) (hcl : ∀ l ∈ cl, l ≤ 7) :
    ∀ (os : List Nat) (known : List (Nat × Nat)) (i : Nat), os ≠ [] →
    runM ⟨rout, .collect (.lenLens final nlen ndist os known) 3 0 0⟩ i (os.flatMap fun s => lsb 3 (cl.getD s 0)) =
      ⟨rout, if (Huff.ofLengths (clTable ((os.map fun s => (s, cl.getD s 0)).reverse ++ known))).ok false then
          startSym (.codeLen ⟨final, nlen, ndist, Huff.ofLengths (clTable ((os.map fun s => (s, cl.getD s 0)).reverse ++ known)), []⟩)
        else .bad⟩ := by
  have hget : ∀ s, cl.getD s 0 < 2 ^ 3 := by
    intro s
    rw [List.getD]
    cases h : cl[s]? with
    | none => simp
    | some l => have := hcl l (List.mem_of_getElem? h); simp only [Option.getD_some]; omega
  intro os
  induction os with
  | nil => intro known i h; exact absurd rfl h
  | cons s os ih =>
    intro known i _
    rw [List.flatMap_cons, runM_append, run_number _ _ _ _ _ (by omega) (hget s)]
    cases os with
    | nil =>
      simp only [collected, List.headD_cons, List.tail_cons, List.flatMap_nil, runM, List.map_cons, List.map_nil, List.reverse_singleton,
        List.singleton_append]
      rfl
    | cons s' os =>
      have := ih ((s, cl.getD s 0) :: known) (i + (lsb 3 (cl.getD s 0)).length) (by simp)
      simp only [collected, List.headD_cons, List.tail_cons]
      rw [this]
      simp only [List.map_cons, List.reverse_cons, List.append_assoc, List.cons_append, List.nil_append]

theorem clTable_eq (cl : List Nat) (h19 : cl.length = 19) (k : Nat) (h0 : ∀ s ∈ order.drop k, cl.getD s 0 = 0) :
    clTable (((order.take k).map fun s => (s, cl.getD s 0)).reverse ++ []) = cl := by
  refine List.ext_getElem? fun s => ?_
  unfold clTable
  by_cases hs : s < 19
  · rw [List.getElem?_map, List.getElem?_range hs, List.append_nil]
    simp only [Option.map_some]
    have hget : cl[s]? = some (cl.getD s 0) := by
      rw [List.getD, List.getElem?_eq_getElem (by omega)]; rfl
    rw [hget]
    congr 1
    cases hf : (((order.take k).map fun s => (s, cl.getD s 0)).reverse).find? (·.1 == s) with
    | none =>
      rw [List.find?_eq_none] at hf
      have hno : s ∉ order.take k := by
        intro hm
        have := hf (s, cl.getD s 0) (List.mem_reverse.2 (List.mem_map.2 ⟨s, hm, rfl⟩))
        simp at this
      have hmem : s ∈ order := by
        have : ∀ s, s < 19 → s ∈ order := by decide
        exact this s hs
      rw [← List.take_append_drop k order, List.mem_append] at hmem
      rcases hmem with h | h
      · exact absurd h hno
      · rw [h0 s h]; rfl
    | some p =>
      have h1 := List.find?_some hf
      obtain ⟨s', -, rfl⟩ := List.mem_map.1 (List.mem_reverse.1 (List.mem_of_find?_eq_some hf))
      simp only [beq_iff_eq] at h1
      subst h1
      rfl
  · rw [List.getElem?_eq_none (by simp; omega), List.getElem?_eq_none (by omega)]

theorem doLens_spec (d : Dyn) (all prev rest : List Nat) (n val : Nat) (hn : d.nlen + d.ndist = all.length)
    (h : prev ++ (List.replicate n val ++ rest) = all) :
    doLens { d with rlens := prev.reverse } n val = if rest = [] then doTable d all.reverse else
      startSym (.codeLen { d with rlens := (prev ++ List.replicate n val).reverse }) := by
  have hl : prev.length + (n + rest.length) = all.length := by rw [← h]; simp
  unfold doLens
  simp only [List.length_reverse]
  by_cases hr : rest = []
  · subst hr
    rw [List.length_nil] at hl
    rw [if_neg (by omega), if_pos (by omega), if_pos rfl, ← h]
    simp [doTable]
  · have : 0 < rest.length := List.length_pos_iff.2 hr
    rw [if_neg (by omega), if_neg (by omega), if_neg hr]
    simp

theorem lensBits_nil {cl prev rest : List Nat} {b : List Bool} (h : LensBits cl prev rest b) (hr : rest = []) : b = [] := by
  cases h with
  | nil => rfl
  | one => simp at hr
  | again _ _ n => have := congrArg List.length hr; simp at this; omega
  | zeros _ n => have := congrArg List.length hr; simp at this; omega
  | manyZeros _ n => have := congrArg List.length hr; simp at this; omega

theorem run_lens (rout : Bytes) (d : Dyn) (cl : List Nat) (hd : d.lens = Huff.ofLengths cl) (hf : Fits cl) (all : List Nat)
    (hn : d.nlen + d.ndist = all.length) {prev rest : List Nat} {b : List Bool} (h : LensBits cl prev rest b) :
    ∀ i, prev ++ rest = all → rest ≠ [] →
      runM ⟨rout, startSym (.codeLen { d with rlens := prev.reverse })⟩ i b = ⟨rout, doTable d all.reverse⟩ := by
  induction h with
  | nil => intro i _ h; exact absurd rfl h
  | one prev l rest b h1 h2 h3 ih =>
    intro i he _
    rw [runM_append, run_code _ (.codeLen { d with rlens := prev.reverse }) cl hd hf _ _ h2]
    simp only [decoded]
    rw [if_pos (by omega), doLens_spec d all prev rest 1 l hn (by rw [← he]; rfl)]
    by_cases hr : rest = []
    · rw [if_pos hr, lensBits_nil h3 hr]; rfl
    · rw [if_neg hr]
      exact ih _ (by rw [← he]; simp) hr
  | again prev l n rest b h1 h2 h3 h4 h5 ih =>
    intro i he _
    rw [List.append_assoc, runM_append, run_code _ (.codeLen { d with rlens := prev.reverse }) cl hd hf _ _ h4]
    simp only [decoded]
    rw [if_neg (by omega), if_pos trivial, runM_append, run_number _ _ _ _ _ (by omega) (by omega)]
    have hp : ∃ t, prev.reverse = l :: t := by
      rw [List.getLast?_eq_head?_reverse] at h3
      cases hp : prev.reverse with
      | nil => rw [hp] at h3; simp at h3
      | cons a t => rw [hp] at h3; simp at h3; exact ⟨t, by rw [h3]⟩
    obtain ⟨t, hp⟩ := hp
    have hc : ∀ j, collected rout j (n - 3) (.repeatPrev { d with rlens := prev.reverse }) = ⟨rout, doLens { d with rlens := prev.reverse } n l⟩ := by
      intro j
      simp only [collected, hp]
      rw [show 3 + (n - 3) = n by omega]
    rw [hc, doLens_spec d all prev rest n l hn he]
    by_cases hr : rest = []
    · rw [if_pos hr, lensBits_nil h5 hr]; rfl
    · rw [if_neg hr]
      exact ih _ (by rw [← he]; simp) hr
  | zeros prev n rest b h1 h2 h4 h5 ih =>
    intro i he _
    rw [List.append_assoc, runM_append, run_code _ (.codeLen { d with rlens := prev.reverse }) cl hd hf _ _ h4]
    simp only [decoded]
    rw [if_neg (by omega), if_neg (by omega), if_pos trivial, runM_append, run_number _ _ _ _ _ (by omega) (by omega)]
    simp only [collected]
    rw [show 3 + (n - 3) = n by omega, doLens_spec d all prev rest n 0 hn he]
    by_cases hr : rest = []
    · rw [if_pos hr, lensBits_nil h5 hr]; rfl
    · rw [if_neg hr]
      exact ih _ (by rw [← he]; simp) hr
  | manyZeros prev n rest b h1 h2 h4 h5 ih =>
    intro i he _
    rw [List.append_assoc, runM_append, run_code _ (.codeLen { d with rlens := prev.reverse }) cl hd hf _ _ h4]
    simp only [decoded]
    rw [if_neg (by omega), if_neg (by omega), if_neg (by omega), runM_append, run_number _ _ _ _ _ (by omega) (by omega)]
    simp only [collected]
    rw [show 11 + (n - 11) = n by omega, doLens_spec d all prev rest n 0 hn he]
    by_cases hr : rest = []
    · rw [if_pos hr, lensBits_nil h5 hr]; rfl
    · rw [if_neg hr]
      exact ih _ (by rw [← he]; simp) hr

theorem run_header (rout : Bytes) (final : Bool) {lit dist : List Nat} {h : List Bool} (hh : Header lit dist h)
    (h1 : 257 ≤ lit.length) (h2 : lit.length ≤ 286) (h3 : 1 ≤ dist.length) (h4 : dist.length ≤ 30) (h5 : Coded lit 256)
    (h6 : Usable lit) (h7 : Usable dist) (i : Nat) :
    runM ⟨rout, .collect (.table final) 14 0 0⟩ i h =
      ⟨rout, startSym (.lit ⟨final, Huff.ofLengths lit, Huff.ofLengths dist⟩)⟩ := by
  cases hh with
  | mk cl k b k1 k2 k3 k4 k5 k6 k7 =>
    obtain ⟨j1, j2⟩ := ok_of_complete cl k6 false
    rw [List.append_assoc, runM_append, lsb_append _ _ _ _ (by omega), lsb_append _ _ _ _ (by omega), run_number _ _ _ _ _ (by omega) (by omega)]
    simp only [collected]
    rw [if_neg (by omega), runM_append]
    have e1 : (lit.length - 257 + 2 ^ 5 * (dist.length - 1) + 2 ^ (5 + 5) * (k - 4)) % 32 + 257 = lit.length := by omega
    have e2 : (lit.length - 257 + 2 ^ 5 * (dist.length - 1) + 2 ^ (5 + 5) * (k - 4)) / 32 % 32 + 1 = dist.length := by omega
    have e3 : (lit.length - 257 + 2 ^ 5 * (dist.length - 1) + 2 ^ (5 + 5) * (k - 4)) / 1024 + 4 = k := by omega
    rw [e1, e2, e3, order_eq, run_lenLens rout final _ _ cl k2 _ _ _ (by
      intro h
      have := congrArg List.length h
      rw [List.length_take, show order.length = 19 by decide, List.length_nil] at this
      omega), clTable_eq cl k1 k k5, if_pos j1]
    have hne : lit ++ dist ≠ [] := by
      intro h
      have := congrArg List.length h
      rw [List.length_append, List.length_nil] at this
      omega
    have hr := run_lens rout ⟨final, lit.length, dist.length, Huff.ofLengths cl, []⟩ cl rfl j2 (lit ++ dist) (by simp) k7
    rw [show ([] : List Nat) = [].reverse from rfl, hr _ rfl hne]
    unfold doTable
    simp only [List.reverse_reverse]
    rw [if_neg, List.take_left, List.drop_left, if_pos ⟨(ok_of_usable lit h6).1, (ok_of_usable dist h7).1⟩]
    rw [List.getD, List.getElem?_append_left (by omega), ← List.getD]
    exact h5

/-! ## Blocks -/

theorem fixedLit_eq : fixedLit = Huff.ofLengths fixedLitLens := by decide +kernel

theorem fixedDist_eq : fixedDist = Huff.ofLengths fixedDistLens := rfl

theorem fixedLit_complete : Complete fixedLitLens := ⟨9, by decide +kernel, by decide +kernel⟩

theorem fixedDist_complete : Complete fixedDistLens := ⟨5, by decide, by decide⟩

theorem fixedLit_end : Coded fixedLitLens 256 := by unfold Coded; decide +kernel

theorem codeBits_length (lens : List Nat) (s : Nat) : (codeBits lens s).length = lens.getD s 0 := by
  rw [codeBits, List.length_reverse, lsb_length]

theorem run_end (rout : Bytes) (final : Bool) (lit dist : List Nat) (hf : Fits lit) (h : Coded lit 256) (i : Nat) :
    runM ⟨rout, startSym (.lit ⟨final, Huff.ofLengths lit, Huff.ofLengths dist⟩)⟩ i (codeBits lit 256) =
      ⟨rout, endBlock final ((i + (codeBits lit 256).length - 1) % 8)⟩ := by
  rw [run_code _ (.lit _) lit rfl hf _ _ h]
  simp [decoded]

theorem run_type (rout : Bytes) (final x y : Bool) (i : Nat) :
    runM ⟨rout, .collect .type 3 0 0⟩ i [final, x, y] =
      collected rout ((i + 2) % 8) (final.toNat + 2 * (x.toNat + 2 * y.toNat)) .type := by
  have h : final.toNat + 2 * (x.toNat + 2 * y.toNat) < 2 ^ 3 := by cases final <;> cases x <;> cases y <;> decide
  have := run_number rout .type 3 _ i (by omega) h
  rw [show i + 3 - 1 = i + 2 by omega] at this
  rw [← this]
  cases final <;> cases x <;> cases y <;> rfl

theorem run_block {pos : Nat} {final : Bool} {out : Bytes} {b : List Bool} {out' : Bytes} (h : Block pos final out b out') :
    runM ⟨out.reverse, .collect .type 3 0 0⟩ pos b = ⟨out'.reverse, endBlock final ((pos + b.length - 1) % 8)⟩ := by
  cases h with
  | stored data pad h1 h2 h3 =>
    simp only [List.append_assoc]
    rw [runM_append, run_type]
    have ht : collected out.reverse ((pos + 2) % 8) (final.toNat + 2 * (false.toNat + 2 * false.toNat)) .type =
        ⟨out.reverse, align ((pos + 2) % 8) (.storedLen final) 32⟩ := by cases final <;> rfl
    rw [ht, runM_append, run_align _ _ _ _ _ (by omega) (by omega) h3, ← List.append_assoc (lsb 16 _), runM_append, lsb_append _ _ _ _ (by omega),
      run_number _ _ _ _ _ (by omega) (by omega)]
    simp only [collected]
    rw [if_neg (by omega), show (data.length + 2 ^ 16 * (65535 - data.length)) % 65536 = data.length by omega]
    simp only [List.length_append, lsb_length, bitsOf_length, List.length_cons, List.length_nil]
    by_cases hd : data = []
    · subst hd
      simp only [List.length_nil, if_true, bitsOf, List.flatMap_nil, runM, List.append_nil]
      congr 2
      omega
    · rw [if_neg (by have := List.length_pos_iff.2 hd; omega), ← feed_runM data _ _ (by omega), feed_stored _ _ _ hd]
      rw [List.reverse_append]
      congr 2
      have := List.length_pos_iff.2 hd
      omega
  | fixed ts b _ h1 h2 =>
    rw [List.append_assoc, runM_append, run_type]
    have ht : collected out.reverse ((pos + 2) % 8) (final.toNat + 2 * (true.toNat + 2 * false.toNat)) .type =
        ⟨out.reverse, startSym (.lit ⟨final, fixedLit, fixedDist⟩)⟩ := by cases final <;> rfl
    have hl := (ok_of_complete _ fixedLit_complete true).2
    have hd := (ok_of_complete _ fixedDist_complete true).2
    rw [ht, fixedLit_eq, fixedDist_eq, runM_append, run_tokens hl hd final h1 h2, run_end _ _ _ _ hl fixedLit_end]
    simp only [List.length_append, List.length_cons, List.length_nil]
    congr 3
    omega
  | dynamic lit dist hb ts b _ h1 h2 h3 h4 h5 h6 h7 h8 h9 h10 =>
    simp only [List.append_assoc]
    rw [runM_append, run_type]
    have ht : collected out.reverse ((pos + 2) % 8) (final.toNat + 2 * (false.toNat + 2 * true.toNat)) .type =
        ⟨out.reverse, .collect (.table final) 14 0 0⟩ := by cases final <;> rfl
    have hl := (ok_of_usable _ h6).2
    have hd := (ok_of_usable _ h7).2
    rw [ht, runM_append, run_header _ _ h8 h1 h2 h3 h4 h5 h6 h7, runM_append, run_tokens hl hd final h9 h10, run_end _ _ _ _ hl h5]
    simp only [List.length_append, List.length_cons, List.length_nil]
    congr 3
    omega

theorem block_length {pos : Nat} {final : Bool} {out : Bytes} {b : List Bool} {out' : Bytes} (h : Block pos final out b out') :
    3 ≤ b.length := by
  cases h <;> simp only [List.length_append, List.length_cons, List.length_nil] <;> omega

theorem run_blocks {pos : Nat} {out : Bytes} {b : List Bool} {out' : Bytes} (h : Blocks pos out b out') :
    3 ≤ b.length ∧ runM ⟨out.reverse, .collect .type 3 0 0⟩ pos b = ⟨out'.reverse, align ((pos + b.length - 1) % 8) .check 32⟩ := by
  induction h with
  | last pos out b out' h => exact ⟨block_length h, run_block h⟩
  | more pos out a mid b out' h _ ih =>
    refine ⟨by rw [List.length_append]; omega, ?_⟩
    rw [runM_append, run_block h]
    simp only [endBlock, Bool.false_eq_true, if_false]
    rw [ih.2, List.length_append]
    congr 3
    omega

/-! ## The frame -/

theorem adler_sums : ∀ y : Bytes, adler32 y.reverse = sum2 y.reverse * 65536 + sum1 y.reverse := by
  have h : ∀ y : Bytes, y.reverse.foldl (fun (ab : Nat × Nat) c => let a := (ab.1 + c.toNat) % 65521; (a, (ab.2 + a) % 65521)) (1, 0) =
      (sum1 y.reverse, sum2 y.reverse) := by
    intro y
    induction y with
    | nil => rfl
    | cons c y ih =>
      rw [List.reverse_cons, List.foldl_append, ih]
      have e1 : sum1 (y.reverse ++ [c]) = (sum1 y.reverse + c.toNat) % 65521 := by
        simp only [sum1, List.map_append, List.sum_append, List.map_cons, List.map_nil, List.sum_singleton]
        omega
      have e2 : sum2 (y.reverse ++ [c]) = (sum2 y.reverse + sum1 (y.reverse ++ [c])) % 65521 := by
        generalize y.reverse = x
        have ht : ((List.range x.length).map fun i => 1 + (((x ++ [c]).take (i + 1)).map UInt8.toNat).sum) =
            (List.range x.length).map fun i => 1 + ((x.take (i + 1)).map UInt8.toNat).sum :=
          List.map_congr_left fun i hi => by
            rw [List.take_append_of_le_length (by have := List.mem_range.1 hi; omega)]
        simp only [sum2, List.length_append, List.length_cons, List.length_nil, Nat.zero_add, List.range_succ, List.map_append, List.sum_append, List.map_cons,
          List.map_nil, List.sum_singleton]
        rw [ht, List.take_of_length_le (by simp), sum1]
        simp only [List.map_append, List.sum_append]
        omega
      rw [e2, e1]
      rfl
  intro y
  unfold adler32
  rw [h]

theorem swap_bytes (a b c d : Nat) (ha : a < 256) (hb : b < 256) (hc : c < 256) (hd : d < 256) :
    swap32 (a + 256 * b + 65536 * c + 16777216 * d) = (a * 256 + b) * 65536 + (c * 256 + d) := by
  unfold swap32
  rw [show (a + 256 * b + 65536 * c + 16777216 * d) % 256 = a by omega,
    show (a + 256 * b + 65536 * c + 16777216 * d) / 256 = b + 256 * c + 65536 * d by omega,
    show (a + 256 * b + 65536 * c + 16777216 * d) / 65536 = c + 256 * d by omega,
    show (a + 256 * b + 65536 * c + 16777216 * d) / 16777216 = d by omega,
    show (b + 256 * c + 65536 * d) % 256 = b by omega, show (c + 256 * d) % 256 = c by omega]
  omega

theorem run_stream {m content : Bytes} (h : ZlibStream m content) : stopFrom {} m = some m.length ∧ feed {} m = ⟨content.reverse, .done⟩ := by
  cases h with
  | mk cmf flg body b pad _ c0 c1 c2 c3 h1 h2 h3 h4 h5 h6 h7 h8 h9 =>
    obtain ⟨k1, k2⟩ := run_blocks h5
    have hlen : 8 * body.length = b.length + pad.length := by rw [← bitsOf_length, h6, List.length_append]
    have hb : feed {} ([cmf, flg] ++ body) = ⟨content.reverse, .collect .check 32 0 0⟩ := by
      rw [feed_append, feed_runM [cmf, flg] _ 0 rfl, bitsOf_cons, bitsOf_cons]
      have hc := cmf.toNat_lt
      have hg := flg.toNat_lt
      simp only [bitsOf, List.flatMap_nil, List.append_nil]
      rw [lsb_append _ _ _ _ (by omega), run_number _ _ _ _ _ (by omega) (by omega)]
      simp only [collected]
      have hv1 : (cmf.toNat + 2 ^ 8 * flg.toNat) % 256 = cmf.toNat := by omega
      have hv2 : (cmf.toNat + 2 ^ 8 * flg.toNat) / 256 = flg.toNat := by omega
      have hv3 : (cmf.toNat + 2 ^ 8 * flg.toNat) % 16 = 8 := by omega
      have hv4 : (cmf.toNat + 2 ^ 8 * flg.toNat) / 8192 % 2 = 0 := by
        rw [show 8192 = 256 * 32 from rfl, ← Nat.div_div_eq_div_mul, hv2]; exact h4
      rw [hv1, hv2, hv3, hv4, if_neg (by omega), if_neg (by omega), feed_runM body _ 0 rfl, h6, runM_append]
      have := k2
      rw [List.reverse_nil] at this
      rw [this, run_align _ _ _ _ _ (by omega) (by omega) h7]
    have hs : swap32 (c0.toNat + 256 * c1.toNat + 65536 * c2.toNat + 16777216 * c3.toNat) = adler32 content := by
      have := adler_sums content.reverse
      rw [List.reverse_reverse] at this
      rw [this, ← h8, ← h9]
      exact swap_bytes _ _ _ _ c0.toNat_lt c1.toNat_lt c2.toNat_lt c3.toNat_lt
    have hd : feed {} ([cmf, flg] ++ body ++ [c0, c1, c2, c3]) = ⟨content.reverse, .done⟩ := by
      rw [feed_append, hb, feed_four, collected, List.reverse_reverse, if_pos hs]
    refine ⟨?_, hd⟩
    have e : [cmf, flg] ++ body ++ [c0, c1, c2, c3] = ([cmf, flg] ++ body ++ [c0, c1, c2]) ++ [c3] := by simp
    rw [e] at hd ⊢
    refine stop_of_last _ _ (by rw [hd]) ?_
    rw [feed_append, hb]
    simp only [feed_cons]
    rw [stepByte_collect _ _ _ _ _ _ (by omega), stepByte_collect _ _ _ _ _ _ (by omega), stepByte_collect _ _ _ _ _ _ (by omega)]
    simp [feed]

end GitDB.Deflate
