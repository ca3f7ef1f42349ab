import Verif.Proofs.Rfc
/-!
# The decompressor of `Verif/Model/Inflate.lean` accepts nothing but what `Verif/Spec/Deflate.lean` describes
-/
set_option autoImplicit false

namespace GitDB.Deflate
open Spec.Rfc

/-! ## Runs that reach the end -/

theorem runM_done : ∀ (a : List Bool) (s : Inf) (i : Nat), s.mode = .done → runM s i a = s := by
  intro a
  induction a with
  | nil => intro s i h; rfl
  | cons b a ih =>
    intro s i h
    have : bitStep s (i % 8) b = s := by unfold bitStep; rw [h]
    rw [runM, this]
    exact ih _ _ h

theorem runM_bad : ∀ (a : List Bool) (s : Inf) (i : Nat), s.mode = .bad → (runM s i a).mode ≠ .done := by
  intro a
  induction a with
  | nil => intro s i h; rw [runM, h]; simp
  | cons b a ih =>
    intro s i h
    have : bitStep s (i % 8) b = s := by unfold bitStep; rw [h]
    rw [runM, this]
    exact ih _ _ h

theorem bits_lsb : ∀ a : List Bool, ∃ v, v < 2 ^ a.length ∧ a = lsb a.length v := by
  intro a
  induction a with
  | nil => exact ⟨0, by simp, rfl⟩
  | cons b a ih =>
    obtain ⟨v, h1, h2⟩ := ih
    refine ⟨b.toNat + 2 * v, ?_, ?_⟩
    · rw [List.length_cons, Nat.pow_succ]; cases b <;> simp <;> omega
    · rw [List.length_cons, lsb]
      have e1 : (b.toNat + 2 * v) / 2 = v := by cases b <;> simp <;> omega
      have e2 : ((b.toNat + 2 * v) % 2 == 1) = b := by cases b <;> simp <;> omega
      rw [e1, e2, ← h2]

theorem collect_short (rout : Bytes) (w : Want) (need : Nat) : ∀ (a : List Bool) (got acc i : Nat), got + a.length < need →
    (runM ⟨rout, .collect w need got acc⟩ i a).mode ≠ .done := by
  intro a
  induction a with
  | nil => intro got acc i h; simp [runM]
  | cons b a ih =>
    intro got acc i h
    rw [List.length_cons] at h
    rw [runM, bitStep_collect _ _ _ _ _ _ _ (by omega)]
    exact ih _ _ _ (by omega)

theorem inv_number (rout : Bytes) (w : Want) (k i : Nat) (hk : 0 < k) (bits : List Bool)
    (h : (runM ⟨rout, .collect w k 0 0⟩ i bits).mode = .done) :
    ∃ v rest, v < 2 ^ k ∧ bits = lsb k v ++ rest ∧
      runM ⟨rout, .collect w k 0 0⟩ i bits = runM (collected rout ((i + k - 1) % 8) v w) (i + k) rest := by
  by_cases hl : bits.length < k
  · exact absurd h (collect_short _ _ _ _ _ _ _ (by omega))
  · have ht : (bits.take k).length = k := by rw [List.length_take]; omega
    obtain ⟨v, h1, h2⟩ := bits_lsb (bits.take k)
    rw [ht] at h1 h2
    refine ⟨v, bits.drop k, h1, by rw [← h2, List.take_append_drop], ?_⟩
    conv => lhs; rw [← List.take_append_drop k bits, h2]
    rw [runM_append, run_number _ _ _ _ _ hk h1, lsb_length]

theorem skip_short (rout : Bytes) (w : Want) (need : Nat) : ∀ (a : List Bool) (left i : Nat), a.length < left →
    (runM ⟨rout, .skip left w need⟩ i a).mode ≠ .done := by
  intro a
  induction a with
  | nil => intro left i h; simp [runM]
  | cons b a ih =>
    intro left i h
    rw [List.length_cons] at h
    rw [runM]
    simp only [bitStep]
    rw [if_neg (by omega)]
    exact ih _ _ (by omega)

theorem inv_align (rout : Bytes) (w : Want) (need i : Nat) (hi : i < 8) (j : Nat) (bits : List Bool)
    (h : (runM ⟨rout, align i w need⟩ j bits).mode = .done) :
    ∃ pad rest, bits = pad ++ rest ∧ (i + 1 + pad.length) % 8 = 0 ∧ pad.length < 8 ∧
      runM ⟨rout, align i w need⟩ j bits = runM ⟨rout, .collect w need 0 0⟩ (j + pad.length) rest := by
  by_cases hl : bits.length < 7 - i
  · unfold align at h
    rw [if_neg (by omega)] at h
    exact absurd h (skip_short _ _ _ _ _ _ hl)
  · have ht : (bits.take (7 - i)).length = 7 - i := by rw [List.length_take]; omega
    refine ⟨bits.take (7 - i), bits.drop (7 - i), (List.take_append_drop _ _).symm, by omega, by omega, ?_⟩
    conv => lhs; rw [← List.take_append_drop (7 - i) bits]
    rw [runM_append, run_align _ _ _ _ _ hi (by omega) (by omega)]

/-! ## Codes -/

theorem exists_rank (l : Nat) : ∀ (lens : List Nat) (r : Nat), r < lens.count l → ∃ s, lens[s]? = some l ∧ (lens.take s).count l = r := by
  intro lens
  induction lens with
  | nil => intro r h; simp at h
  | cons a lens ih =>
    intro r h
    by_cases ha : a = l
    · subst ha
      cases r with
      | zero => exact ⟨0, rfl, rfl⟩
      | succ r =>
        rw [List.count_cons_self] at h
        obtain ⟨s, h1, h2⟩ := ih r (by omega)
        exact ⟨s + 1, by simpa using h1, by rw [List.take_succ_cons, List.count_cons_self, h2]⟩
    · rw [List.count_cons_of_ne (by simpa using ha)] at h
      obtain ⟨s, h1, h2⟩ := ih r h
      exact ⟨s + 1, by simpa using h1, by rw [List.take_succ_cons, List.count_cons_of_ne (by simpa using ha), h2]⟩

theorem inv_code_aux (rout : Bytes) (sym : Sym) (lens : List Nat) : ∀ (bits : List Bool) (n p i : Nat),
    n < longest lens → upTo lens n ≤ p →
    (runM ⟨rout, .decode sym ((Huff.ofLengths lens).counts.drop n) (2 * p) (firstCode lens (n + 1)) (upToIndex lens n)⟩ i bits).mode = .done →
    ∃ s rest, Coded lens s ∧ (lsb n p).reverse ++ bits = codeBits lens s ++ rest := by
  intro bits
  induction bits with
  | nil => intro n p i _ _ h; simp [runM] at h
  | cons b bits ih =>
    intro n p i hn hp h
    rw [counts_drop lens n hn, runM] at h
    simp only [bitStep] at h
    have hcode : 2 * p + (if b = true then 1 else 0) = 2 * p + b.toNat := by cases b <;> rfl
    rw [hcode] at h
    have hbits : (lsb (n + 1) (2 * p + b.toNat)).reverse = (lsb n p).reverse ++ [b] := by
      rw [lsb, List.reverse_cons]
      have e1 : (2 * p + b.toNat) / 2 = p := by cases b <;> simp <;> omega
      have e2 : ((2 * p + b.toNat) % 2 == 1) = b := by cases b <;> simp <;> omega
      rw [e1, e2]
    by_cases hm : 2 * p + b.toNat < firstCode lens (n + 1) + lens.count (n + 1)
    · have hfc : firstCode lens (n + 1) ≤ 2 * p + b.toNat := by rw [firstCode_succ]; omega
      obtain ⟨s, h1, h2⟩ := exists_rank (n + 1) lens (2 * p + b.toNat - firstCode lens (n + 1)) (by omega)
      have hgd : lens.getD s 0 = n + 1 := by simp [List.getD, h1]
      refine ⟨s, bits, by unfold Coded; rw [hgd]; omega, ?_⟩
      have hv : codeValue lens s = 2 * p + b.toNat := by rw [codeValue, hgd, h2]; omega
      rw [codeBits, hgd, hv, hbits]
      simp
    · rw [if_neg hm] at h
      by_cases he : n + 1 < longest lens
      · have hne : ((Huff.ofLengths lens).counts.drop (n + 1)).isEmpty = false := by
          rw [counts_drop lens (n + 1) he]; rfl
        rw [hne] at h
        simp only [Bool.false_eq_true, if_false] at h
        have hu : upTo lens (n + 1) = firstCode lens (n + 1) + lens.count (n + 1) := by rw [upTo, if_neg (by omega)]
        have hf2 : 2 * (firstCode lens (n + 1) + lens.count (n + 1)) = firstCode lens (n + 1 + 1) := by rw [firstCode_succ lens (n + 1), hu]
        rw [hf2, ← upToIndex_succ] at h
        obtain ⟨s, rest, k1, k2⟩ := ih (n + 1) (2 * p + b.toNat) (i + 1) he (by omega) h
        refine ⟨s, rest, k1, ?_⟩
        rw [← k2, hbits]
        simp
      · have hne : ((Huff.ofLengths lens).counts.drop (n + 1)).isEmpty = true := by
          rw [List.drop_eq_nil_of_le (by rw [counts_length]; omega)]; rfl
        rw [hne] at h
        simp only [if_true] at h
        exact absurd h (runM_bad _ _ _ rfl)

theorem inv_code (rout : Bytes) (sym : Sym) (lens : List Nat) (hh : sym.huff = Huff.ofLengths lens) (hf : Fits lens) (hl : longest lens ≠ 0)
    (i : Nat) (bits : List Bool) (h : (runM ⟨rout, startSym sym⟩ i bits).mode = .done) :
    ∃ s rest, Coded lens s ∧ bits = codeBits lens s ++ rest ∧
      runM ⟨rout, startSym sym⟩ i bits =
        runM (decoded rout ((i + (codeBits lens s).length - 1) % 8) s sym) (i + (codeBits lens s).length) rest := by
  have h' := h
  rw [startSym, hh] at h'
  obtain ⟨s, rest, h1, h2⟩ := inv_code_aux rout sym lens bits 0 0 i (by omega) (by rw [upTo_zero]; omega) h'
  refine ⟨s, rest, h1, h2, ?_⟩
  have h2 : bits = codeBits lens s ++ rest := h2
  rw [h2, runM_append, run_code rout sym lens hh hf s i h1]

theorem noCodes (rout : Bytes) (sym : Sym) (lens : List Nat) (hh : sym.huff = Huff.ofLengths lens) (hl : longest lens = 0)
    (i : Nat) (b : Bool) : bitStep ⟨rout, startSym sym⟩ i b = noCode rout sym := by
  have : sym.huff.counts = [] := by
    rw [hh]; exact List.eq_nil_of_length_eq_zero (by rw [counts_length]; exact hl)
  rw [startSym, this]
  rfl

theorem kraft_fits (lens : List Nat) : ∀ (k n left : Nat), n + k = longest lens → upTo lens n ≤ 2 ^ n →
    kraft ((Huff.ofLengths lens).counts.drop n) (2 ^ n - upTo lens n) = some left →
    (∀ n', n ≤ n' → n' ≤ longest lens → upTo lens n' ≤ 2 ^ n') ∧ left = 2 ^ longest lens - upTo lens (longest lens) := by
  intro k
  induction k with
  | zero =>
    intro n left h hu hk
    rw [List.drop_eq_nil_of_le (by rw [counts_length]; omega), kraft] at hk
    refine ⟨fun n' h1 h2 => ?_, ?_⟩
    · rw [show n' = n by omega]; exact hu
    · rw [← h]; simpa using hk.symm
  | succ k ih =>
    intro n left h hu hk
    rw [counts_drop lens n (by omega), kraft] at hk
    by_cases hc : 2 * (2 ^ n - upTo lens n) < lens.count (n + 1)
    · rw [if_pos hc] at hk; simp at hk
    · rw [if_neg hc] at hk
      have hs := upTo_succ lens n
      have hu1 : upTo lens (n + 1) ≤ 2 ^ (n + 1) := by rw [hs, Nat.pow_succ]; omega
      have e : 2 * (2 ^ n - upTo lens n) - lens.count (n + 1) = 2 ^ (n + 1) - upTo lens (n + 1) := by rw [hs, Nat.pow_succ]; omega
      rw [e] at hk
      obtain ⟨h1, h2⟩ := ih (n + 1) left (by omega) hu1 hk
      refine ⟨fun n' a1 a2 => ?_, h2⟩
      by_cases hn : n' = n
      · rw [hn]; exact hu
      · exact h1 n' (by omega) a2

theorem ok_inv (lens : List Nat) (single : Bool) (h : (Huff.ofLengths lens).ok single = true) :
    Fits lens ∧ (Complete lens ∨ longest lens = 0 ∨ (single = true ∧ longest lens = 1 ∧ lens.count 1 = 1)) := by
  unfold Huff.ok at h
  cases hk : kraft (Huff.ofLengths lens).counts 1 with
  | none => rw [hk] at h; simp at h
  | some left =>
    rw [hk, counts_length] at h
    obtain ⟨h1, h2⟩ := kraft_fits lens (longest lens) 0 left (by omega) (by rw [upTo_zero]; omega) hk
    have hf : Fits lens := fun n hn => h1 n (by omega) hn
    refine ⟨hf, ?_⟩
    simp only [Bool.or_eq_true, Bool.and_eq_true, beq_iff_eq] at h
    by_cases h0 : left = 0
    · left
      refine ⟨longest lens, le_longest lens, ?_⟩
      rw [← upTo_all _ _ (le_longest lens)]
      have := hf _ (Nat.le_refl _)
      omega
    · rcases h with (h | h) | ⟨ha, hb⟩
      · exact absurd h h0
      · exact .inr (.inl h)
      · refine .inr (.inr ⟨ha, hb, ?_⟩)
        have h3 := hf 1 (by omega)
        rw [hb] at h2
        rw [upTo_succ, upTo_zero] at h2 h3
        simp only [Nat.zero_add] at h2 h3
        have hm : (1 : Nat) ∈ lens := by
          rcases longest_mem lens with h | h
          · omega
          · rwa [hb] at h
        have := List.count_pos_iff.2 hm
        omega

theorem usable_of_ok (lens : List Nat) (h : (Huff.ofLengths lens).ok true = true) : Usable lens := by
  obtain ⟨-, h | h | ⟨-, h1, h2⟩⟩ := ok_inv lens true h
  · exact .inl h
  · exact .inr (.inl fun l hl => by have := le_longest lens l hl; omega)
  · exact .inr (.inr ⟨fun l hl => by have := le_longest lens l hl; omega, h2⟩)

/-! ## Literals and matches -/

theorem length_inv (s base e x : Nat) (hs : 256 < s) (h : lengthCodes[s - 257]? = some (base, e)) (hx : x < 2 ^ e) :
    LengthCode (base + x) s e x := by
  have hlt : s - 257 < 29 := (List.getElem?_eq_some_iff.1 h).1
  by_cases h1 : s - 257 < 8
  · rw [short_table _ h1] at h
    simp only [Option.some.injEq, Prod.mk.injEq] at h
    obtain ⟨rfl, rfl⟩ := h
    rw [show x = 0 by omega]
    have := LengthCode.short (s - 257) h1
    rwa [show 257 + (s - 257) = s by omega] at this
  · by_cases h2 : s - 257 < 28
    · have e1 : s - 257 = 4 + 4 * ((s - 257) / 4 - 1) + (s - 257) % 4 := by omega
      have ht := length_table ((s - 257) / 4 - 1) (by omega) ((s - 257) % 4) (by omega) (by omega)
      rw [← e1, h] at ht
      simp only [Option.some.injEq, Prod.mk.injEq] at ht
      obtain ⟨rfl, rfl⟩ := ht
      have := LengthCode.group ((s - 257) / 4 - 1) ((s - 257) % 4) x (by omega) (by omega) (by omega) hx
      rwa [show 261 + 4 * ((s - 257) / 4 - 1) + (s - 257) % 4 = s by omega] at this
    · rw [show s - 257 = 28 by omega] at h
      have : (258, 0) = (base, e) := by simpa [lengthCodes] using h
      simp only [Prod.mk.injEq] at this
      obtain ⟨rfl, rfl⟩ := this
      rw [show x = 0 by omega, show s = 285 by omega]
      exact .longest

theorem dist_inv (s base e x : Nat) (h : distCodes[s]? = some (base, e)) (hx : x < 2 ^ e) : DistCode (base + x) s e x := by
  have hlt : s < 30 := (List.getElem?_eq_some_iff.1 h).1
  by_cases h1 : s < 2
  · rw [near_table _ h1] at h
    simp only [Option.some.injEq, Prod.mk.injEq] at h
    obtain ⟨rfl, rfl⟩ := h
    rw [show x = 0 by omega]
    exact .near s h1
  · have e1 : s = 2 + 2 * ((s - 2) / 2) + s % 2 := by omega
    have ht := dist_table ((s - 2) / 2) (by omega) (s % 2) (by omega)
    rw [← e1, h] at ht
    simp only [Option.some.injEq, Prod.mk.injEq] at ht
    obtain ⟨rfl, rfl⟩ := ht
    have := DistCode.group ((s - 2) / 2) (s % 2) x (by omega) (by omega) hx
    rwa [← e1] at this

theorem distCode_pos {d s e x : Nat} (h : DistCode d s e x) : 1 ≤ d := by
  cases h <;> omega

theorem copyBack_exists (d : Nat) : ∀ (len : Nat) (out : Bytes), 1 ≤ d → d ≤ out.length →
    ∃ x, x.length = len ∧ ∀ i, out.length ≤ i → i < (out ++ x).length → (out ++ x)[i]? = (out ++ x)[i - d]? := by
  intro len
  induction len with
  | zero => intro out h1 h2; exact ⟨[], rfl, fun i h3 h4 => by simp at h4; omega⟩
  | succ len ih =>
    intro out h1 h2
    obtain ⟨x, h3, h4⟩ := ih (out ++ [out[out.length - d]'(by omega)]) h1 (by simp; omega)
    refine ⟨out[out.length - d]'(by omega) :: x, by rw [List.length_cons, h3], fun i h5 h6 => ?_⟩
    by_cases hi : i = out.length
    · rw [hi, List.getElem?_append_right (Nat.le_refl _), Nat.sub_self, List.getElem?_cons_zero, List.getElem?_append_left (by omega),
        List.getElem?_eq_getElem]
    · have := h4 i (by simp; omega)
      rw [List.append_assoc, List.singleton_append] at this
      exact this h6

/-- A literal, a match, or the end of the block. -/
theorem inv_token (lit dist : List Nat) (final : Bool) (hl : Fits lit) (hd : Fits dist) (hl0 : longest lit ≠ 0) (out : Bytes) (i : Nat) (bits : List Bool)
    (h : (runM ⟨out.reverse, startSym (.lit ⟨final, Huff.ofLengths lit, Huff.ofLengths dist⟩)⟩ i bits).mode = .done) :
    (∃ rest, Coded lit 256 ∧ bits = codeBits lit 256 ++ rest) ∨
    ∃ t a rest mid, bits = a ++ rest ∧ a ≠ [] ∧ TokenBits lit dist t a ∧ ∀ ts out', Expands mid ts out' → Expands out (t :: ts) out' := by
  obtain ⟨s, rest, h1, h2, h3⟩ := inv_code _ (.lit _) lit rfl hl hl0 i bits h
  rw [h3] at h
  have hne : ∀ lens s, Coded lens s → codeBits lens s ≠ [] := by
    intro lens s hc he
    have := congrArg List.length he
    rw [codeBits_length] at this
    exact hc this
  simp only [decoded] at h
  by_cases hs : s < 256
  · have hb : (UInt8.ofNat s).toNat = s := by simp; omega
    have ht := TokenBits.lit (dist := dist) (UInt8.ofNat s) (by rw [hb]; exact h1)
    rw [hb] at ht
    exact .inr ⟨_, _, rest, out ++ [UInt8.ofNat s], h2, hne _ _ h1, ht, fun ts out' hx => .lit _ _ _ _ hx⟩
  · by_cases hs2 : s = 256
    · subst hs2; exact .inl ⟨rest, h1, h2⟩
    · right
      rw [if_neg hs, if_neg hs2] at h
      cases ht : lengthCodes[s - 257]? with
      | none => rw [ht] at h; exact absurd h (runM_bad _ _ _ rfl)
      | some p =>
        obtain ⟨base, e⟩ := p
        rw [ht] at h
        -- after the extra bits of the length
        have hlen : ∃ x rest', x < 2 ^ e ∧ rest = lsb e x ++ rest' ∧ ∃ j,
            (runM ⟨out.reverse, startSym (.dist ⟨final, Huff.ofLengths lit, Huff.ofLengths dist⟩ (base + x))⟩ j rest').mode = .done := by
          cases e with
          | zero => exact ⟨0, rest, by simp, rfl, _, h⟩
          | succ e =>
            obtain ⟨x, rest', a1, a2, a3⟩ := inv_number _ _ (e + 1) _ (by omega) _ h
            rw [a3] at h
            exact ⟨x, rest', a1, a2, _, h⟩
        obtain ⟨x, rest', hx, hr, j, h⟩ := hlen
        have hLC := length_inv s base e x (by omega) ht hx
        by_cases hd0 : longest dist = 0
        · cases rest' with
          | nil => simp [runM, startSym] at h
          | cons b rest' =>
            rw [runM, noCodes _ _ dist rfl hd0] at h
            exact absurd h (runM_bad _ _ _ rfl)
        · obtain ⟨s', rest2, k1, k2, k3⟩ := inv_code _ (.dist _ _) dist rfl hd hd0 j rest' h
          rw [k3] at h
          simp only [decoded] at h
          cases ht' : distCodes[s']? with
          | none => rw [ht'] at h; exact absurd h (runM_bad _ _ _ rfl)
          | some p =>
            obtain ⟨base', e'⟩ := p
            rw [ht'] at h
            have hdist : ∃ x' rest3, x' < 2 ^ e' ∧ rest2 = lsb e' x' ++ rest3 ∧ ∃ j,
                (runM (doMatch out.reverse ⟨final, Huff.ofLengths lit, Huff.ofLengths dist⟩ (base + x) (base' + x')) j rest3).mode = .done := by
              cases e' with
              | zero => exact ⟨0, rest2, by simp, rfl, _, h⟩
              | succ e' =>
                obtain ⟨x', rest3, a1, a2, a3⟩ := inv_number _ _ (e' + 1) _ (by omega) _ h
                rw [a3] at h
                exact ⟨x', rest3, a1, a2, _, h⟩
            obtain ⟨x', rest3, hx', hr', j', h⟩ := hdist
            have hDC := dist_inv s' base' e' x' ht' hx'
            unfold doMatch at h
            by_cases hfar : base' + x' > out.reverse.length
            · rw [if_pos hfar] at h
              exact absurd h (runM_bad _ _ _ rfl)
            · rw [List.length_reverse] at hfar
              obtain ⟨y, y1, y2⟩ := copyBack_exists (base' + x') (base + x) out (distCode_pos hDC) (by omega)
              have htb := TokenBits.copy (lit := lit) (dist := dist) _ _ _ _ _ _ _ _ hLC hDC h1 k1
              refine ⟨_, _, rest3, out ++ y, ?_, ?_, htb, fun ts out' hx => ?_⟩
              · rw [h2, hr, k2, hr']; simp only [List.append_assoc]
              · intro he
                have := List.append_eq_nil_iff.1 he
                exact hne _ _ h1 (List.append_eq_nil_iff.1 this.1).1
              · rw [← y1]
                exact .copy out y _ ts out' (distCode_pos hDC) (by omega) y2 hx

theorem inv_tokens (lit dist : List Nat) (final : Bool) (hl : Fits lit) (hd : Fits dist) (hl0 : longest lit ≠ 0) : ∀ (n : Nat) (bits : List Bool),
    bits.length ≤ n → ∀ (out : Bytes) (i : Nat),
    (runM ⟨out.reverse, startSym (.lit ⟨final, Huff.ofLengths lit, Huff.ofLengths dist⟩)⟩ i bits).mode = .done →
    ∃ ts b rest out', Coded lit 256 ∧ bits = b ++ (codeBits lit 256 ++ rest) ∧ TokensBits lit dist ts b ∧ Expands out ts out' := by
  intro n
  induction n with
  | zero =>
    intro bits hn out i h
    have hb : bits = [] := List.eq_nil_of_length_eq_zero (by omega)
    subst hb
    simp [runM, startSym] at h
  | succ n ih =>
    intro bits hn out i h
    rcases inv_token lit dist final hl hd hl0 out i bits h with ⟨rest, h1, h2⟩ | ⟨t, a, rest, mid, h1, h2, h3, h4⟩
    · exact ⟨[], [], rest, out, h1, h2, .nil, .nil _⟩
    · obtain ⟨mid', k1, k2⟩ := run_token hl hd final h3 (h4 [] mid (.nil mid)) i
      cases k1
      rw [h1, runM_append, k2] at h
      have hlen : rest.length ≤ n := by
        have := List.length_pos_iff.2 h2
        rw [h1, List.length_append] at hn
        omega
      obtain ⟨ts, b, rest', out', j1, j2, j3, j4⟩ := ih rest hlen mid _ h
      exact ⟨t :: ts, a ++ b, rest', out', j1, by rw [h1, j2, List.append_assoc], .cons _ _ _ _ h3 j3, h4 _ _ j4⟩

/-! ## The beginning of a block with codes of its own -/

theorem inv_doLens (rout : Bytes) (d : Dyn) (prev : List Nat) (n val i : Nat) (bits : List Bool)
    (h : (runM ⟨rout, doLens { d with rlens := prev.reverse } n val⟩ i bits).mode = .done) :
    prev.length + n = d.nlen + d.ndist ∨ (prev.length + n < d.nlen + d.ndist ∧
      doLens { d with rlens := prev.reverse } n val = startSym (.codeLen { d with rlens := (prev ++ List.replicate n val).reverse })) := by
  unfold doLens at h ⊢
  simp only [List.length_reverse] at h ⊢
  by_cases h1 : prev.length + n > d.nlen + d.ndist
  · rw [if_pos h1] at h
    exact absurd h (runM_bad _ _ _ rfl)
  · by_cases h2 : prev.length + n = d.nlen + d.ndist
    · exact .inl h2
    · right
      refine ⟨by omega, ?_⟩
      rw [if_neg h1, if_neg h2]
      simp

theorem inv_lens (rout : Bytes) (d : Dyn) (cl : List Nat) (hd : d.lens = Huff.ofLengths cl) (hf : Fits cl) (hl0 : longest cl ≠ 0)
    (h19 : cl.length = 19) : ∀ (n : Nat) (bits : List Bool), bits.length ≤ n → ∀ (prev : List Nat) (i : Nat), prev.length < d.nlen + d.ndist →
    (runM ⟨rout, startSym (.codeLen { d with rlens := prev.reverse })⟩ i bits).mode = .done →
    ∃ rest b tail, prev.length + rest.length = d.nlen + d.ndist ∧ LensBits cl prev rest b ∧ bits = b ++ tail := by
  intro n
  induction n with
  | zero =>
    intro bits hn prev i _ h
    have hb : bits = [] := List.eq_nil_of_length_eq_zero (by omega)
    subst hb
    simp [runM, startSym] at h
  | succ n ih =>
    intro bits hn prev i hp h
    obtain ⟨s, bits1, h1, h2, h3⟩ := inv_code _ (.codeLen { d with rlens := prev.reverse }) cl hd hf hl0 i bits h
    rw [h3] at h
    have hs : s < 19 := by
      by_cases hs : s < 19
      · exact hs
      · exact absurd (by rw [List.getD, List.getElem?_eq_none (by omega)]; rfl) h1
    have hlen : bits1.length ≤ n := by
      have h4 : 0 < (codeBits cl s).length := by rw [codeBits_length]; exact Nat.pos_of_ne_zero h1
      rw [h2, List.length_append] at hn
      omega
    have cont : ∀ k val j (tail : List Bool), tail.length ≤ n →
        (runM ⟨rout, doLens { d with rlens := prev.reverse } k val⟩ j tail).mode = .done →
        ∃ rest b tail', prev.length + (k + rest.length) = d.nlen + d.ndist ∧ LensBits cl (prev ++ List.replicate k val) rest b ∧ tail = b ++ tail' := by
      intro k val j tail hk hdone
      rcases inv_doLens rout d prev k val j tail hdone with he | ⟨he, hm⟩
      · exact ⟨[], [], tail, by rw [List.length_nil]; omega, .nil _, rfl⟩
      · rw [hm] at hdone
        obtain ⟨rest, b, tail', a1, a2, a3⟩ := ih tail hk (prev ++ List.replicate k val) j (by simpa using he) hdone
        refine ⟨rest, b, tail', ?_, a2, a3⟩
        rw [List.length_append, List.length_replicate] at a1
        omega
    simp only [decoded] at h
    by_cases c1 : s < 16
    · rw [if_pos c1] at h
      obtain ⟨rest, b, tail, a1, a2, a3⟩ := cont 1 s _ _ hlen h
      exact ⟨s :: rest, _, tail, by rw [List.length_cons]; omega, .one prev s rest b (by omega) h1 a2, by rw [h2, a3, List.append_assoc]⟩
    · rw [if_neg c1] at h
      by_cases c2 : s = 16
      · subst c2
        rw [if_pos rfl] at h
        obtain ⟨v, bits2, k1, k2, k3⟩ := inv_number _ _ 2 _ (by omega) _ h
        rw [k3] at h
        simp only [collected] at h
        cases hp' : prev.reverse with
        | nil =>
          rw [hp'] at h
          exact absurd h (runM_bad _ _ _ rfl)
        | cons l t =>
          have h' : (runM ⟨rout, doLens { d with rlens := prev.reverse } (3 + v) l⟩
              (i + (codeBits cl 16).length + 2) bits2).mode = .done := by
            rw [hp'] at h ⊢
            exact h
          have hb2 : bits2.length ≤ n := by rw [k2, List.length_append] at hlen; omega
          obtain ⟨rest, b, tail, a1, a2, a3⟩ := cont (3 + v) l _ _ hb2 h'
          have hlast : prev.getLast? = some l := by rw [List.getLast?_eq_head?_reverse, hp']; rfl
          have := LensBits.again prev l (3 + v) rest b (by omega) (by omega) hlast h1 a2
          rw [show 3 + v - 3 = v by omega] at this
          exact ⟨_, _, tail, by rw [List.length_append, List.length_replicate]; omega, this, by rw [h2, k2, a3]; simp only [List.append_assoc]⟩
      · rw [if_neg c2] at h
        by_cases c3 : s = 17
        · subst c3
          rw [if_pos rfl] at h
          obtain ⟨v, bits2, k1, k2, k3⟩ := inv_number _ _ 3 _ (by omega) _ h
          rw [k3] at h
          simp only [collected] at h
          have hb2 : bits2.length ≤ n := by rw [k2, List.length_append] at hlen; omega
          obtain ⟨rest, b, tail, a1, a2, a3⟩ := cont (3 + v) 0 _ _ hb2 h
          have := LensBits.zeros prev (3 + v) rest b (by omega) (by omega) h1 a2
          rw [show 3 + v - 3 = v by omega] at this
          exact ⟨_, _, tail, by rw [List.length_append, List.length_replicate]; omega, this, by rw [h2, k2, a3]; simp only [List.append_assoc]⟩
        · rw [if_neg c3] at h
          have c4 : s = 18 := by omega
          subst c4
          obtain ⟨v, bits2, k1, k2, k3⟩ := inv_number _ _ 7 _ (by omega) _ h
          rw [k3] at h
          simp only [collected] at h
          have hb2 : bits2.length ≤ n := by rw [k2, List.length_append] at hlen; omega
          obtain ⟨rest, b, tail, a1, a2, a3⟩ := cont (11 + v) 0 _ _ hb2 h
          have := LensBits.manyZeros prev (11 + v) rest b (by omega) (by omega) h1 a2
          rw [show 11 + v - 11 = v by omega] at this
          exact ⟨_, _, tail, by rw [List.length_append, List.length_replicate]; omega, this, by rw [h2, k2, a3]; simp only [List.append_assoc]⟩

/-- Without codes for code lengths, all lengths are 0, and the end of the block has no code. -/
theorem no_lens (rout : Bytes) (d : Dyn) (cl : List Nat) (hd : d.lens = Huff.ofLengths cl) (hl0 : longest cl = 0) :
    ∀ (bits : List Bool) (k i : Nat), (runM ⟨rout, startSym (.codeLen { d with rlens := List.replicate k 0 })⟩ i bits).mode ≠ .done := by
  intro bits
  induction bits with
  | nil => intro k i; simp [runM, startSym]
  | cons b bits ih =>
    intro k i
    rw [runM, noCodes _ (.codeLen { d with rlens := List.replicate k 0 }) cl hd hl0]
    simp only [noCode, doLens, List.length_replicate]
    have hrep : List.replicate 1 0 ++ List.replicate k 0 = List.replicate (k + 1) 0 := by
      rw [List.replicate_append_replicate, Nat.add_comm]
    split
    · exact runM_bad _ _ _ rfl
    · split
      · unfold doTable
        rw [hrep, List.reverse_replicate]
        rw [if_pos (by rw [List.getD]; by_cases h : 256 < k + 1
                       · rw [List.getElem?_replicate_of_lt h]; rfl
                       · rw [List.getElem?_eq_none (by simp; omega)]; rfl)]
        exact runM_bad _ _ _ rfl
      · rw [hrep]
        exact ih _ _

theorem inv_lenLens (rout : Bytes) (final : Bool) (nlen ndist : Nat) : ∀ (os : List Nat) (known : List (Nat × Nat)) (i : Nat) (bits : List Bool),
    os ≠ [] → (runM ⟨rout, .collect (.lenLens final nlen ndist os known) 3 0 0⟩ i bits).mode = .done →
    ∃ (vals : List Nat) (rest : List Bool), vals.length = os.length ∧ (∀ v ∈ vals, v < 8) ∧ bits = vals.flatMap (lsb 3) ++ rest := by
  intro os
  induction os with
  | nil => intro _ _ _ h; exact absurd rfl h
  | cons s os ih =>
    intro known i bits _ h
    obtain ⟨v, rest, h1, h2, h3⟩ := inv_number _ _ 3 _ (by omega) _ h
    cases os with
    | nil => exact ⟨[v], rest, rfl, by simpa using h1, by simpa using h2⟩
    | cons s' os =>
      rw [h3] at h
      simp only [collected, List.headD_cons, List.tail_cons] at h
      obtain ⟨vals, rest', k1, k2, k3⟩ := ih _ _ rest (by simp) h
      refine ⟨v :: vals, rest', by rw [List.length_cons, k1]; rfl, ?_, ?_⟩
      · intro x hx
        rcases List.mem_cons.1 hx with rfl | hx
        · exact h1
        · exact k2 x hx
      · rw [h2, k3, List.flatMap_cons, List.append_assoc]

theorem order_idx : ∀ j, j < 19 → order.idxOf (order.getD j 0) = j ∧ order.getD j 0 < 19 := by decide

theorem order_length : order.length = 19 := by decide

/-- The lengths of the codes for code lengths, from the values in their order. -/
theorem cl_exists (vals : List Nat) (hk : vals.length ≤ 19) (h8 : ∀ v ∈ vals, v < 8) :
    ∃ cl : List Nat, cl.length = 19 ∧ (∀ l ∈ cl, l ≤ 7) ∧ (∀ s ∈ order.drop vals.length, cl.getD s 0 = 0) ∧
      (order.take vals.length).flatMap (fun s => lsb 3 (cl.getD s 0)) = vals.flatMap (lsb 3) := by
  have hget : ∀ s, s < 19 → ((List.range 19).map fun s => vals.getD (order.idxOf s) 0).getD s 0 = vals.getD (order.idxOf s) 0 := by
    intro s hs
    rw [List.getD, List.getElem?_map, List.getElem?_range hs]; rfl
  have hat : ∀ j, j < 19 → ((List.range 19).map fun s => vals.getD (order.idxOf s) 0).getD (order.getD j 0) 0 = vals.getD j 0 := by
    intro j hj
    obtain ⟨h1, h2⟩ := order_idx j hj
    rw [hget _ h2, h1]
  refine ⟨(List.range 19).map fun s => vals.getD (order.idxOf s) 0, by simp, ?_, ?_, ?_⟩
  · intro l hl
    obtain ⟨s, -, rfl⟩ := List.mem_map.1 hl
    rw [List.getD]
    cases h : vals[order.idxOf s]? with
    | none => simp
    | some v => have := h8 v (List.mem_of_getElem? h); simp only [Option.getD_some]; omega
  · intro s hs
    obtain ⟨j, hj⟩ := List.mem_iff_getElem?.1 hs
    rw [List.getElem?_drop] at hj
    have hlt : vals.length + j < 19 := by rw [← order_length]; exact (List.getElem?_eq_some_iff.1 hj).1
    have he : order.getD (vals.length + j) 0 = s := by rw [List.getD, hj]; rfl
    rw [← he, hat _ hlt, List.getD, List.getElem?_eq_none (by omega)]; rfl
  · have hm : (order.take vals.length).map (fun s => ((List.range 19).map fun s => vals.getD (order.idxOf s) 0).getD s 0) = vals := by
      refine List.ext_getElem? fun j => ?_
      rw [List.getElem?_map, List.getElem?_take]
      by_cases hj : j < vals.length
      · rw [if_pos hj, List.getElem?_eq_getElem (by rw [order_length]; omega), List.getElem?_eq_getElem hj]
        simp only [Option.map_some]
        have h1 := hat j (by omega)
        have h2 : order.getD j 0 = order[j]'(by rw [order_length]; omega) := by
          rw [List.getD, List.getElem?_eq_getElem (by rw [order_length]; omega)]; rfl
        rw [h2] at h1
        rw [h1, List.getD, List.getElem?_eq_getElem hj]; rfl
      · rw [if_neg hj, List.getElem?_eq_none (by omega)]; rfl
    conv => rhs; rw [← hm, List.flatMap_map]

theorem inv_header (rout : Bytes) (final : Bool) (i : Nat) (bits : List Bool)
    (h : (runM ⟨rout, .collect (.table final) 14 0 0⟩ i bits).mode = .done) :
    ∃ lit dist hb rest, 257 ≤ lit.length ∧ lit.length ≤ 286 ∧ 1 ≤ dist.length ∧ dist.length ≤ 30 ∧ Coded lit 256 ∧ Usable lit ∧ Usable dist ∧
      Header lit dist hb ∧ bits = hb ++ rest := by
  obtain ⟨v, bits1, h1, h2, h3⟩ := inv_number _ _ 14 _ (by omega) _ h
  rw [h3] at h
  simp only [collected] at h
  by_cases hv : v % 32 + 257 > 286 ∨ v / 32 % 32 + 1 > 30
  · rw [if_pos hv] at h
    exact absurd h (runM_bad _ _ _ rfl)
  · rw [if_neg hv, order_eq] at h
    have hk : (order.take (v / 1024 + 4)).length = v / 1024 + 4 := by
      rw [List.length_take, order_length]; omega
    have hne : order.take (v / 1024 + 4) ≠ [] := by
      intro h0; rw [h0, List.length_nil] at hk; omega
    obtain ⟨vals, bits2, k1, k2, k3⟩ := inv_lenLens _ _ _ _ _ _ _ _ hne h
    rw [hk] at k1
    obtain ⟨cl, c1, c2, c3, c4⟩ := cl_exists vals (by omega) k2
    rw [k1] at c3 c4
    rw [k3, ← c4, runM_append, run_lenLens _ _ _ _ cl c2 _ _ _ hne, clTable_eq cl c1 _ c3] at h
    by_cases hok : (Huff.ofLengths cl).ok false = true
    · rw [if_pos hok] at h
      obtain ⟨hf, hc⟩ := ok_inv cl false hok
      have hzero : longest cl ≠ 0 := by
        intro h0
        exact no_lens rout ⟨final, v % 32 + 257, v / 32 % 32 + 1, Huff.ofLengths cl, []⟩ cl rfl h0 _ 0 _ h
      have hcomplete : Complete cl := by
        rcases hc with h | h | ⟨h, -⟩
        · exact h
        · exact absurd h hzero
        · simp at h
      have h' := h
      obtain ⟨all, b, tail, a1, a2, a3⟩ := inv_lens rout ⟨final, v % 32 + 257, v / 32 % 32 + 1, Huff.ofLengths cl, []⟩ cl rfl hf hzero c1 _ bits2
        (Nat.le_refl _) [] _ (by simp only [List.length_nil]; omega) h'
      simp only [List.length_nil, Nat.zero_add] at a1
      have hall : all ≠ [] := by intro h0; rw [h0, List.length_nil] at a1; omega
      have hrun := run_lens rout ⟨final, v % 32 + 257, v / 32 % 32 + 1, Huff.ofLengths cl, []⟩ cl rfl hf all a1.symm a2
      rw [a3, runM_append] at h
      rw [show ([] : List Nat) = [].reverse from rfl, hrun _ rfl hall] at h
      unfold doTable at h
      simp only [List.reverse_reverse] at h
      by_cases h256 : all.getD 256 0 = 0
      · rw [if_pos h256] at h
        exact absurd h (runM_bad _ _ _ rfl)
      · rw [if_neg h256] at h
        by_cases hoks : (Huff.ofLengths (all.take (v % 32 + 257))).ok true = true ∧ (Huff.ofLengths (all.drop (v % 32 + 257))).ok true = true
        · have e1 : (all.take (v % 32 + 257)).length = v % 32 + 257 := by rw [List.length_take]; omega
          have e2 : (all.drop (v % 32 + 257)).length = v / 32 % 32 + 1 := by rw [List.length_drop]; omega
          have hH := Header.mk (lit := all.take (v % 32 + 257)) (dist := all.drop (v % 32 + 257)) cl (v / 1024 + 4) b c1 c2 (by omega) (by omega) c3 hcomplete
            (by rw [List.take_append_drop]; exact a2)
          refine ⟨all.take (v % 32 + 257), all.drop (v % 32 + 257), _, tail, by omega, by omega, by omega, by omega, ?_, usable_of_ok _ hoks.1,
            usable_of_ok _ hoks.2, hH, ?_⟩
          · unfold Coded
            rw [List.getD, List.getElem?_take_of_lt (by omega), ← List.getD]
            exact h256
          · rw [h2, k3, a3, e1, e2, ← c4]
            have e3 : lsb 5 (v % 32 + 257 - 257) ++ lsb 5 (v / 32 % 32 + 1 - 1) ++ lsb 4 (v / 1024 + 4 - 4) = lsb 14 v := by
              rw [lsb_append _ _ _ _ (by omega), lsb_append _ _ _ _ (by omega),
                show v % 32 + 257 - 257 + 2 ^ 5 * (v / 32 % 32 + 1 - 1) + 2 ^ (5 + 5) * (v / 1024 + 4 - 4) = v by omega]
            rw [e3]
            simp only [List.append_assoc]
        · rw [if_neg hoks] at h
          exact absurd h (runM_bad _ _ _ rfl)
    · rw [if_neg hok] at h
      exact absurd h (runM_bad _ _ _ rfl)

/-! ## Blocks -/

theorem inv_stored (final : Bool) : ∀ (left : Nat) (rout : Bytes) (i : Nat) (bits : List Bool), 0 < left →
    (runM ⟨rout, .collect (.storedByte final left) 8 0 0⟩ i bits).mode = .done → ∃ data rest, data.length = left ∧ bits = bitsOf data ++ rest := by
  intro left
  induction left with
  | zero => intro _ _ _ h; omega
  | succ left ih =>
    intro rout i bits _ h
    obtain ⟨v, rest, h1, h2, h3⟩ := inv_number _ _ 8 _ (by omega) _ h
    have hb : (UInt8.ofNat v).toNat = v := by simp; omega
    cases left with
    | zero => exact ⟨[UInt8.ofNat v], rest, rfl, by rw [bitsOf_cons, hb]; simpa [bitsOf] using h2⟩
    | succ left =>
      rw [h3] at h
      simp only [collected] at h
      rw [if_neg (by omega)] at h
      obtain ⟨data, rest', k1, k2⟩ := ih _ _ rest (by omega) h
      exact ⟨UInt8.ofNat v :: data, rest', by rw [List.length_cons, k1], by rw [bitsOf_cons, hb, h2, k2, List.append_assoc]⟩

theorem longest_of_coded (lens : List Nat) (s : Nat) (h : Coded lens s) : longest lens ≠ 0 := by
  obtain ⟨r, hr⟩ := coded_getElem lens s h
  have := le_longest lens _ (List.mem_of_getElem? hr)
  omega

theorem inv_block (out : Bytes) (pos : Nat) (bits : List Bool) (h : (runM ⟨out.reverse, .collect .type 3 0 0⟩ pos bits).mode = .done) :
    ∃ final b out' rest, Block pos final out b out' ∧ bits = b ++ rest := by
  obtain ⟨v, bits1, h1, h2, h3⟩ := inv_number _ _ 3 _ (by omega) _ h
  rw [h3] at h
  simp only [collected] at h
  have hbits : ∀ v, v < 8 → lsb 3 v = [v % 2 == 1, v / 2 % 2 == 1, v / 4 == 1] := by decide
  have hb := hbits v h1
  by_cases c0 : v / 2 = 0
  · rw [if_pos c0] at h
    obtain ⟨pad, bits2, p1, p2, p3, p4⟩ := inv_align _ _ _ _ (by omega) _ _ h
    rw [p4] at h
    obtain ⟨w, bits3, w1, w2, w3⟩ := inv_number _ _ 32 _ (by omega) _ h
    rw [w3] at h
    simp only [collected] at h
    by_cases hw : w % 65536 + w / 65536 ≠ 65535
    · rw [if_pos hw] at h
      exact absurd h (runM_bad _ _ _ rfl)
    · rw [if_neg hw] at h
      have hdata : ∃ data rest, data.length = w % 65536 ∧ bits3 = bitsOf data ++ rest := by
        by_cases hz : w % 65536 = 0
        · exact ⟨[], bits3, hz.symm, rfl⟩
        · rw [if_neg hz] at h
          exact inv_stored _ _ _ _ _ (by omega) h
      obtain ⟨data, rest, d1, d2⟩ := hdata
      have hB := Block.stored pos (v % 2 == 1) out data pad (by omega) (by omega) p3
      refine ⟨_, _, _, rest, hB, ?_⟩
      have e1 : lsb 16 data.length ++ lsb 16 (65535 - data.length) = lsb 32 w := by
        rw [lsb_append _ _ _ _ (by omega), d1, show w % 65536 + 2 ^ 16 * (65535 - w % 65536) = w by omega]
      rw [h2, hb, p1, w2, d2, ← e1, show v / 2 % 2 = 0 by omega, show v / 4 = 0 by omega]
      simp
  · rw [if_neg c0] at h
    by_cases c1 : v / 2 = 1
    · rw [if_pos c1, fixedLit_eq, fixedDist_eq] at h
      have hl := (ok_of_complete _ fixedLit_complete true).2
      have hd := (ok_of_complete _ fixedDist_complete true).2
      obtain ⟨ts, b, rest, out', t1, t2, t3, t4⟩ := inv_tokens fixedLitLens fixedDistLens _ hl hd (longest_of_coded _ _ fixedLit_end) _ bits1 (Nat.le_refl _) out _ h
      refine ⟨_, _, _, rest, Block.fixed pos (v % 2 == 1) out ts b out' t3 t4, ?_⟩
      rw [h2, hb, t2, show v / 2 % 2 = 1 by omega, show v / 4 = 0 by omega]
      simp
    · rw [if_neg c1] at h
      by_cases c2 : v / 2 = 2
      · rw [if_pos c2] at h
        obtain ⟨lit, dist, hh, bits2, a1, a2, a3, a4, a5, a6, a7, a8, a9⟩ := inv_header _ _ _ _ h
        have hl := (ok_of_usable _ a6).2
        have hd := (ok_of_usable _ a7).2
        rw [a9, runM_append, run_header _ _ a8 a1 a2 a3 a4 a5 a6 a7] at h
        obtain ⟨ts, b, rest, out', t1, t2, t3, t4⟩ := inv_tokens lit dist _ hl hd (longest_of_coded _ _ a5) _ bits2 (Nat.le_refl _) out _ h
        refine ⟨_, _, _, rest, Block.dynamic pos (v % 2 == 1) out lit dist hh ts b out' a1 a2 a3 a4 a5 a6 a7 a8 t3 t4, ?_⟩
        rw [h2, hb, a9, t2, show v / 2 % 2 = 0 by omega, show v / 4 = 1 by omega]
        simp
      · rw [if_neg c2] at h
        exact absurd h (runM_bad _ _ _ rfl)

theorem inv_blocks : ∀ (n : Nat) (bits : List Bool), bits.length ≤ n → ∀ (out : Bytes) (pos : Nat),
    (runM ⟨out.reverse, .collect .type 3 0 0⟩ pos bits).mode = .done → ∃ b out' rest, Blocks pos out b out' ∧ bits = b ++ rest := by
  intro n
  induction n with
  | zero =>
    intro bits hn out pos h
    have hb : bits = [] := List.eq_nil_of_length_eq_zero (by omega)
    subst hb
    simp [runM] at h
  | succ n ih =>
    intro bits hn out pos h
    obtain ⟨final, b, out', rest, h1, h2⟩ := inv_block out pos bits h
    cases final with
    | true => exact ⟨b, out', rest, .last _ _ _ _ h1, h2⟩
    | false =>
      rw [h2, runM_append, run_block h1] at h
      simp only [endBlock, Bool.false_eq_true, if_false] at h
      have := block_length h1
      rw [h2, List.length_append] at hn
      obtain ⟨b', out'', rest', k1, k2⟩ := ih rest (by omega) out' _ h
      exact ⟨b ++ b', out'', rest', .more _ _ _ _ _ _ h1 k1, by rw [h2, k2, List.append_assoc]⟩

/-! ## The frame -/

theorem bitsOf_take (x : Bytes) (j : Nat) (hj : j ≤ x.length) : bitsOf (x.take j) = (bitsOf x).take (8 * j) ∧ bitsOf (x.drop j) = (bitsOf x).drop (8 * j) := by
  have h : bitsOf x = bitsOf (x.take j) ++ bitsOf (x.drop j) := by rw [← bitsOf_append, List.take_append_drop]
  have hl : (bitsOf (x.take j)).length = 8 * j := by rw [bitsOf_length, List.length_take]; omega
  constructor
  · rw [h, ← hl, List.take_left]
  · rw [h, ← hl, List.drop_left]

theorem halves (a b c d : Nat) (h : a * 65536 + b = c * 65536 + d) (hb : b < 65536) (hd : d < 65536) : a = c ∧ b = d := by
  omega

/-- Everything the decompressor accepts is a stream, and anything after it. -/
theorem stream_of_done (m : Bytes) (h : (feed {} m).mode = .done) :
    ∃ z tail, m = z ++ tail ∧ ZlibStream z (feed {} m).rout.reverse := by
  rw [feed_runM m _ 0 rfl] at h
  by_cases hm : m.length < 2
  · exact absurd h (collect_short _ _ _ _ _ _ _ (by rw [bitsOf_length]; omega))
  · obtain ⟨cmf, flg, m2, rfl⟩ : ∃ cmf flg m2, m = cmf :: flg :: m2 := by
      match m, hm with
      | [], hm => simp at hm
      | [x], hm => simp at hm
      | x :: y :: t, _ => exact ⟨x, y, t, rfl⟩
    have hc := cmf.toNat_lt
    have hg := flg.toNat_lt
    have hhead : runM {} 0 (bitsOf (cmf :: flg :: m2)) =
        runM (collected [] 7 (cmf.toNat + 2 ^ 8 * flg.toNat) .head) 16 (bitsOf m2) := by
      rw [bitsOf_cons, bitsOf_cons, ← List.append_assoc, lsb_append _ _ _ _ (by omega), runM_append, run_number _ _ _ _ _ (by omega) (by omega), lsb_length]
    rw [hhead] at h
    have hv1 : (cmf.toNat + 2 ^ 8 * flg.toNat) % 256 = cmf.toNat := by omega
    have hv2 : (cmf.toNat + 2 ^ 8 * flg.toNat) / 256 = flg.toNat := by omega
    have hv3 : (cmf.toNat + 2 ^ 8 * flg.toNat) % 16 = cmf.toNat % 16 := by omega
    have hv4 : (cmf.toNat + 2 ^ 8 * flg.toNat) / 8192 % 2 = flg.toNat / 32 % 2 := by
      rw [show 8192 = 256 * 32 from rfl, ← Nat.div_div_eq_div_mul, hv2]
    have hcol : collected [] 7 (cmf.toNat + 2 ^ 8 * flg.toNat) .head =
        if (cmf.toNat * 256 + flg.toNat) % 31 ≠ 0 ∨ cmf.toNat % 16 ≠ 8 ∨ cmf.toNat / 16 > 7 then ⟨[], .bad⟩
        else if flg.toNat / 32 % 2 = 1 then ⟨[], .collect .dictId 32 0 0⟩ else ⟨[], .collect .type 3 0 0⟩ := by
      simp only [collected, hv1, hv2, hv3, hv4]
    by_cases hbad : (cmf.toNat * 256 + flg.toNat) % 31 ≠ 0 ∨ cmf.toNat % 16 ≠ 8 ∨ cmf.toNat / 16 > 7
    · rw [hcol, if_pos hbad] at h
      exact absurd h (runM_bad _ _ _ rfl)
    · by_cases hdict : flg.toNat / 32 % 2 = 1
      · rw [hcol, if_neg hbad, if_pos hdict] at h
        obtain ⟨_, _, _, _, e⟩ := inv_number _ _ 32 _ (by omega) _ h
        rw [e] at h
        exact absurd h (runM_bad _ _ _ rfl)
      · rw [if_neg hbad, if_neg hdict] at hcol
        rw [hcol, runM_mod _ _ 16 0 rfl] at h hhead
        obtain ⟨b, content, rest, k1, k2⟩ := inv_blocks _ (bitsOf m2) (Nat.le_refl _) [] 0 h
        obtain ⟨r1, r2⟩ := run_blocks k1
        rw [List.reverse_nil] at r2
        rw [k2, runM_append, r2] at h hhead
        obtain ⟨pad, rest2, p1, p2, p3, p4⟩ := inv_align _ _ _ _ (by omega) _ _ h
        rw [p4] at h hhead
        obtain ⟨v, rest3, v1, v2, v3⟩ := inv_number _ _ 32 _ (by omega) _ h
        rw [v3] at h hhead
        simp only [collected, List.reverse_reverse] at h hhead
        by_cases hsum : swap32 v = adler32 content
        · rw [if_pos hsum] at h hhead
          rw [runM_done rest3 _ _ rfl] at hhead
          have hlen : 8 * m2.length = b.length + (pad.length + (32 + rest3.length)) := by
            rw [← bitsOf_length, k2, p1, v2]; simp only [List.length_append, lsb_length]
          obtain ⟨j, hj⟩ : ∃ j, 8 * j = b.length + pad.length := ⟨(b.length + pad.length) / 8, by omega⟩
          obtain ⟨t1, t2⟩ := bitsOf_take m2 j (by omega)
          have hb : bitsOf m2 = (b ++ pad) ++ (lsb 32 v ++ rest3) := by rw [k2, p1, v2, List.append_assoc]
          rw [hb, hj, ← List.length_append, List.take_left] at t1
          rw [hb, hj, ← List.length_append, List.drop_left] at t2
          have hdl : 4 ≤ (m2.drop j).length := by rw [List.length_drop]; omega
          obtain ⟨c0, c1, c2, c3, tail, hd⟩ : ∃ c0 c1 c2 c3 tail, m2.drop j = c0 :: c1 :: c2 :: c3 :: tail := by
            match m2.drop j, hdl with
            | c0 :: c1 :: c2 :: c3 :: t, _ => exact ⟨c0, c1, c2, c3, t, rfl⟩
          have g0 := c0.toNat_lt
          have g1 := c1.toNat_lt
          have g2 := c2.toNat_lt
          have g3 := c3.toNat_lt
          have hv : c0.toNat + 256 * c1.toNat + 65536 * c2.toNat + 16777216 * c3.toNat = v := by
            rw [hd, bitsOf_cons, bitsOf_cons, bitsOf_cons, bitsOf_cons, ← List.append_assoc, ← List.append_assoc, ← List.append_assoc,
              lsb_append _ _ _ _ (by omega), lsb_append _ _ _ _ (by omega), lsb_append _ _ _ _ (by omega)] at t2
            have := (List.append_inj t2 (by simp only [lsb_length])).1
            have hinj : ∀ w a c, a < 2 ^ w → c < 2 ^ w → lsb w a = lsb w c → a = c := by
              intro w
              induction w with
              | zero => intro a c ha hc _; omega
              | succ w ih =>
                intro a c ha hc he
                rw [lsb, lsb, List.cons.injEq] at he
                have h1 := ih (a / 2) (c / 2) (by rw [Nat.pow_succ] at ha; omega) (by rw [Nat.pow_succ] at hc; omega) he.2
                have h2 : (a % 2 == 1) = (c % 2 == 1) := he.1
                rw [Bool.eq_iff_iff, beq_iff_eq, beq_iff_eq] at h2
                omega
            have := hinj 32 _ _ (by omega) v1 this
            omega
          rw [← hv, swap_bytes _ _ _ _ g0 g1 g2 g3] at hsum
          have had := adler_sums content.reverse
          rw [List.reverse_reverse] at had
          rw [had] at hsum
          have s1 : sum1 content < 65521 := Nat.mod_lt _ (by decide)
          have s2 : sum2 content < 65521 := Nat.mod_lt _ (by decide)
          obtain ⟨q1, q2⟩ := halves _ _ _ _ hsum (by omega) (Nat.lt_trans s1 (by decide))
          have hZ := ZlibStream.mk cmf flg (m2.take j) b pad content c0 c1 c2 c3 (by omega) (by omega) (by omega) (by omega) k1 t1 p3 q1 q2
          refine ⟨[cmf, flg] ++ m2.take j ++ [c0, c1, c2, c3], tail, ?_, ?_⟩
          rotate_left
          · rw [feed_runM _ _ 0 rfl, hhead, List.reverse_reverse]
            exact hZ
          · have : m2 = m2.take j ++ c0 :: c1 :: c2 :: c3 :: tail := by rw [← hd, List.take_append_drop]
            conv => lhs; rw [this]
            simp
        · rw [if_neg hsum] at h
          exact absurd h (runM_bad _ _ _ rfl)

end GitDB.Deflate
