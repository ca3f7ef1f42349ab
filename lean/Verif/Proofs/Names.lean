import Verif.Model.Names
import Verif.Model.Header
import Verif.Spec.Names
import Verif.Proofs.Bits
/-!
# Lemmas about names and headers
-/
set_option autoImplicit false

namespace GitDB
open Spec

theorem nibbles_cons (b : UInt8) (bs : Bytes) :
    nibbles (b :: bs) = b.toNat / 16 :: b.toNat % 16 :: nibbles bs := by simp [nibbles]

theorem binToHex_length (b : Bytes) : (binToHex b).length = 2 * b.length := by
  induction b with
  | nil => rfl
  | cons x xs ih => simp [binToHex, ih]; omega

theorem hexDigit_spec : ∀ n < 16, hexAscii[n]? = some (hexDigit n) ∧ hexVal (hexDigit n) = some n := by
  decide

theorem hexVal_lower : ∀ c ∈ hexAscii, ∃ n < 16, hexVal c = some n ∧ hexDigit n = c := by
  decide

theorem byte_split (b : UInt8) : UInt8.ofNat (16 * (b.toNat / 16) + b.toNat % 16) = b := by
  have : 16 * (b.toNat / 16) + b.toNat % 16 = b.toNat := by omega
  rw [this]; simp

theorem binToHex_isHexOf (b : Bytes) : IsHexOf (binToHex b) b := by
  induction b with
  | nil => rfl
  | cons x xs ih =>
    have h1 := hexDigit_spec (x.toNat / 16) (by have := toNat_lt x; omega)
    have h2 := hexDigit_spec (x.toNat % 16) (by omega)
    simp only [IsHexOf, binToHex, nibbles_cons, List.map_cons, h1.1, h2.1] at ih ⊢
    rw [ih]

theorem hexToBin_binToHex (b : Bytes) : hexToBin (binToHex b) = .ok b := by
  induction b with
  | nil => rfl
  | cons x xs ih =>
    have h1 := hexDigit_spec (x.toNat / 16) (by have := toNat_lt x; omega)
    have h2 := hexDigit_spec (x.toNat % 16) (by omega)
    simp only [binToHex, hexToBin, h1.2, h2.2, ih, byte_split]

theorem hexToBin_lower : ∀ (k : Nat) (h : Bytes), h.length = 2 * k → LowerHex h →
    ∃ b, hexToBin h = .ok b ∧ b.length = k ∧ binToHex b = h := by
  intro k
  induction k with
  | zero => intro h hl _; simp at hl; subst hl; exact ⟨[], rfl, rfl, rfl⟩
  | succ k ih =>
    intro h hl hh
    match h, hl, hh with
    | a :: c :: t, hl, hh =>
      obtain ⟨b, h1, h2, h3⟩ := ih t (by simp at hl; omega) (fun x hx => hh x (by simp [hx]))
      obtain ⟨n, hn, e1, e2⟩ := hexVal_lower a (hh a (by simp))
      obtain ⟨m, hm, f1, f2⟩ := hexVal_lower c (hh c (by simp))
      refine ⟨UInt8.ofNat (16 * n + m) :: b, by simp only [hexToBin, e1, f1, h1], by simp [h2], ?_⟩
      have : (UInt8.ofNat (16 * n + m)).toNat = 16 * n + m := by
        rw [toNat_ofNat]; omega
      rw [binToHex, this, h3]
      have a1 : (16 * n + m) / 16 = n := by omega
      have a2 : (16 * n + m) % 16 = m := by omega
      rw [a1, a2, e2, f2]

theorem isHexOf_unique {h h' b : Bytes} (x : IsHexOf h b) (y : IsHexOf h' b) : h = h' := by
  have : h.map some = h'.map some := x.trans y.symm
  exact (List.map_inj_right (fun _ _ e => by simpa using e)).mp this

/-! ### abbreviations -/

theorem and_f0 (n : Nat) (h : n < 256) : (n &&& 0xf0 = 0) ↔ n / 16 = 0 := by
  have key : ∀ n < 256, (n &&& 0xf0 = 0) ↔ n / 16 = 0 := by decide +kernel
  exact key n h

theorem xor_f0 (a b : Nat) (ha : a < 256) (hb : b < 256) :
    ((a ^^^ b) &&& 0xf0 = 0) ↔ a / 16 = b / 16 := by
  have hx : a ^^^ b < 256 := Nat.xor_lt_two_pow (n := 8) ha hb
  rw [and_f0 _ hx]
  have : (a ^^^ b) / 16 = (a / 16) ^^^ (b / 16) := by
    have := Nat.shiftRight_xor_distrib (a := a) (b := b) (i := 4)
    simpa [Nat.shiftRight_eq_div_pow] using this
  rw [this]
  constructor
  · intro h
    apply Nat.eq_of_testBit_eq
    intro i
    have := congrArg (fun x => Nat.testBit x i) h
    simpa [Nat.testBit_xor] using this
  · intro h; rw [h, Nat.xor_self]

theorem nibbles_take_even (b : Bytes) (k : Nat) :
    (nibbles b).take (2 * k) = nibbles (b.take k) := by
  induction b generalizing k with
  | nil => simp [nibbles]
  | cons x xs ih =>
    cases k with
    | zero => simp [nibbles]
    | succ k =>
      rw [List.take_succ_cons, nibbles_cons, nibbles_cons, ← ih k]
      show List.take (2 * k + 2) _ = _
      simp

theorem nibbles_injective {a b : Bytes} (h : nibbles a = nibbles b) : a = b := by
  induction a generalizing b with
  | nil => cases b with
    | nil => rfl
    | cons => simp [nibbles_cons] at h; simp [nibbles] at h
  | cons x xs ih => cases b with
    | nil => simp [nibbles] at h
    | cons y ys =>
      rw [nibbles_cons, nibbles_cons] at h
      simp only [List.cons.injEq] at h
      rw [ih h.2.2]
      have : x.toNat = y.toNat := by omega
      rw [UInt8.toNat_inj.mp this]

theorem nibbles_length (b : Bytes) : (nibbles b).length = 2 * b.length := by
  induction b with
  | nil => rfl
  | cons x xs ih => rw [nibbles_cons]; simp [ih]; omega

theorem nibbles_get_even (b : Bytes) (k : Nat) (h : k < b.length) :
    (nibbles b)[2 * k]? = some (b[k].toNat / 16) := by
  induction b generalizing k with
  | nil => simp at h
  | cons x xs ih =>
    cases k with
    | zero => simp [nibbles_cons]
    | succ k =>
      rw [nibbles_cons]
      show (_ :: _ :: nibbles xs)[2 * k + 2]? = _
      simp [ih k (by simpa using h)]

theorem isEqualCanonicalSha_spec (n : Nat) (mtch sha : Bytes) (hm : mtch.length = (n + 1) / 2)
    (hs : (n + 1) / 2 ≤ sha.length) :
    isEqualCanonicalSha n mtch sha =
      .ok (decide ((nibbles mtch).take n = (nibbles sha).take n)) := by
  unfold isEqualCanonicalSha
  rcases Nat.mod_two_eq_zero_or_one n with h0 | h1
  · -- even
    obtain ⟨k, rfl⟩ : ∃ k, n = 2 * k := ⟨n / 2, by omega⟩
    have e1 : (2 * k + 1) / 2 = k := by omega
    have e2 : 2 * k / 2 = k := by omega
    rw [e1] at hm hs
    rw [e2, nibbles_take_even, nibbles_take_even]
    have hinj : nibbles (mtch.take k) = nibbles (sha.take k) ↔ mtch.take k = sha.take k :=
      ⟨nibbles_injective, fun h => by rw [h]⟩
    by_cases hc : mtch.take k = sha.take k
    · simp only [hc, ne_eq, not_true, if_false]
      by_cases hk : k = 0
      · subst hk; simp
        rfl
      · have : 2 * k - k ≠ 0 := by omega
        simp only [this, not_false_eq_true, if_true]
        have hmk : mtch ≠ [] := by intro h; simp [h] at hm; omega
        have hlast : mtch.getLast? = sha[k - 1]? := by
          have : mtch.getLast? = (mtch.take k)[k - 1]? := by
            rw [List.take_of_length_le (by omega), List.getLast?_eq_getElem?, hm]
          rw [this, hc, List.getElem?_take, if_pos (by omega)]
        have hk1 : k - 1 < sha.length := by omega
        simp [hlast, hk1, pyIndex, hm, bind, Except.bind, pure, Except.pure]
    · simp only [hc, ne_eq, not_false_eq_true, if_true]
      rw [decide_eq_false (fun h => hc (hinj.mp h))]
      rfl
  · obtain ⟨k, rfl⟩ : ∃ k, n = 2 * k + 1 := ⟨n / 2, by omega⟩
    have e1 : (2 * k + 1 + 1) / 2 = k + 1 := by omega
    have e2 : (2 * k + 1) / 2 = k := by omega
    rw [e1] at hm hs
    rw [e2]
    have hmk : k < mtch.length := by omega
    have hsk : k < sha.length := by omega
    have split : ∀ b : Bytes, (h : k < b.length) →
        (nibbles b).take (2 * k + 1) = nibbles (b.take k) ++ [b[k].toNat / 16] := by
      intro b h
      rw [List.take_add_one, nibbles_take_even, nibbles_get_even b k h]
      rfl
    rw [split mtch hmk, split sha hsk]
    have hiff : (nibbles (mtch.take k) ++ [mtch[k].toNat / 16] =
        nibbles (sha.take k) ++ [sha[k].toNat / 16]) ↔
        (mtch.take k = sha.take k ∧ mtch[k].toNat / 16 = sha[k].toNat / 16) := by
      constructor
      · intro h
        have := List.append_inj' h (by simp)
        exact ⟨nibbles_injective this.1, by simpa using this.2⟩
      · rintro ⟨h1, h2⟩; rw [h1, h2]
    have hlast : mtch.getLast? = some mtch[k] := by
      rw [List.getLast?_eq_getElem?, hm]; simp [hmk]
    by_cases hc : mtch.take k = sha.take k
    · have hne : 2 * k + 1 - k ≠ 0 := by omega
      simp only [hc, ne_eq, not_true, if_false, hne, not_false_eq_true, if_true, hlast, bind,
        Except.bind]
      have hp : pyIndex sha (mtch.length - 1) = .ok sha[k].toNat := by
        simp [pyIndex, hm, hsk]
      rw [hp]
      simp only
      have hx := xor_f0 mtch[k].toNat sha[k].toNat (toNat_lt _) (toNat_lt _)
      by_cases hd : mtch[k].toNat / 16 = sha[k].toNat / 16
      · rw [hx.mpr hd, hd]; simp [pure, Except.pure]
      · have : ¬ ((mtch[k].toNat ^^^ sha[k].toNat) &&& 0xf0 = 0) := fun h => hd (hx.mp h)
        simp [this, pure, Except.pure, hd]
    · simp only [hc, ne_eq, not_false_eq_true, if_true]
      rw [decide_eq_false (fun h => hc (hiff.mp h).1)]
      rfl

/-! ### decimal numbers -/

theorem decValue_snoc (ds : Bytes) (d : UInt8) :
    decValue (ds ++ [d]) = 10 * decValue ds + (d.toNat - 48) := by
  simp [decValue]

theorem natToDec_isDecimal (n : Nat) : IsDecimal (natToDec n) n := by
  induction n using Nat.strongRecOn with
  | ind n ih =>
    rw [natToDec_eq]
    split
    · rename_i h
      have : (UInt8.ofNat (48 + n)).toNat = 48 + n := by rw [toNat_ofNat]; omega
      refine ⟨by simp; omega, by simp [decValue]; omega, by simp, ?_⟩
      intro hh; simpa using hh
    · rename_i h
      have hd : (UInt8.ofNat (48 + n % 10)).toNat = 48 + n % 10 := by rw [toNat_ofNat]; omega
      obtain ⟨h1, h2, h3, h4⟩ := ih (n / 10) (by omega)
      refine ⟨?_, ?_, by simp, ?_⟩
      · intro d hd'
        rcases List.mem_append.mp hd' with hx | hx
        · exact h1 d hx
        · simp only [List.mem_singleton] at hx; subst hx; omega
      · rw [decValue_snoc, h2, hd]; omega
      · intro hh
        cases hx : natToDec (n / 10) with
        | nil => exact absurd hx h3
        | cons a as =>
          rw [hx] at hh h4 h2
          simp at hh
          have := h4 (by simp [hh])
          rw [this] at h2
          simp [decValue] at h2
          omega

theorem pyIntDigits_spec (ds : Bytes) : ∀ (prev : Bool) (acc : Nat),
    (∀ d ∈ ds, 48 ≤ d.toNat ∧ d.toNat ≤ 57) → (prev = true ∨ ds ≠ []) →
    pyIntDigits prev acc ds = some (ds.foldl (fun a d => 10 * a + (d.toNat - 48)) acc) := by
  induction ds with
  | nil => intro prev acc _ h; simp at h; simp [pyIntDigits, h]
  | cons d ds ih =>
    intro prev acc hd _
    rw [pyIntDigits, if_pos (hd d (by simp)), ih true _ (fun x hx => hd x (by simp [hx])) (.inl rfl)]
    simp [Nat.mul_comm]

theorem dropWhile_none {α : Type} (p : α → Bool) (l : List α) (h : ∀ x ∈ l, p x = false) :
    l.dropWhile p = l := by
  cases l with
  | nil => rfl
  | cons a as => simp [List.dropWhile, h a (by simp)]

theorem pyInt_decimal {ds : Bytes} {n : Nat} (h : IsDecimal ds n) : pyInt ds = .ok (n : Int) := by
  obtain ⟨h1, h2, h3, _⟩ := h
  have hs : ∀ x ∈ ds, isPySpace x = false := by
    intro x hx
    have := h1 x hx
    have : x ≠ 0x20 := by rintro rfl; simp at this
    simp [isPySpace, this]; omega
  unfold pyInt
  rw [dropWhile_none _ _ hs, dropWhile_none _ ds.reverse (by simpa using hs), List.reverse_reverse]
  cases ds with
  | nil => exact absurd rfl h3
  | cons c cs =>
    have hc := h1 c (by simp)
    have n1 : c ≠ 0x2d := by rintro rfl; simp at hc
    have n2 : c ≠ 0x2b := by rintro rfl; simp at hc
    show (match (if c = 0x2d then _ else if c = 0x2b then _ else _ : Option Int) with
      | some v => Except.ok v | none => _) = _
    rw [if_neg n1, if_neg n2]
    rw [pyIntDigits_spec _ _ _ h1 (.inr (by simp))]
    rw [← h2]; rfl

theorem pySplitSpace_nospace (s : Bytes) (h : ∀ c ∈ s, c ≠ 0x20) : pySplitSpace s = [s] := by
  induction s with
  | nil => rfl
  | cons c cs ih =>
    rw [pySplitSpace, if_neg (h c (by simp)), ih (fun x hx => h x (by simp [hx]))]

theorem pySplitSpace_two (a b : Bytes) (ha : ∀ c ∈ a, c ≠ 0x20) (hb : ∀ c ∈ b, c ≠ 0x20) :
    pySplitSpace (a ++ 0x20 :: b) = [a, b] := by
  induction a with
  | nil => simp [pySplitSpace, pySplitSpace_nospace b hb]
  | cons c cs ih =>
    rw [List.cons_append, pySplitSpace, if_neg (ha c (by simp)), ih (fun x hx => ha x (by simp [hx]))]

theorem findIdx?_nul (s rest : Bytes) (h : ∀ c ∈ s, c ≠ 0) :
    (s ++ 0 :: rest).findIdx? (· == 0) = some s.length := by
  induction s with
  | nil => simp [List.findIdx?_cons]
  | cons c cs ih =>
    rw [List.cons_append, List.findIdx?_cons]
    have : (c == 0) = false := by simpa using h c (by simp)
    rw [this, ih (fun x hx => h x (by simp [hx]))]
    simp

theorem parseObjectHeader_spec (ty ds rest : Bytes) (n : Nat) (hd : IsDecimal ds n)
    (ht : ∀ c ∈ ty, c ≠ 0x20 ∧ c ≠ 0) :
    parseObjectHeader (ty ++ [0x20] ++ ds ++ [0] ++ rest) =
      .ok (ty, (n : Int), (ty ++ [0x20] ++ ds ++ [0]).length) := by
  unfold parseObjectHeader
  have hds : ∀ c ∈ ds, c ≠ 0x20 ∧ c ≠ 0 := by
    intro c hc
    have := hd.1 c hc
    constructor <;> (rintro rfl; simp at this)
  have hs : ∀ c ∈ ty ++ [0x20] ++ ds, c ≠ 0 := by
    intro c hc
    simp only [List.append_assoc, List.mem_append, List.mem_singleton] at hc
    rcases hc with h | h | h
    · exact (ht c h).2
    · subst h; decide
    · exact (hds c h).2
  have e : ty ++ [0x20] ++ ds ++ [0] ++ rest = (ty ++ [0x20] ++ ds) ++ 0 :: rest := by simp
  rw [e, findIdx?_nul _ _ hs]
  simp only [List.take_left]
  have e2 : ty ++ [0x20] ++ ds = ty ++ 0x20 :: ds := by simp
  rw [e2, pySplitSpace_two ty ds (fun c h => (ht c h).1) (fun c h => (hds c h).1)]
  simp only [pyInt_decimal hd]
  simp; omega

end GitDB
