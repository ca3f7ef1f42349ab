import Verif.Model.Index
import Verif.Proofs.Struct
import Verif.Proofs.Names
/-!
# Lemmas about pack indices: reading
-/
set_option autoImplicit false

namespace GitDB
open Spec

/-! ## Order and fanout -/

theorem bytes_lt_trans {a b c : Bytes} : a < b → b < c → a < c := List.lt_trans
theorem bytes_lt_irrefl (a : Bytes) : ¬ a < a := List.lt_irrefl a
theorem bytes_lt_asymm {a b : Bytes} : a < b → ¬ b < a := List.lt_asymm
theorem bytes_trichotomy {a b : Bytes} (h1 : ¬ a < b) (h2 : ¬ b < a) : a = b :=
  List.le_antisymm (List.not_lt.1 h2) (List.not_lt.1 h1)
theorem bytes_le_trans {a b c : Bytes} (h1 : ¬ b < a) (h2 : ¬ c < b) : ¬ c < a := by
  intro h
  by_cases hab : a = b
  · exact h2 (hab ▸ h)
  · have : a < b := Classical.byContradiction fun h' => hab (bytes_trichotomy h' h1)
    exact h2 (bytes_lt_trans h this)

theorem uint8_le_of_not_lt {a b : UInt8} (h : ¬ b < a) : a.toNat ≤ b.toNat := by
  rw [UInt8.lt_iff_toNat_lt] at h; omega

/-- In an ascending list the elements with a downward closed property come first. -/
theorem lt_countP_iff {α : Type} (R : α → α → Prop) (P : α → Bool)
    (hP : ∀ a b, R a b → P b = true → P a = true) : ∀ (l : List α), l.Pairwise R →
    ∀ (i : Nat) (h : i < l.length), i < l.countP P ↔ P l[i] = true
  | [], _, i, h => absurd h (by simp)
  | a :: l, hl, i, h => by
    rw [List.pairwise_cons] at hl
    cases i with
    | zero =>
      by_cases ha : P a = true
      · simp [ha]
      · have : l.countP P = 0 := by
          rw [List.countP_eq_zero]
          intro b hb hpb
          exact ha (hP a b (hl.1 b hb) hpb)
        simp [ha, this]
    | succ i =>
      have hi : i < l.length := by simpa using h
      have ih := lt_countP_iff R P hP l hl.2 i hi
      by_cases ha : P a = true
      · simp only [List.countP_cons, ha, if_true, List.getElem_cons_succ]
        rw [← ih]; omega
      · have hz : l.countP P = 0 := by
          rw [List.countP_eq_zero]
          intro b hb hpb
          exact ha (hP a b (hl.1 b hb) hpb)
        have : ¬ P l[i] = true := fun hpb => ha (hP a _ (hl.1 _ (List.getElem_mem hi)) hpb)
        simp [ha, hz, this]

theorem firstLe_mono (k : Nat) (a b : Bytes) (h : ¬ b < a) (hb : firstLe k b = true) :
    firstLe k a = true := by
  cases a with
  | nil => rfl
  | cons x a =>
    cases b with
    | nil => exact absurd (List.nil_lt_cons _ _) h
    | cons y b =>
      simp only [firstLe, decide_eq_true_eq] at hb ⊢
      rw [List.cons_lt_cons_iff] at h
      have : ¬ y < x := fun h' => h (Or.inl h')
      have := uint8_le_of_not_lt this
      omega

/-- What an opened index knows about its names. -/
structure IndexOf (x : IndexFile) (names : List Bytes) : Prop where
  size : x.size = names.length
  sha : ∀ (i : Nat) (h : i < names.length), x.sha i = names[i]
  fanout : ∀ k, k < 256 → x.fanout.getD k 0 = names.countP (firstLe k)
  len : ∀ n ∈ names, n.length = 20
  sorted : Ascending names

theorem IndexOf.bounds {x : IndexFile} {names : List Bytes} (hx : IndexOf x names) (b : UInt8)
    (i : Nat) (h : i < names.length) :
    ((x.bounds b.toNat).1 ≤ i ∧ i < (x.bounds b.toNat).2) ↔ (names[i]).head? = some b := by
  have hb : b.toNat < 256 := b.toNat_lt
  have hne : names[i] ≠ [] := by
    intro h0
    have := hx.len _ (List.getElem_mem h)
    rw [h0] at this; simp at this
  have h2 : i < (x.bounds b.toNat).2 ↔ firstLe b.toNat names[i] = true := by
    unfold IndexFile.bounds
    simp only
    rw [hx.fanout _ hb]
    exact lt_countP_iff _ _ (fun a c hac hc => firstLe_mono _ a c hac hc) names hx.sorted i h
  have h1 : (x.bounds b.toNat).1 ≤ i ↔
      (b.toNat = 0 ∨ ¬ firstLe (b.toNat - 1) names[i] = true) := by
    unfold IndexFile.bounds
    simp only
    by_cases h0 : b.toNat = 0
    · simp [h0]
    · rw [if_pos h0, hx.fanout _ (by omega)]
      have := lt_countP_iff _ (firstLe (b.toNat - 1)) (fun a c hac hc => firstLe_mono _ a c hac hc) names hx.sorted i h
      rw [← this]; omega
  rw [h1, h2]
  obtain ⟨y, t, hy⟩ := List.exists_cons_of_ne_nil hne
  rw [hy]
  simp only [firstLe, decide_eq_true_eq, List.head?_cons, Option.some.injEq]
  constructor
  · rintro ⟨h3, h4⟩
    apply UInt8.toNat.inj
    omega
  · rintro rfl
    omega

theorem IndexOf.bounds_le {x : IndexFile} {names : List Bytes} (hx : IndexOf x names) (b : UInt8) :
    (x.bounds b.toNat).2 ≤ names.length ∧ (x.bounds b.toNat).1 ≤ (x.bounds b.toNat).2 := by
  have hb : b.toNat < 256 := b.toNat_lt
  unfold IndexFile.bounds
  simp only
  rw [hx.fanout _ hb]
  refine ⟨List.countP_le_length, ?_⟩
  split
  · rw [hx.fanout _ (by omega)]
    apply List.countP_mono_left
    intro n _ hn
    cases n with
    | nil => rfl
    | cons y t => simp only [firstLe, decide_eq_true_eq] at hn ⊢; omega
  · omega

/-! ## Bisection -/

theorem bisect_spec (sha : Bytes) (get : Nat → Bytes) : ∀ (k lo hi : Nat), hi - lo < k →
    (∀ i j, lo ≤ i → i ≤ j → j < hi → ¬ get j < get i) →
    match bisect sha get k lo hi with
    | some i => lo ≤ i ∧ i < hi ∧ get i = sha
    | none => ∀ i, lo ≤ i → i < hi → get i ≠ sha
  | 0, lo, hi, hk, _ => by omega
  | k + 1, lo, hi, hk, hs => by
    rw [bisect]
    by_cases hlt : lo < hi
    · rw [if_pos hlt]
      simp only
      have hm1 : lo ≤ (lo + hi) / 2 := by omega
      have hm2 : (lo + hi) / 2 < hi := by omega
      generalize (lo + hi) / 2 = mid at hm1 hm2 ⊢
      by_cases h1 : sha < get mid
      · rw [if_pos h1]
        have ih := bisect_spec sha get k lo mid (by omega)
          (fun i j a b c => hs i j a b (by omega))
        rcases hb : bisect sha get k lo mid with _ | i
        · rw [hb] at ih
          intro i hi1 hi2
          by_cases him : i < mid
          · exact ih i hi1 him
          · intro he
            exact hs mid i hm1 (by omega) hi2 (he ▸ h1)
        · rw [hb] at ih
          exact ⟨ih.1, by omega, ih.2.2⟩
      · rw [if_neg h1]
        by_cases h2 : sha = get mid
        · rw [if_pos h2]
          exact ⟨hm1, hm2, h2.symm⟩
        · rw [if_neg h2]
          have ih := bisect_spec sha get k (mid + 1) hi (by omega)
            (fun i j a b c => hs i j (by omega) b c)
          have hgt : get mid < sha :=
            Classical.byContradiction fun h' => h2 (bytes_trichotomy h1 h')
          rcases hb : bisect sha get k (mid + 1) hi with _ | i
          · rw [hb] at ih
            intro i hi1 hi2
            by_cases him : mid < i
            · exact ih i (by omega) hi2
            · intro he
              exact hs i mid hi1 (by omega) hm2 (he ▸ hgt)
          · rw [hb] at ih
            exact ⟨by omega, ih.2.1, ih.2.2⟩
    · rw [if_neg hlt]
      intro i h1 h2
      omega

theorem bisect_fuel (sha : Bytes) (get : Nat → Bytes) : ∀ (k lo hi k' : Nat), hi - lo < k → k ≤ k' →
    bisect sha get k' lo hi = bisect sha get k lo hi
  | 0, lo, hi, _, hk, _ => by omega
  | k + 1, lo, hi, 0, hk, h => by omega
  | k + 1, lo, hi, k' + 1, hk, h => by
    rw [bisect, bisect]
    by_cases hlt : lo < hi
    · rw [if_pos hlt, if_pos hlt]
      simp only
      rw [bisect_fuel sha get k lo ((lo + hi) / 2) k' (by omega) (by omega),
        bisect_fuel sha get k ((lo + hi) / 2 + 1) hi k' (by omega) (by omega)]
    · rw [if_neg hlt, if_neg hlt]

/-- The result of "find lowest" splits the range: before it everything is smaller, and it is either
a perfect match or everything from it on is greater. -/
theorem bisectLow_spec (sha : Bytes) (get : Nat → Bytes) : ∀ (k lo hi : Nat), hi - lo < k → lo ≤ hi →
    (∀ i j, lo ≤ i → i ≤ j → j < hi → ¬ get j < get i) →
    lo ≤ bisectLow sha get k lo hi ∧ bisectLow sha get k lo hi ≤ hi ∧
      ((bisectLow sha get k lo hi < hi ∧ get (bisectLow sha get k lo hi) = sha) ∨
       ((∀ i, lo ≤ i → i < bisectLow sha get k lo hi → get i < sha) ∧
        (∀ i, bisectLow sha get k lo hi ≤ i → i < hi → sha < get i)))
  | 0, lo, hi, hk, _, _ => by omega
  | k + 1, lo, hi, hk, hle, hs => by
    rw [bisectLow]
    by_cases hlt : lo < hi
    · rw [if_pos hlt]
      simp only
      have hm1 : lo ≤ (lo + hi) / 2 := by omega
      have hm2 : (lo + hi) / 2 < hi := by omega
      generalize (lo + hi) / 2 = mid at hm1 hm2 ⊢
      by_cases h1 : sha < get mid
      · rw [if_pos h1]
        obtain ⟨i1, i2, i3⟩ := bisectLow_spec sha get k lo mid (by omega) hm1
          (fun i j a b c => hs i j a b (by omega))
        generalize bisectLow sha get k lo mid = r at i1 i2 i3 ⊢
        refine ⟨i1, by omega, ?_⟩
        rcases i3 with ⟨j1, j2⟩ | ⟨j1, j2⟩
        · exact Or.inl ⟨by omega, j2⟩
        · refine Or.inr ⟨j1, fun i a b => ?_⟩
          by_cases him : i < mid
          · exact j2 i a him
          · by_cases he : get mid = get i
            · exact he ▸ h1
            · exact bytes_lt_trans h1 (Classical.byContradiction fun h' =>
                he (bytes_trichotomy h' (hs mid i hm1 (by omega) b)))
      · rw [if_neg h1]
        by_cases h2 : sha = get mid
        · rw [if_pos h2]
          exact ⟨hm1, by omega, Or.inl ⟨hm2, h2.symm⟩⟩
        · rw [if_neg h2]
          have hgt : get mid < sha :=
            Classical.byContradiction fun h' => h2 (bytes_trichotomy h1 h')
          obtain ⟨i1, i2, i3⟩ := bisectLow_spec sha get k (mid + 1) hi (by omega) (by omega)
            (fun i j a b c => hs i j (by omega) b c)
          generalize bisectLow sha get k (mid + 1) hi = r at i1 i2 i3 ⊢
          refine ⟨by omega, i2, ?_⟩
          rcases i3 with ⟨j1, j2⟩ | ⟨j1, j2⟩
          · exact Or.inl ⟨j1, j2⟩
          · refine Or.inr ⟨fun i a b => ?_, j2⟩
            by_cases him : mid < i
            · exact j1 i (by omega) b
            · by_cases he : get i = get mid
              · exact he ▸ hgt
              · exact bytes_lt_trans (Classical.byContradiction fun h' =>
                  he (bytes_trichotomy h' (hs i mid a (by omega) hm2))) hgt
    · rw [if_neg hlt]
      refine ⟨by omega, hle, Or.inr ⟨?_, ?_⟩⟩
      · intro i a b; omega
      · intro i a b; omega

theorem IndexOf.sorted_get {x : IndexFile} {names : List Bytes} (hx : IndexOf x names) :
    ∀ i j, i ≤ j → j < names.length → ¬ x.sha j < x.sha i := by
  intro i j hij hj
  rw [hx.sha j hj, hx.sha i (by omega)]
  rcases Nat.lt_or_eq_of_le hij with h | h
  · exact (List.pairwise_iff_getElem.1 hx.sorted) i j (by omega) hj h
  · subst h; exact bytes_lt_irrefl _

/-- C19 for any index whose tables describe the names. -/
theorem shaToIndex_spec {x : IndexFile} {names : List Bytes} (hx : IndexOf x names) (sha : Bytes)
    (hs : sha ≠ []) :
    (∃ i, x.shaToIndex sha = .ok (some i) ∧ names[i]? = some sha) ∨
    (x.shaToIndex sha = .ok none ∧ sha ∉ names) := by
  obtain ⟨b, t, rfl⟩ := List.exists_cons_of_ne_nil hs
  have hb := hx.bounds b
  obtain ⟨hle1, hle2⟩ := hx.bounds_le b
  unfold IndexFile.shaToIndex
  simp only [List.head?_cons]
  generalize hp : x.bounds b.toNat = p at hb hle1 hle2 ⊢
  obtain ⟨lo, hi⟩ := p
  simp only at hb hle1 hle2 ⊢
  have hsp := bisect_spec (b :: t) x.sha (hi - lo + 1) lo hi (by omega)
    (fun i j _ h2 h3 => hx.sorted_get i j h2 (by omega))
  rcases hbi : bisect (b :: t) x.sha (hi - lo + 1) lo hi with _ | i
  · rw [hbi] at hsp
    refine Or.inr ⟨rfl, ?_⟩
    intro hmem
    obtain ⟨i, hi', he⟩ := List.mem_iff_getElem.1 hmem
    have h1 := (hb i hi').2 (by rw [he]; rfl)
    exact hsp i h1.1 h1.2 (by rw [hx.sha i hi', he])
  · rw [hbi] at hsp
    obtain ⟨h1, h2, h3⟩ := hsp
    refine Or.inl ⟨i, rfl, ?_⟩
    rw [List.getElem?_eq_getElem (by omega), ← hx.sha i (by omega), h3]

/-! ## Abbreviations -/

theorem nibbles_append (a b : Bytes) : nibbles (a ++ b) = nibbles a ++ nibbles b :=
  List.flatMap_append

theorem nibbles_lt (a b : Bytes) : nibbles a < nibbles b ↔ a < b := by
  induction a generalizing b with
  | nil => cases b with
    | nil => simp [nibbles]
    | cons y b => rw [nibbles_cons]; simp [nibbles]
  | cons x a ih => cases b with
    | nil => rw [nibbles_cons]; simp [nibbles]
    | cons y b =>
      rw [nibbles_cons, nibbles_cons, List.cons_lt_cons_iff, List.cons_lt_cons_iff,
        List.cons_lt_cons_iff, ih, UInt8.lt_iff_toNat_lt]
      constructor
      · rintro (h | ⟨h1, h | ⟨h2, h3⟩⟩)
        · left; omega
        · left; omega
        · right; exact ⟨UInt8.toNat.inj (by omega), h3⟩
      · rintro (h | ⟨rfl, h⟩)
        · by_cases h' : x.toNat / 16 < y.toNat / 16
          · exact Or.inl h'
          · right; refine ⟨by omega, Or.inl (by omega)⟩
        · exact Or.inr ⟨rfl, Or.inr ⟨rfl, h⟩⟩

theorem take_lt_of {a b : List Nat} : ∀ (n : Nat), a.length = b.length →
    a.take n < b.take n → a < b := by
  induction a generalizing b with
  | nil => intro n hl h; cases b with
    | nil => simp at h
    | cons y b => simp at hl
  | cons x a ih =>
    intro n hl h
    cases b with
    | nil => simp at hl
    | cons y b =>
      cases n with
      | zero => simp at h
      | succ n =>
        rw [List.take_succ_cons, List.take_succ_cons, List.cons_lt_cons_iff] at h
        rw [List.cons_lt_cons_iff]
        rcases h with h | ⟨h1, h2⟩
        · exact Or.inl h
        · exact Or.inr ⟨h1, ih n (by simpa using hl) h2⟩

theorem nat_lists_trichotomy {a b : List Nat} (h1 : ¬ a < b) (h2 : ¬ b < a) : a = b :=
  List.le_antisymm (List.not_lt.1 h2) (List.not_lt.1 h1)

/-- Names between two names with a common abbreviation have that abbreviation. -/
theorem between_take {a m c : Bytes} (n : Nat) (h1 : a.length = m.length) (h2 : m.length = c.length)
    (ham : ¬ m < a) (hmc : ¬ c < m) (hac : (nibbles a).take n = (nibbles c).take n) :
    (nibbles m).take n = (nibbles a).take n := by
  have l1 : (nibbles a).length = (nibbles m).length := by rw [nibbles_length, nibbles_length, h1]
  have l2 : (nibbles m).length = (nibbles c).length := by rw [nibbles_length, nibbles_length, h2]
  refine nat_lists_trichotomy (fun h => ?_) (fun h => ?_)
  · exact ham ((nibbles_lt m a).1 (take_lt_of n l1.symm h))
  · rw [hac] at h
    exact hmc ((nibbles_lt c m).1 (take_lt_of n l2.symm h))

theorem nibbles_zero (k : Nat) : nibbles (List.replicate k 0) = List.replicate (2 * k) 0 := by
  induction k with
  | zero => rfl
  | succ k ih =>
    rw [List.replicate_succ, nibbles_cons, ih, show 2 * (k + 1) = 2 * k + 1 + 1 by omega,
      List.replicate_succ, List.replicate_succ]
    rfl

theorem lt_zeros (l : List Nat) (k : Nat) : ¬ l < List.replicate k 0 ∨ l.length < k := by
  induction k generalizing l with
  | zero => left; simp
  | succ k ih =>
    cases l with
    | nil => right; simp
    | cons x l =>
      rw [List.replicate_succ, List.cons_lt_cons_iff]
      rcases ih l with h | h
      · left; rintro (h1 | ⟨_, h1⟩)
        · omega
        · exact h h1
      · right; simpa using h

theorem append_lt_cancel (p : List Nat) {a b : List Nat} (h : p ++ a < p ++ b) : a < b := by
  induction p with
  | nil => simpa using h
  | cons d ds ih =>
    rw [List.cons_append, List.cons_append, List.cons_lt_cons_iff] at h
    rcases h with h | ⟨_, h⟩
    · omega
    · exact ih h

/-- A name with the digits of the abbreviation is not below the abbreviation filled with zeros. -/
theorem not_lt_filled {name filled : Bytes} {digits : List Nat} (hlen : name.length = filled.length)
    (hf : nibbles filled = digits ++ List.replicate (2 * filled.length - digits.length) 0)
    (hn : (nibbles name).take digits.length = digits) : ¬ name < filled := by
  intro h
  rw [← nibbles_lt, hf, ← List.take_append_drop digits.length (nibbles name), hn] at h
  have hl : ((nibbles name).drop digits.length).length = 2 * filled.length - digits.length := by
    rw [List.length_drop, nibbles_length, hlen]
  have : (nibbles name).drop digits.length <
      List.replicate (2 * filled.length - digits.length) 0 := by
    exact append_lt_cancel digits h
  rcases lt_zeros _ (2 * filled.length - digits.length) with h1 | h1
  · exact h1 this
  · omega

theorem _root_.GitDB.Spec.IsAbbrev.length {part : Bytes} {digits : List Nat} (h : IsAbbrev part digits) :
    part.length = (digits.length + 1) / 2 := by
  have := congrArg List.length h
  rw [nibbles_length, List.length_append, List.length_replicate] at this
  omega

theorem partial_result {x : IndexFile} {names : List Bytes} (hx : IndexOf x names) (part : Bytes)
    (digits : List Nat) (hp : IsAbbrev part digits) (h3 : 3 ≤ digits.length)
    (h40 : digits.length ≤ 40) :
    ∃ r, (r < names.length → ∀ j (hj : j < names.length), HasDigits digits names[j] →
        HasDigits digits (x.sha r)) ∧
      (r = names.length → ∀ name ∈ names, ¬ HasDigits digits name) ∧ r ≤ names.length ∧
      ((∀ j (_ : j < r) (h : j < names.length), ¬ HasDigits digits names[j]) ∨
        (∃ h : r < names.length, part ++ List.replicate (20 - part.length) 0 = names[r])) ∧
      x.partialShaToIndex part digits.length =
        (if h : r < names.length then
          if (nibbles names[r]).take digits.length = digits then
            if ∃ h' : r + 1 < names.length, names[r + 1] = names[r] then .error .ambiguousObjectName
            else .ok (some r)
          else .ok none
        else .ok none) := by
  have hplen := hp.length
  obtain ⟨b, t, rfl⟩ : ∃ b t, part = b :: t :=
    List.exists_cons_of_ne_nil (by rintro rfl; simp at hplen; omega)
  have hb := hx.bounds b
  obtain ⟨hle1, hle2⟩ := hx.bounds_le b
  generalize hfill : b :: t ++ List.replicate (20 - (b :: t).length) 0 = filled
  have hflen : filled.length = 20 := by
    rw [← hfill, List.length_append, List.length_replicate]; omega
  have hfn : nibbles filled =
      digits ++ List.replicate (2 * filled.length - digits.length) 0 := by
    rw [← hfill, nibbles_append, hp, nibbles_zero, List.append_assoc, List.replicate_append_replicate]
    rw [hfill, hflen]
    congr 2
    omega
  have hfd : HasDigits digits filled := by
    unfold HasDigits; rw [hfn, List.take_left]
  have hpart : (nibbles (b :: t)).take digits.length = digits := by
    rw [hp, List.take_left]
  have hhead : ∀ j (hj : j < names.length), HasDigits digits names[j] → names[j].head? = some b := by
    intro j hj hd
    obtain ⟨y, u, hy⟩ : ∃ y u, names[j] = y :: u := by
      apply List.exists_cons_of_ne_nil
      intro h0
      have := hx.len _ (List.getElem_mem hj)
      rw [h0] at this; simp at this
    unfold HasDigits at hd
    have hd2 := hd.trans hpart.symm
    rw [hy, nibbles_cons, nibbles_cons] at hd2
    obtain ⟨n, hn⟩ : ∃ n, digits.length = n + 2 := ⟨digits.length - 2, by omega⟩
    rw [hn] at hd2
    simp only [List.take_succ_cons, List.cons.injEq] at hd2
    rw [hy, List.head?_cons]
    congr 1
    apply UInt8.toNat.inj
    omega
  have hge : ∀ j (hj : j < names.length), HasDigits digits names[j] → ¬ names[j] < filled := by
    intro j hj hd
    exact not_lt_filled (by rw [hx.len _ (List.getElem_mem hj), hflen]) hfn hd
  unfold IndexFile.partialShaToIndex
  rw [if_neg (by omega)]
  simp only [List.head?_cons]
  generalize hpp : x.bounds b.toNat = p at hb hle1 hle2 ⊢
  obtain ⟨lo, hi⟩ := p
  simp only at hb hle1 hle2 ⊢
  rw [hfill]
  obtain ⟨r1, r2, r3⟩ := bisectLow_spec filled x.sha (hi - lo + 1) lo hi (by omega) hle2
    (fun i j _ h2 h3 => hx.sorted_get i j h2 (by omega))
  generalize bisectLow filled x.sha (hi - lo + 1) lo hi = r at r1 r2 r3 ⊢
  refine ⟨r, ?_, ?_, by omega, ?_, ?_⟩
  · intro hr j hj hd
    rcases r3 with ⟨_, k2⟩ | ⟨k1, k2⟩
    · rw [k2]; exact hfd
    · have hjb := (hb j hj).2 (hhead j hj hd)
      have hrj : r ≤ j := by
        apply Classical.byContradiction
        intro h
        have := k1 j hjb.1 (by omega)
        rw [hx.sha j hj] at this
        exact hge j hj hd this
      have hrf := k2 r (Nat.le_refl r) (by omega)
      have hs := hx.sorted_get r j hrj hj
      rw [hx.sha j hj] at hs
      have hl : (x.sha r).length = 20 := by rw [hx.sha r hr]; exact hx.len _ (List.getElem_mem hr)
      have := between_take digits.length (a := filled) (m := x.sha r) (c := names[j])
        (by omega) (by rw [hl, hx.len _ (List.getElem_mem hj)]) (bytes_lt_asymm hrf) hs
        (by rw [hd]; exact hfd)
      unfold HasDigits
      rw [this]; exact hfd
  · intro hr name hname hd
    obtain ⟨j, hj, he⟩ := List.mem_iff_getElem.1 hname
    rw [← he] at hd
    have hjb := (hb j hj).2 (hhead j hj hd)
    rcases r3 with ⟨k1, _⟩ | ⟨k1, _⟩
    · omega
    · have := k1 j hjb.1 (by omega)
      rw [hx.sha j hj] at this
      exact hge j hj hd this
  · rcases r3 with ⟨k1, k2⟩ | ⟨k1, _⟩
    · exact Or.inr ⟨by omega, by rw [← hx.sha r (by omega), k2]⟩
    · refine Or.inl fun j hjr hj hd => ?_
      have hjb := (hb j hj).2 (hhead j hj hd)
      have := k1 j hjb.1 hjr
      rw [hx.sha j hj] at this
      exact hge j hj hd this
  · rw [hx.size]
    by_cases hr : r < names.length
    · rw [if_pos hr, dif_pos hr, hx.sha r hr,
        isEqualCanonicalSha_spec _ _ _ hplen (by rw [hx.len _ (List.getElem_mem hr)]; omega), hpart]
      have hne : ∀ h' : r + 1 < names.length, names[r + 1] ≠ [] := by
        intro h' h0
        have := hx.len _ (List.getElem_mem h')
        rw [h0] at this; simp at this
      have hne0 : names[r] ≠ [] := by
        intro h0
        have := hx.len _ (List.getElem_mem hr)
        rw [h0] at this; simp at this
      by_cases hd : (nibbles names[r]).take digits.length = digits
      · rw [if_pos hd, decide_eq_true hd.symm]
        simp only
        by_cases h' : r + 1 < names.length
        · simp only [if_pos h', hx.sha _ h']
          by_cases he : names[r + 1] = names[r]
          · rw [if_pos ⟨hne h', he⟩, if_pos ⟨h', he⟩]
          · rw [if_neg (fun h => he h.2), if_neg (fun h => he h.2)]
        · rw [if_neg h', if_neg (by simp), if_neg (fun h => h' h.1)]
      · rw [if_neg hd, decide_eq_false (fun h => hd h.symm)]
    · rw [if_neg hr, dif_neg hr]

/-- With distinct names the result is the first match. -/
theorem partial_first {x : IndexFile} {names : List Bytes} (hx : IndexOf x names) (hd : names.Nodup)
    (part : Bytes) (digits : List Nat) (hp : IsAbbrev part digits) (h3 : 3 ≤ digits.length)
    (h40 : digits.length ≤ 40) :
    (∃ i, ∃ h : i < names.length, x.partialShaToIndex part digits.length = .ok (some i) ∧
        HasDigits digits names[i] ∧ ∀ (j : Nat) (hj : j < i), ¬ HasDigits digits (names[j]'(by omega))) ∨
    (x.partialShaToIndex part digits.length = .ok none ∧ ∀ name ∈ names, ¬ HasDigits digits name) := by
  obtain ⟨r, h1, h2, hr, h4, h5⟩ := partial_result hx part digits hp h3 h40
  have hplen := hp.length
  by_cases hlt : r < names.length
  · rw [dif_pos hlt] at h5
    by_cases hd2 : (nibbles names[r]).take digits.length = digits
    · left
      have hnd : ¬ ∃ h' : r + 1 < names.length, names[r + 1] = names[r] := by
        rintro ⟨h', he⟩
        have := (List.getElem_inj hd).1 he
        omega
      rw [if_pos hd2, if_neg hnd] at h5
      refine ⟨r, hlt, h5, hd2, fun j hj hdj => ?_⟩
      rcases h4 with h4 | ⟨h', hf⟩
      · exact h4 j hj (by omega) hdj
      · have hfn : nibbles (part ++ List.replicate (20 - part.length) 0) =
            digits ++ List.replicate (2 * (part ++ List.replicate (20 - part.length) 0).length - digits.length) 0 := by
          rw [nibbles_append, hp, nibbles_zero, List.append_assoc, List.replicate_append_replicate]
          congr 2
          simp only [List.length_append, List.length_replicate]
          omega
        have hl : (names[j]'(by omega)).length = (part ++ List.replicate (20 - part.length) 0).length := by
          rw [hf, hx.len _ (List.getElem_mem _), hx.len _ (List.getElem_mem _)]
        have hnl := not_lt_filled hl hfn hdj
        rw [hf] at hnl
        have hs := hx.sorted_get j r (by omega) hlt
        rw [hx.sha r hlt, hx.sha j (by omega)] at hs
        have := (List.getElem_inj hd).1 (bytes_trichotomy hnl hs)
        omega
    · right
      rw [if_neg hd2] at h5
      refine ⟨h5, fun name hm hdn => ?_⟩
      obtain ⟨j, hj, rfl⟩ := List.mem_iff_getElem.1 hm
      have := h1 hlt j hj hdn
      rw [hx.sha r hlt] at this
      exact hd2 this
  · rw [dif_neg hlt] at h5
    exact Or.inr ⟨h5, h2 (by omega)⟩

end GitDB
