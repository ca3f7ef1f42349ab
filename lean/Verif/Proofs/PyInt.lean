import Verif.Spec.PyInt
import Verif.Proofs.AnyBytes
/-!
# `int()` and headers, against their description
-/
set_option autoImplicit false

namespace GitDB
open Spec

theorem isPySpace_iff (c : UInt8) : isPySpace c = true ↔ c.toNat ∈ [0x20, 9, 10, 11, 12, 13] := by
  unfold isPySpace
  have h : (c = 0x20) ↔ c.toNat = 0x20 := ⟨fun h => by rw [h]; rfl, fun h => UInt8.toNat_inj.1 h⟩
  simp only [Bool.or_eq_true, decide_eq_true_eq, Bool.and_eq_true, h, List.mem_cons, List.not_mem_nil, or_false]
  omega

/-- The digit part, one group at a time. -/
theorem pyIntDigits_group (g : Bytes) (hg : ∀ c ∈ g, 48 ≤ c.toNat ∧ c.toNat ≤ 57) (rest : Bytes) : ∀ (prev : Bool) (acc : Nat),
    pyIntDigits prev acc (g ++ rest) =
      pyIntDigits (prev || !g.isEmpty) (g.foldl (fun a d => 10 * a + (d.toNat - 48)) acc) rest := by
  induction g with
  | nil => intro prev acc; simp
  | cons c g ih =>
    intro prev acc
    rw [List.cons_append, pyIntDigits, if_pos (hg c (by simp)), ih (fun x hx => hg x (by simp [hx]))]
    simp [Nat.mul_comm]

theorem pyIntDigits_groups (more : List Bytes) (hm : ∀ g ∈ more, Digits g) : ∀ (acc : Nat),
    pyIntDigits true acc (more.flatMap (0x5f :: ·)) = some (more.flatten.foldl (fun a d => 10 * a + (d.toNat - 48)) acc) := by
  induction more with
  | nil => intro acc; simp [pyIntDigits]
  | cons g more ih =>
    intro acc
    obtain ⟨h1, h2⟩ := hm g (by simp)
    rw [List.flatMap_cons, List.cons_append, pyIntDigits, if_neg (by decide), if_pos ⟨rfl, rfl⟩,
      pyIntDigits_group g h2, List.flatten_cons, List.foldl_append]
    have : (!g.isEmpty) = true := by cases g with
      | nil => exact absurd rfl h1
      | cons _ _ => rfl
    rw [this, Bool.or_true]
    exact ih (fun x hx => hm x (by simp [hx])) _

theorem pyIntDigits_only : ∀ (cs : Bytes) (prev : Bool) (acc v : Nat), pyIntDigits prev acc cs = some v →
    ∃ (g : Bytes) (more : List Bytes), cs = g ++ more.flatMap (0x5f :: ·) ∧ (∀ c ∈ g, 48 ≤ c.toNat ∧ c.toNat ≤ 57) ∧ (prev = true ∨ g ≠ []) ∧
      (∀ h ∈ more, Digits h) ∧ v = (g ++ more.flatten).foldl (fun a d => 10 * a + (d.toNat - 48)) acc
  | [], prev, acc, v, h => by
    simp only [pyIntDigits] at h
    split at h
    · rename_i hp
      exact ⟨[], [], rfl, by simp, .inl hp, by simp, by simpa using h.symm⟩
    · cases h
  | c :: cs, prev, acc, v, h => by
    rw [pyIntDigits] at h
    split at h
    · rename_i hc
      obtain ⟨g, more, e1, e2, -, e4, e5⟩ := pyIntDigits_only cs true _ v h
      refine ⟨c :: g, more, by rw [e1]; rfl, ?_, .inr (by simp), e4, ?_⟩
      · intro x hx
        rcases List.mem_cons.1 hx with rfl | hx
        · exact hc
        · exact e2 x hx
      · rw [e5]; simp [Nat.mul_comm]
    · split at h
      · rename_i hc
        obtain ⟨rfl, hp⟩ := hc
        obtain ⟨g, more, e1, e2, e3, e4, e5⟩ := pyIntDigits_only cs false _ v h
        have hg : g ≠ [] := by simpa using e3
        refine ⟨[], g :: more, by rw [e1]; simp, by simp, .inl hp, ?_, by simpa using e5⟩
        intro x hx
        rcases List.mem_cons.1 hx with rfl | hx
        · exact ⟨hg, e2⟩
        · exact e4 x hx
      · cases h

/-- Stripping white space. -/
theorem strip_of (pre core post : Bytes) (h1 : AllSpace pre) (h2 : AllSpace post) (hh : ∀ c ∈ core.head?, isPySpace c = false)
    (hl : ∀ c ∈ core.getLast?, isPySpace c = false) (hne : core ≠ []) :
    (((pre ++ (core ++ post)).dropWhile isPySpace).reverse.dropWhile isPySpace).reverse = core := by
  have go : ∀ (p q : Bytes), (∀ c ∈ p, isPySpace c = true) → (∀ c ∈ q.head?, isPySpace c = false) →
      (p ++ q).dropWhile isPySpace = q := by
    intro p q hp hq
    induction p with
    | nil =>
      cases q with
      | nil => rfl
      | cons c q => simp [hq c (by simp)]
    | cons c p ih =>
      rw [List.cons_append, List.dropWhile_cons, if_pos (hp c (by simp))]
      exact ih fun x hx => hp x (by simp [hx])
  have hs : ∀ {b : Bytes}, AllSpace b → ∀ c ∈ b, isPySpace c = true := fun h c hc => (isPySpace_iff c).2 (h c hc)
  rw [go pre _ (hs h1) (by
    intro c hc
    apply hh c
    cases core with
    | nil => exact absurd rfl hne
    | cons x xs => simpa using hc), List.reverse_append, go post.reverse _ (by
      intro c hc; exact hs h2 c (by simpa using hc)) (by simpa using hl), List.reverse_reverse]

theorem getLast?_append_right (a b : Bytes) (hb : b ≠ []) : (a ++ b).getLast? = b.getLast? := by
  rw [List.getLast?_append]
  cases h : b.getLast? with
  | none => exact absurd (List.getLast?_eq_none_iff.1 h) hb
  | some x => rfl

theorem strip_split (b : Bytes) : ∃ pre post, AllSpace pre ∧ AllSpace post ∧
    b = pre ++ (((b.dropWhile isPySpace).reverse.dropWhile isPySpace).reverse ++ post) := by
  have hs : ∀ x : Bytes, AllSpace (x.takeWhile isPySpace) := by
    intro x c hc
    apply (isPySpace_iff c).1
    induction x with
    | nil => simp at hc
    | cons y x ih =>
      rw [List.takeWhile_cons] at hc
      split at hc
      · rcases List.mem_cons.1 hc with rfl | hc
        · assumption
        · exact ih hc
      · simp at hc
  refine ⟨b.takeWhile isPySpace, ((b.dropWhile isPySpace).reverse.takeWhile isPySpace).reverse, hs b, ?_, ?_⟩
  · intro c hc
    exact hs _ c (List.mem_reverse.1 hc)
  · rw [← List.reverse_append, List.takeWhile_append_dropWhile, List.reverse_reverse, List.takeWhile_append_dropWhile]

/-- **`int()`**, exactly. -/
theorem pyInt_iff (b : Bytes) (n : Int) : pyInt b = .ok n ↔ IsPyInt b n := by
  constructor
  · intro h
    unfold pyInt at h
    simp only at h
    obtain ⟨pre, post, h1, h2, h3⟩ := strip_split b
    generalize hc : ((b.dropWhile isPySpace).reverse.dropWhile isPySpace).reverse = core at h h3
    have fin : ∀ (sign ds : Bytes) (v : Nat), core = sign ++ ds → pyIntDigits false 0 ds = some v →
        ((sign = [] ∨ sign = [0x2b]) ∧ n = v ∨ sign = [0x2d] ∧ n = -(v : Int)) → IsPyInt b n := by
      intro sign ds v hcore hd hn
      obtain ⟨g, more, e1, e2, e3, e4, e5⟩ := pyIntDigits_only ds false 0 v hd
      refine ⟨pre, sign, g, more, post, ?_, h1, h2, ⟨by simpa using e3, e2⟩, e4, ?_⟩
      · rw [h3, hcore, e1]
      · rw [show decValue (g ++ more.flatten) = v by rw [e5]; rfl]
        exact hn
    cases core with
    | nil => simp at h
    | cons c cs =>
      simp only at h
      by_cases hm : c = 0x2d
      · subst hm
        simp only [if_true] at h
        rcases hd : pyIntDigits false 0 cs with _ | v
        · simp [hd] at h
        · simp [hd] at h
          exact fin [0x2d] cs v rfl hd (.inr ⟨rfl, h.symm⟩)
      · rw [if_neg hm] at h
        by_cases hp : c = 0x2b
        · subst hp
          simp only [if_true] at h
          rcases hd : pyIntDigits false 0 cs with _ | v
          · simp [hd] at h
          · simp [hd] at h
            exact fin [0x2b] cs v rfl hd (.inl ⟨.inr rfl, h.symm⟩)
        · rw [if_neg hp] at h
          rcases hd : pyIntDigits false 0 (c :: cs) with _ | v
          · simp [hd] at h
          · simp [hd] at h
            exact fin [] (c :: cs) v rfl hd (.inl ⟨.inl rfl, h.symm⟩)
  · rintro ⟨pre, sign, first, more, post, rfl, h1, h2, ⟨hf1, hf2⟩, hm, hn⟩
    have hnsp : ∀ c : UInt8, 48 ≤ c.toNat ∧ c.toNat ≤ 57 → isPySpace c = false := by
      intro c hc
      rw [← Bool.not_eq_true, isPySpace_iff]
      simp only [List.mem_cons, List.not_mem_nil, or_false]
      omega
    have hds : pyIntDigits false 0 (first ++ more.flatMap (0x5f :: ·)) = some (decValue (first ++ more.flatten)) := by
      rw [pyIntDigits_group first hf2]
      have : (!first.isEmpty) = true := by cases first with
        | nil => exact absurd rfl hf1
        | cons _ _ => rfl
      rw [this, Bool.or_true, pyIntDigits_groups more hm]
      simp [decValue]
    have hlast : ∀ c ∈ (first ++ more.flatMap (0x5f :: ·)).getLast?, 48 ≤ c.toNat ∧ c.toNat ≤ 57 := by
      intro c hc
      rcases List.eq_nil_or_concat more with rfl | ⟨ms, g, rfl⟩
      · simp only [List.flatMap_nil, List.append_nil] at hc
        exact hf2 c (List.mem_of_getLast? hc)
      · obtain ⟨hg1, hg2⟩ := hm g (by simp)
        rw [List.concat_eq_append, List.flatMap_append, ← List.append_assoc] at hc
        simp only [List.flatMap_cons, List.flatMap_nil, List.append_nil] at hc
        rw [show (0x5f :: g : Bytes) = [0x5f] ++ g from rfl, ← List.append_assoc, getLast?_append_right _ _ hg1] at hc
        exact hg2 c (List.mem_of_getLast? hc)
    have hne : first ++ more.flatMap (0x5f :: ·) ≠ [] := List.append_ne_nil_of_left_ne_nil hf1 _
    obtain ⟨f, fs, hfs⟩ : ∃ f fs, first = f :: fs := by cases first with
      | nil => exact absurd rfl hf1
      | cons f fs => exact ⟨f, fs, rfl⟩
    have hff := hf2 f (by simp [hfs])
    generalize hD : first ++ more.flatMap (0x5f :: ·) = D at *
    have hD1 : D.head? = some f := by rw [← hD, hfs]; rfl
    have hstrip := strip_of pre (sign ++ D) post h1 h2 (by
        intro c hc
        rcases hn with ⟨rfl | rfl, -⟩ | ⟨rfl, -⟩
        · simp only [List.nil_append, hD1, Option.mem_def, Option.some.injEq] at hc
          subst hc; exact hnsp _ hff
        · simp at hc; subst hc; decide
        · simp at hc; subst hc; decide) (by
        intro c hc
        rw [getLast?_append_right _ _ hne] at hc
        exact hnsp c (hlast c hc)) (List.append_ne_nil_of_right_ne_nil _ hne)
    unfold pyInt
    simp only [hstrip]
    rcases hn with ⟨rfl | rfl, rfl⟩ | ⟨rfl, rfl⟩
    · obtain ⟨D', rfl⟩ : ∃ D', D = f :: D' := by cases D with
        | nil => exact absurd rfl hne
        | cons x xs => simp at hD1; subst hD1; exact ⟨xs, rfl⟩
      have n1 : f ≠ 0x2d := by rintro rfl; exact absurd hff (by decide)
      have n2 : f ≠ 0x2b := by rintro rfl; exact absurd hff (by decide)
      simp [n1, n2, hds]
    · simp [hds]
    · simp [hds]

theorem pySplitSpace_of (typ num : Bytes) (h1 : ∀ c ∈ typ, c ≠ 0x20) (h2 : ∀ c ∈ num, c ≠ 0x20) :
    pySplitSpace (typ ++ 0x20 :: num) = [typ, num] := pySplitSpace_two typ num h1 h2

/-- The header parser, exactly. -/
theorem parseObjectHeader_iff (hdr typ : Bytes) (size : Int) (k : Nat) :
    parseObjectHeader hdr = .ok (typ, size, k) ↔ HeaderRead hdr typ size k := by
  constructor
  · intro h
    rcases parseObjectHeader_any hdr with hp | ⟨typ', num, size', k', hp, hk, p1, p2, p3, p4⟩
    · rw [hp] at h; cases h
    · rw [hp] at h
      simp only [Except.ok.injEq, Prod.mk.injEq] at h
      obtain ⟨rfl, rfl, rfl⟩ := h
      refine ⟨num, (pyInt_iff _ _).1 p1, p2, p3, ?_⟩
      rcases p4 with ⟨a, b, c⟩ | h
      · exact .inl ⟨a, b, hk, c⟩
      · exact .inr h
  · rintro ⟨num, h1, h2, h3, h4⟩
    have hint := (pyInt_iff _ _).2 h1
    unfold parseObjectHeader
    rcases h4 with ⟨a, b, hk, hc⟩ | ⟨rfl, hz, hc⟩
    · have hlen : k = (typ ++ 0x20 :: num).length + 1 := by
        have := congrArg List.length hc
        rw [List.length_take, Nat.min_eq_left hk] at this
        simp at this ⊢; omega
      have hsplit : hdr = (typ ++ 0x20 :: num) ++ 0 :: hdr.drop k := by
        have := List.take_append_drop k hdr
        rw [hc] at this
        simpa using this.symm
      have hidx : hdr.findIdx? (· == 0) = some (typ ++ 0x20 :: num).length := by
        rw [hsplit]
        apply findIdx?_nul
        intro c hc' h0
        subst h0
        simp only [List.mem_append, List.mem_cons] at hc'
        rcases hc' with h | h | h
        · exact a h
        · revert h; decide
        · exact b h
      simp only [hidx]
      have htake : hdr.take (typ ++ 0x20 :: num).length = typ ++ 0x20 :: num := by
        conv => lhs; rw [hsplit]
        rw [List.take_left]
      rw [htake, pySplitSpace_of _ _ h2 h3]
      simp only [hint]
      rw [hlen]
    · have hidx : hdr.findIdx? (· == 0) = none := by
        rw [List.findIdx?_eq_none_iff]
        intro x hx
        simp only [beq_eq_false_iff_ne]
        rintro rfl
        exact hz hx
      simp only [hidx]
      rw [← List.dropLast_eq_take, hc, pySplitSpace_of _ _ h2 h3]
      simp only [hint]

end GitDB
