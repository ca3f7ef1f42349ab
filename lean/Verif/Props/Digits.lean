import Verif.Model.Digits
import Verif.Props.AnyBytes
/-!
# C107: sizes with very many digits

The interpreter refuses to convert numbers with more than 4300 digits.  Objects that can be written can be read.
-/
set_option autoImplicit false

namespace GitDB.Props
open GitDB Spec

/-! ## Specification -/

/-- The header at the beginning of the data `hdr`: type, text of the size, and its length (0 if there is no NUL). -/
def HeaderShape (hdr typ num : Bytes) (k : Nat) : Prop :=
  (∀ c ∈ typ, c ≠ 0x20) ∧ (∀ c ∈ num, c ≠ 0x20) ∧
    ((0 ∉ typ ∧ 0 ∉ num ∧ k ≤ hdr.length ∧ hdr.take k = typ ++ 0x20 :: num ++ [0]) ∨
      (k = 0 ∧ 0 ∉ hdr ∧ hdr.dropLast = typ ++ 0x20 :: num))

/-- The text has at most `limit` digits, or there is no limit. -/
def FewDigits (limit : Nat) (num : Bytes) : Prop :=
  limit = 0 ∨ (num.filter fun c => decide (48 ≤ c.toNat ∧ c.toNat ≤ 57)).length ≤ limit

/-! ## Proofs -/

/-- Type, text of the size, end of the header. -/
def headerParts (hdr : Bytes) : Option (Bytes × Bytes × Nat) :=
  let (text, stop) :=
    match hdr.findIdx? (· == 0) with
    | some i => (hdr.take i, i + 1)
    | none => (hdr.take (hdr.length - 1), 0)
  match pySplitSpace text with
  | [typ, size] => some (typ, size, stop)
  | _ => none

theorem parse_parts (hdr : Bytes) : parseObjectHeader hdr =
    match headerParts hdr with
    | some (typ, num, k) => match pyInt num with
      | .ok n => .ok (typ, n, k)
      | .error e => .error e
    | none => .error .valueError := by
  unfold parseObjectHeader headerParts
  cases hdr.findIdx? (· == 0) with
  | none =>
    dsimp only
    generalize pySplitSpace _ = l
    rcases l with _ | ⟨a, _ | ⟨b, _ | ⟨c, l⟩⟩⟩ <;> rfl
  | some i =>
    dsimp only
    generalize pySplitSpace _ = l
    rcases l with _ | ⟨a, _ | ⟨b, _ | ⟨c, l⟩⟩⟩ <;> rfl

theorem parseLim_parts (limit : Nat) (hdr : Bytes) : parseObjectHeaderLim limit hdr =
    match headerParts hdr with
    | some (typ, num, k) => match pyIntLim limit num with
      | .ok n => .ok (typ, n, k)
      | .error e => .error e
    | none => .error .valueError := by
  unfold parseObjectHeaderLim headerParts
  cases hdr.findIdx? (· == 0) with
  | none =>
    dsimp only
    generalize pySplitSpace _ = l
    rcases l with _ | ⟨a, _ | ⟨b, _ | ⟨c, l⟩⟩⟩ <;> rfl
  | some i =>
    dsimp only
    generalize pySplitSpace _ = l
    rcases l with _ | ⟨a, _ | ⟨b, _ | ⟨c, l⟩⟩⟩ <;> rfl

theorem headerParts_iff (hdr typ num : Bytes) (k : Nat) : headerParts hdr = some (typ, num, k) ↔ HeaderShape hdr typ num k := by
  unfold headerParts
  constructor
  · intro h
    cases hi : hdr.findIdx? (· == 0) with
    | none =>
      simp only [hi] at h
      split at h
      · rename_i typ' num' hs
        cases h
        obtain ⟨k1, k2, k3⟩ := pySplitSpace_pair _ _ _ hs
        refine ⟨k2, k3, .inr ⟨rfl, ?_, ?_⟩⟩
        · rw [List.findIdx?_eq_none_iff] at hi
          intro h
          simpa using hi 0 h
        · rw [List.dropLast_eq_take, k1]
      · cases h
    | some i =>
      simp only [hi] at h
      split at h
      · rename_i typ' num' hs
        cases h
        obtain ⟨k1, k2, k3⟩ := pySplitSpace_pair _ _ _ hs
        rw [List.findIdx?_eq_some_iff_getElem] at hi
        obtain ⟨h1, h2, h3⟩ := hi
        have hno : (0 : UInt8) ∉ hdr.take i := by
          intro hm
          obtain ⟨j, hj, hj2⟩ := List.getElem_of_mem hm
          rw [List.length_take] at hj
          rw [List.getElem_take] at hj2
          have := h3 j (by omega)
          simp [hj2] at this
        rw [k1] at hno
        refine ⟨k2, k3, .inl ⟨fun h => hno (by simp [h]), fun h => hno (by simp [h]), by omega, ?_⟩⟩
        rw [List.take_succ_eq_append_getElem h1, k1]
        simp only [beq_iff_eq] at h2
        rw [h2]
      · cases h
  · rintro ⟨h2, h3, ⟨a, b, hk, hc⟩ | ⟨rfl, hz, hc⟩⟩
    · have hlen : k = (typ ++ 0x20 :: num).length + 1 := by
        have := congrArg List.length hc
        rw [List.length_take, Nat.min_eq_left hk] at this
        simp at this ⊢; omega
      have hsplit : hdr = (typ ++ 0x20 :: num) ++ 0 :: hdr.drop k := by
        have := List.take_append_drop k hdr
        rw [hc] at this
        simpa using this.symm
      have hidx : hdr.findIdx? (· == 0) = some (typ ++ 0x20 :: num).length := by
        rw [hsplit]
        apply findIdx?_nul
        intro c hc' h0
        subst h0
        simp only [List.mem_append, List.mem_cons] at hc'
        rcases hc' with h | h | h
        · exact a h
        · revert h; decide
        · exact b h
      simp only [hidx]
      have htake : hdr.take (typ ++ 0x20 :: num).length = typ ++ 0x20 :: num := by
        conv => lhs; rw [hsplit]
        rw [List.take_left]
      rw [htake, pySplitSpace_of _ _ h2 h3, ← hlen]
    · have hidx : hdr.findIdx? (· == 0) = none := by
        rw [List.findIdx?_eq_none_iff]
        intro x hx
        simp only [beq_eq_false_iff_ne]
        rintro rfl
        exact hz hx
      simp only [hidx]
      rw [← List.dropLast_eq_take, hc, pySplitSpace_of _ _ h2 h3]

theorem tooManyDigits_iff (limit : Nat) (num : Bytes) : tooManyDigits limit (digitsIn num) = false ↔ FewDigits limit num := by
  unfold tooManyDigits digitsIn FewDigits
  rw [decide_eq_false_iff_not]
  omega

theorem pyIntLim_iff (limit : Nat) (num : Bytes) (n : Int) : pyIntLim limit num = .ok n ↔ IsPyInt num n ∧ FewDigits limit num := by
  rw [← pyInt_iff, ← tooManyDigits_iff]
  unfold pyIntLim
  rcases pyInt num with e | m
  · simp
  · cases tooManyDigits limit (digitsIn num) <;> simp

theorem pyIntLim_error (limit : Nat) (num : Bytes) (e : Err) (h : pyIntLim limit num = .error e) : e = .valueError := by
  unfold pyIntLim at h
  rcases hp : pyInt num with e' | m
  · rw [hp] at h
    cases h
    exact pyInt_error _ _ hp
  · rw [hp] at h
    cases ht : tooManyDigits limit (digitsIn num) <;> rw [ht] at h <;> cases h
    rfl

theorem parseLim_iff (limit : Nat) (hdr typ : Bytes) (size : Int) (k : Nat) : parseObjectHeaderLim limit hdr = .ok (typ, size, k) ↔
    ∃ num, HeaderShape hdr typ num k ∧ IsPyInt num size ∧ FewDigits limit num := by
  rw [parseLim_parts]
  constructor
  · intro h
    rcases hp : headerParts hdr with _ | ⟨typ', num, k'⟩
    · rw [hp] at h; cases h
    · rw [hp] at h
      dsimp only at h
      rcases hi : pyIntLim limit num with e | n
      · rw [hi] at h; cases h
      · rw [hi] at h
        cases h
        exact ⟨num, (headerParts_iff _ _ _ _).mp hp, (pyIntLim_iff _ _ _).mp hi⟩
  · rintro ⟨num, h1, h2⟩
    rw [(headerParts_iff _ _ _ _).mpr h1]
    dsimp only
    rw [(pyIntLim_iff _ _ _).mpr h2]

theorem parseLim_error (limit : Nat) (hdr : Bytes) (e : Err) (h : parseObjectHeaderLim limit hdr = .error e) : e = .valueError := by
  rw [parseLim_parts] at h
  rcases hp : headerParts hdr with _ | ⟨typ', num, k'⟩
  · rw [hp] at h; cases h; rfl
  · rw [hp] at h
    dsimp only at h
    rcases hi : pyIntLim limit num with e' | n
    · rw [hi] at h
      cases h
      exact pyIntLim_error _ _ _ hi
    · rw [hi] at h; cases h

theorem parseLim_or (limit : Nat) (hdr : Bytes) :
    parseObjectHeaderLim limit hdr = parseObjectHeader hdr ∨ parseObjectHeaderLim limit hdr = .error .valueError := by
  rcases hp : parseObjectHeaderLim limit hdr with e | ⟨typ, size, k⟩
  · rw [parseLim_error _ _ _ hp]; exact .inr rfl
  · left
    obtain ⟨num, h1, h2, -⟩ := (parseLim_iff _ _ _ _ _).mp hp
    rw [parse_parts, (headerParts_iff _ _ _ _).mpr h1]
    dsimp only
    rw [(pyInt_iff _ _).mpr h2]

theorem natToDec_length_le (k : Nat) : ∀ n : Nat, (natToDec n).length ≤ k + 1 ↔ n < 10 ^ (k + 1) := by
  induction k with
  | zero =>
    intro n
    rw [natToDec_eq]
    split
    · simp; omega
    · have := (natToDec_isDecimal (n / 10)).2.2.1
      have : 0 < (natToDec (n / 10)).length := List.length_pos_iff.mpr this
      rw [List.length_append, List.length_singleton]
      omega
  | succ k ih =>
    intro n
    rw [natToDec_eq]
    split
    · have : 10 ≤ 10 ^ (k + 1 + 1) := by
        have : 0 < 10 ^ (k + 1) := Nat.pow_pos (by omega)
        rw [Nat.pow_succ]; omega
      simp; omega
    · have := ih (n / 10)
      have e : 10 ^ (k + 1 + 1) = 10 * 10 ^ (k + 1) := by rw [Nat.pow_succ]; omega
      rw [List.length_append, List.length_singleton, e]
      generalize 10 ^ (k + 1) = P at this ⊢
      omega

theorem natToDec_digits (n : Nat) : digitsIn (natToDec n) = (natToDec n).length := by
  unfold digitsIn
  rw [List.filter_eq_self.mpr]
  intro c hc
  exact decide_eq_true ((natToDec_isDecimal n).1 c hc)

/-! ## The claim -/

/-- **C107** exactly which headers are accepted under a limit: those with a number (`IsPyInt`) of few digits; for all others
`ValueError`. -/
theorem C107_accepted (limit : Nat) (zl : Zlib) (m : Bytes) (hb : zl.bad m = false) :
    (∀ typ size, looseObjectHeaderInfoLim limit zl m = .ok (typ, size) ↔
      ∃ num k, HeaderShape ((zl.out m).take 8192) typ num k ∧ IsPyInt num size ∧ FewDigits limit num) ∧
    ∀ e, looseObjectHeaderInfoLim limit zl m = .error e → e = .valueError := by
  have hdec : ∃ z, ZDec.decompress zl {} m maxHeader = (z, .ok ((zl.out m).take 8192)) := by
    unfold ZDec.decompress
    rw [if_neg (by simp), if_neg (by simp), if_neg (by simp)]
    simp only [List.nil_append, hb, List.drop_zero, maxHeader]
    split
    · exact ⟨_, rfl⟩
    · rename_i h
      have hl : (zl.out m).take 8192 = zl.out m := by
        apply List.take_of_length_le
        simp at h
        omega
      rw [hl]
      simp only [Bool.false_eq_true, if_false]
      cases zl.stop m <;> exact ⟨_, rfl⟩
  obtain ⟨z, hz⟩ := hdec
  unfold looseObjectHeaderInfoLim
  rw [hz]
  dsimp only
  rcases hp : parseObjectHeaderLim limit ((zl.out m).take 8192) with e | ⟨typ, size, k⟩
  · refine ⟨fun typ size => ⟨nofun, ?_⟩, fun e' h => ?_⟩
    · rintro ⟨num, k, h⟩
      rw [(parseLim_iff _ _ _ _ _).mpr ⟨num, h⟩] at hp
      cases hp
    · cases h; exact parseLim_error _ _ _ hp
  · refine ⟨fun typ' size' => ⟨fun h => ?_, ?_⟩, fun e' h => by cases h⟩
    · cases h
      obtain ⟨num, h⟩ := (parseLim_iff _ _ _ _ _).mp hp
      exact ⟨num, k, h⟩
    · rintro ⟨num, k', h⟩
      rw [(parseLim_iff _ _ _ _ _).mpr ⟨num, h⟩] at hp
      cases hp
      rfl

/-- **C107** The limit makes no other difference than `ValueError`, for any data. -/
theorem C107_or (limit : Nat) (zl : Zlib) (m : Bytes) :
    (looseObjectHeaderInfoLim limit zl m = looseObjectHeaderInfo zl m ∨ looseObjectHeaderInfoLim limit zl m = .error .valueError) ∧
    (Reader.newLim limit zl m = Reader.new zl m ∨ Reader.newLim limit zl m = .error .valueError) := by
  constructor
  · unfold looseObjectHeaderInfoLim looseObjectHeaderInfo
    rcases ZDec.decompress zl {} m maxHeader with ⟨z, e | hdr⟩
    · exact .inl rfl
    · dsimp only
      rcases parseLim_or limit hdr with h | h
      · rw [h]; exact .inl rfl
      · rw [h]; exact .inr rfl
  · unfold Reader.newLim Reader.new Reader.parseHeaderInfoLim Reader.parseHeaderInfo
    dsimp only
    generalize Reader.readCore zl _ _ _ = x
    rcases x with ⟨r, e | hdr⟩
    · exact .inl rfl
    · dsimp only
      rcases parseLim_or limit hdr with h | h
      · rw [h]; exact .inl rfl
      · rw [h]; exact .inr rfl

/-- **C107** which sizes can be written: those below `10 ^ limit`. -/
theorem C107_written (limit : Nat) (type : Bytes) (size : Nat) (ha : ∀ b ∈ type, b.toNat < 128) :
    looseObjectHeaderLim limit type size =
      if limit = 0 ∨ size < 10 ^ limit then looseObjectHeader type size else .error .valueError := by
  unfold looseObjectHeaderLim looseObjectHeader
  have h : type.all (fun b => b.toNat < 128) = true := by simpa using ha
  rw [if_pos h, if_pos h]
  cases limit with
  | zero => rfl
  | succ k =>
    have hk := natToDec_length_le k size
    unfold tooManyDigits
    by_cases hs : size < 10 ^ (k + 1)
    · have h1 : ¬ (k + 1 ≠ 0 ∧ k + 1 < (natToDec size).length) := by have := hk.mpr hs; omega
      rw [decide_eq_false h1, if_pos (Or.inr hs), if_neg (by decide)]
    · have h1 : k + 1 ≠ 0 ∧ k + 1 < (natToDec size).length :=
        ⟨by omega, Nat.lt_of_not_le fun h => hs (hk.mp h)⟩
      have h2 : ¬ (k + 1 = 0 ∨ size < 10 ^ (k + 1)) := fun h => h.elim (by omega) hs
      rw [decide_eq_true h1, if_neg h2, if_pos rfl]

/-- **C107** what can be written under a limit can be read under the same limit, whatever follows the header. -/
theorem C107_roundtrip (limit : Nat) (type : Bytes) (size : Nat) (rest hdr : Bytes) (ht : ∀ b ∈ type, b ≠ 0x20 ∧ b ≠ 0)
    (h : looseObjectHeaderLim limit type size = .ok hdr) : parseObjectHeaderLim limit (hdr ++ rest) = .ok (type, (size : Int), hdr.length) := by
  unfold looseObjectHeaderLim at h
  split at h
  · rcases htl : tooManyDigits limit (natToDec size).length with _ | _
    · rw [htl] at h
      cases h
      have hp := parseObjectHeader_spec type _ rest size (natToDec_isDecimal size) ht
      refine (parseLim_iff _ _ _ _ _).mpr ⟨natToDec size, ⟨fun c hc => (ht c hc).1, ?_, .inl ⟨fun h => (ht 0 h).2 rfl, ?_, ?_, ?_⟩⟩,
        (pyInt_iff _ _).mp (pyInt_decimal (natToDec_isDecimal size)), ?_⟩
      · intro c hc h0
        subst h0
        have := (natToDec_isDecimal size).1 _ hc
        revert this; decide
      · intro h0
        have := (natToDec_isDecimal size).1 _ h0
        revert this; decide
      · simp
      · rw [List.take_left]; simp
      · rw [← tooManyDigits_iff, natToDec_digits]; exact htl
    · rw [htl] at h; cases h
  · cases h

/-! ## Cases -/

/-- The size is 0, written with `n` digits. -/
def longZero (n : Nat) : Bytes := strBlobType ++ 0x20 :: List.replicate n 48 ++ [0]

theorem longZero_few (n : Nat) : digitsIn (List.replicate n 48) = n := by
  unfold digitsIn
  rw [List.filter_eq_self.mpr]
  · exact List.length_replicate
  · intro c hc
    rw [List.eq_of_mem_replicate hc]
    decide

theorem longZero_zero (n : Nat) (hn : 0 < n) : IsPyInt (List.replicate n 48) 0 := by
  have hz : ∀ k, decValue (List.replicate k 48) = 0 := by
    intro k
    induction k with
    | zero => rfl
    | succ k ih => exact ih
  refine ⟨[], [], List.replicate n 48, [], [], by simp, nofun, nofun, ⟨?_, ?_⟩, nofun, .inl ⟨.inl rfl, ?_⟩⟩
  · intro h
    rw [List.replicate_eq_nil_iff] at h
    omega
  · intro c hc
    rw [List.eq_of_mem_replicate hc]
    decide
  · rw [List.flatten_nil, List.append_nil, hz]; rfl

theorem longZero_shape (n : Nat) : HeaderShape (longZero n) strBlobType (List.replicate n 48) (longZero n).length := by
  refine ⟨by decide, ?_, .inl ⟨by decide, ?_, Nat.le_refl _, ?_⟩⟩
  · intro c hc
    rw [List.eq_of_mem_replicate hc]
    decide
  · intro hc
    have := List.eq_of_mem_replicate hc
    revert this; decide
  · rw [List.take_length]; rfl

/-- More digits than the limit: refused, though the number is 0 and is accepted without the limit. -/
theorem C107_zeros (limit n : Nat) (hl : 0 < limit) (h : limit < n) :
    parseObjectHeader (longZero n) = .ok (strBlobType, 0, (longZero n).length) ∧
    parseObjectHeaderLim limit (longZero n) = .error .valueError := by
  rw [parse_parts, parseLim_parts, (headerParts_iff _ _ _ _).mpr (longZero_shape n)]
  dsimp only
  have ht : tooManyDigits limit n = true := decide_eq_true ⟨by omega, h⟩
  unfold pyIntLim
  rw [(pyInt_iff _ _).mpr (longZero_zero n (by omega))]
  dsimp only
  rw [longZero_few, ht]
  exact ⟨rfl, rfl⟩

example : (parseObjectHeader (longZero 6) = .ok (strBlobType, 0, 12)) ∧ (parseObjectHeaderLim 5 (longZero 6) = .error .valueError) ∧
    (parseObjectHeaderLim 5 (longZero 5) = .ok (strBlobType, 0, 11)) ∧ (parseObjectHeaderLim 0 (longZero 6) = .ok (strBlobType, 0, 12)) := by
  decide +kernel

example : looseObjectHeaderLim 3 strBlobType 999 = .ok (strBlobType ++ [0x20, 57, 57, 57, 0]) ∧
    looseObjectHeaderLim 3 strBlobType 1000 = .error .valueError ∧ looseObjectHeaderLim 4300 strBlobType 1000 = looseObjectHeader strBlobType 1000 := by
  decide +kernel

end GitDB.Props
