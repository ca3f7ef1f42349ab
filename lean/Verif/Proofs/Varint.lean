import Verif.Model.Varint
import Verif.Spec.Varint
import Verif.Proofs.Bits
/-! Helper lemmas about the variable length integers. -/
set_option autoImplicit false

namespace GitDB
open Spec

theorem not_terminated_nil : ¬ Terminated [] := by
  rintro ⟨pre, last, h, -, -⟩
  simp at h

theorem terminated_cons {b : UInt8} {bs : Bytes} :
    Terminated (b :: bs) ↔
      (bs = [] ∧ more b = false) ∨ (more b = true ∧ Terminated bs) := by
  constructor
  · rintro ⟨pre, last, h, h1, h2⟩
    cases pre with
    | nil => simp at h; left; exact ⟨h.2, by rw [h.1]; exact h2⟩
    | cons p pre =>
      simp at h; right
      refine ⟨by rw [h.1]; exact h1 p (by simp), pre, last, h.2, ?_, h2⟩
      intro x hx; exact h1 x (by simp [hx])
  · rintro (⟨rfl, h⟩ | ⟨h, pre, last, rfl, h1, h2⟩)
    · exact ⟨[], b, rfl, by simp, h⟩
    · refine ⟨b :: pre, last, rfl, ?_, h2⟩
      intro x hx
      simp at hx
      rcases hx with rfl | hx
      · exact h
      · exact h1 x hx

theorem headerLoop_done {c : Nat} (hc : c &&& 0x80 = 0) (rest : Bytes) (i size s : Nat) :
    headerLoop rest c i size s = .ok (size, i) := by
  unfold headerLoop; simp [hc]

theorem headerLoop_spec (bs : Bytes) : ∀ (rest : Bytes) (c i size s : Nat), c &&& 0x80 ≠ 0 →
    Terminated bs →
    headerLoop (bs ++ rest) c i size s = .ok (size + leValue bs * 2 ^ s, i + bs.length) := by
  induction bs with
  | nil => intro _ _ _ _ _ _ h; exact absurd h not_terminated_nil
  | cons b bs ih =>
    intro rest c i size s hc ht
    rw [List.cons_append, headerLoop, if_neg hc]
    simp only [and_7f, shl]
    rcases terminated_cons.mp ht with ⟨rfl, hb⟩ | ⟨hb, ht'⟩
    · rw [headerLoop_done ((and_80_more b).mpr hb)]
      simp [leValue]
    · rw [ih _ _ _ _ _ (by rw [Ne, and_80_more]; simp [hb]) ht']
      simp only [leValue, List.length_cons, Except.ok.injEq, Prod.mk.injEq]
      refine ⟨?_, by omega⟩
      rw [Nat.pow_add, show (2:Nat)^7 = 128 by decide, Nat.add_mul]
      rw [Nat.mul_comm (2^s) 128, ← Nat.mul_assoc, Nat.mul_comm (leValue bs) 128]
      omega

theorem headerLoop_trunc (bs : Bytes) : ∀ (c i size s : Nat), c &&& 0x80 ≠ 0 →
    (∀ b ∈ bs, more b = true) → headerLoop bs c i size s = .error .indexError := by
  induction bs with
  | nil => intro c i size s hc _; unfold headerLoop; rw [if_neg hc]
  | cons b bs ih =>
    intro c i size s hc h
    unfold headerLoop; rw [if_neg hc]
    exact ih _ _ _ _ (by rw [Ne, and_80_more]; simp [h b (by simp)]) (fun x hx => h x (by simp [hx]))

theorem packObjectHeaderInfo_spec {b : UInt8} {bs : Bytes} (ht : Terminated (b :: bs))
    (rest : Bytes) :
    packObjectHeaderInfo (b :: bs ++ rest) =
      .ok (b.toNat / 16 % 8, b.toNat % 16 + 16 * leValue bs, bs.length + 1) := by
  simp only [packObjectHeaderInfo, List.cons_append, and_7, and_0f, shr]
  rcases terminated_cons.mp ht with ⟨rfl, hb⟩ | ⟨hb, ht'⟩
  · rw [headerLoop_done ((and_80_more b).mpr hb)]
    simp [leValue]
  · rw [headerLoop_spec _ _ _ _ _ _ (by rw [Ne, and_80_more]; simp [hb]) ht']
    simp; omega

theorem packObjectHeaderInfo_trunc {data : Bytes} (h : ∀ b ∈ data, more b = true) :
    packObjectHeaderInfo data = .error .indexError := by
  cases data with
  | nil => rfl
  | cons b bs =>
    simp only [packObjectHeaderInfo]
    rw [headerLoop_trunc _ _ _ _ _ (by rw [Ne, and_80_more]; simp [h b (by simp)])
      (fun x hx => h x (by simp [hx]))]

/-- The writing loop appends a terminated string with the right value. -/
theorem createHeaderLoop_spec (n : Nat) : ∀ (hdr : Bytes) (c : Nat), c < 128 →
    ∃ b bs, createHeaderLoop hdr c n = .ok (hdr ++ b :: bs) ∧ Terminated (b :: bs) ∧
      b.toNat % 128 = c ∧ leValue bs = n := by
  induction n using Nat.strongRecOn with
  | _ n ih =>
    intro hdr c hc
    unfold createHeaderLoop
    by_cases hn : n = 0
    · subst hn
      simp only [dif_pos, bytearrayAppend, if_pos (show c < 256 by omega)]
      refine ⟨UInt8.ofNat c, [], rfl, ?_, ?_, rfl⟩
      · rw [terminated_cons]; left; exact ⟨rfl, by rw [more_false, toNat_ofNat (by omega)]; exact hc⟩
      · rw [toNat_ofNat (by omega)]; omega
    · simp only [hn, dif_neg, not_false_eq_true, bytearrayAppend, or_80 hc,
        if_pos (show c + 128 < 256 by omega), and_7f, shr]
      obtain ⟨b, bs, h1, h2, h3, h4⟩ := ih (n / 2 ^ 7) (by omega)
        (hdr ++ [UInt8.ofNat (c + 128)]) (n % 128) (by omega)
      refine ⟨UInt8.ofNat (c + 128), b :: bs, ?_, ?_, ?_, ?_⟩
      · rw [h1]; simp
      · rw [terminated_cons]; right
        exact ⟨by rw [more_true, toNat_ofNat (by omega)]; omega, h2⟩
      · rw [toNat_ofNat (by omega)]; omega
      · simp only [leValue, h3, h4]; omega

theorem createPackObjectHeader_spec (t n : Nat) (ht : t < 8) :
    ∃ b bs, createPackObjectHeader t n = .ok (b :: bs) ∧ Terminated (b :: bs) ∧
      b.toNat / 16 % 8 = t ∧ b.toNat % 16 + 16 * leValue bs = n := by
  have hc : (t <<< 4 ||| n &&& 0xf) = t * 16 + n % 16 := by
    rw [and_0f, Nat.or_comm, or_shl (by omega)]; omega
  obtain ⟨b, bs, h1, h2, h3, h4⟩ := createHeaderLoop_spec (n >>> 4) [] (t * 16 + n % 16) (by omega)
  refine ⟨b, bs, ?_, h2, ?_, ?_⟩
  · rw [createPackObjectHeader, hc, h1]; rfl
  · omega
  · rw [h4, shr]; omega

/-! ### `msb_size` -/

theorem msbLoop_spec (bs : Bytes) : ∀ (n : Nat) (rest : Bytes) (i size : Nat),
    Terminated bs → bs.length ≤ n → size < 2 ^ (i * 7) →
    msbLoop n (bs ++ rest) i size = .ok (i + bs.length, size + leValue bs * 2 ^ (i * 7)) := by
  induction bs with
  | nil => intro _ _ _ _ h; exact absurd h not_terminated_nil
  | cons b bs ih =>
    intro n rest i size ht hn hs
    cases n with
    | zero => simp at hn
    | succ n =>
      simp only [List.cons_append, msbLoop, and_7f]
      rw [or_shl hs]
      rcases terminated_cons.mp ht with ⟨rfl, hb⟩ | ⟨hb, ht'⟩
      · rw [if_pos ((and_80_more b).mpr hb)]
        simp [leValue]
      · rw [if_neg (by rw [and_80_more]; simp [hb])]
        have hp : 2 ^ ((i + 1) * 7) = 128 * 2 ^ (i * 7) := by
          rw [Nat.succ_mul, Nat.pow_add, Nat.mul_comm]
        rw [ih n rest (i + 1) _ ht' (by simpa using hn)]
        · simp only [leValue, List.length_cons, Except.ok.injEq, Prod.mk.injEq]
          refine ⟨by omega, ?_⟩
          rw [hp, Nat.add_mul, ← Nat.mul_assoc, Nat.mul_comm (leValue bs) 128]
          omega
        · rw [hp]
          have : b.toNat % 128 * 2 ^ (i * 7) ≤ 127 * 2 ^ (i * 7) :=
            Nat.mul_le_mul_right _ (by omega)
          omega

/-- Unterminated: the loop raises `AssertionError` if it may look at all bytes, else `IndexError`. -/
theorem msbLoop_trunc (bs : Bytes) : ∀ (n i size : Nat), (∀ b ∈ bs, more b = true) →
    msbLoop n bs i size = if n ≤ bs.length then .error .assertionError else .error .indexError := by
  induction bs with
  | nil =>
    intro n i size _
    cases n <;> simp [msbLoop]
  | cons b bs ih =>
    intro n i size h
    cases n with
    | zero => simp [msbLoop]
    | succ n =>
      simp only [msbLoop]
      rw [if_neg (by rw [and_80_more]; simp [h b (by simp)])]
      rw [ih _ _ _ (fun x hx => h x (by simp [hx]))]
      simp

theorem leEncode_spec (n : Nat) : Terminated (leEncode n) ∧ leValue (leEncode n) = n := by
  induction n using Nat.strongRecOn with
  | _ n ih =>
    unfold leEncode
    by_cases h : n < 128
    · simp only [h, dif_pos]
      refine ⟨terminated_cons.mpr (.inl ⟨rfl, by rw [more_false, toNat_ofNat (by omega)]; exact h⟩), ?_⟩
      simp [leValue]; omega
    · simp only [h, dif_neg, not_false_eq_true]
      obtain ⟨h1, h2⟩ := ih (n / 128) (by omega)
      refine ⟨terminated_cons.mpr (.inr ⟨by rw [more_true, toNat_ofNat (by omega)]; omega, h1⟩), ?_⟩
      simp only [leValue, h2, toNat_ofNat (show 128 + n % 128 < 256 by omega)]
      omega

/-! ### Back offsets of `OFS_DELTA` entries -/

/-- What the loop of `pack_object_at` computes, as a fold. -/
def ofsFold (acc : Nat) (bs : Bytes) : Nat :=
  bs.foldl (fun acc b => (acc + 1) * 128 + b.toNat % 128) acc

theorem ofsLoop_spec (bs : Bytes) : ∀ (rest : Bytes) (c i acc : Nat), c &&& 0x80 ≠ 0 →
    Terminated bs →
    ofsLoop (bs ++ rest) c i acc = .ok (ofsFold acc bs, i + bs.length) := by
  induction bs with
  | nil => intro _ _ _ _ _ h; exact absurd h not_terminated_nil
  | cons b bs ih =>
    intro rest c i acc hc ht
    rw [List.cons_append, ofsLoop, if_neg hc]
    simp only [and_7f, shl]
    rcases terminated_cons.mp ht with ⟨rfl, hb⟩ | ⟨hb, ht'⟩
    · unfold ofsLoop; rw [if_pos ((and_80_more b).mpr hb)]
      simp [ofsFold]
    · rw [ih _ _ _ _ (by rw [Ne, and_80_more]; simp [hb]) ht']
      simp [ofsFold]; omega

theorem ofsLoop_trunc (bs : Bytes) : ∀ (c i acc : Nat), c &&& 0x80 ≠ 0 →
    (∀ b ∈ bs, more b = true) → ofsLoop bs c i acc = .error .indexError := by
  induction bs with
  | nil => intro c i acc hc _; unfold ofsLoop; rw [if_neg hc]
  | cons b bs ih =>
    intro c i acc hc h
    unfold ofsLoop; rw [if_neg hc]
    exact ih _ _ _ (by rw [Ne, and_80_more]; simp [h b (by simp)]) (fun x hx => h x (by simp [hx]))

theorem ofsDecode_fold {b : UInt8} {bs : Bytes} (ht : Terminated (b :: bs)) (pre rest : Bytes) :
    ofsDecode (pre ++ (b :: bs ++ rest)) pre.length =
      .ok (ofsFold (b.toNat % 128) bs, pre.length + bs.length + 1) := by
  simp only [ofsDecode, List.drop_left, List.cons_append, and_7f]
  rcases terminated_cons.mp ht with ⟨rfl, hb⟩ | ⟨hb, ht'⟩
  · unfold ofsLoop; rw [if_pos ((and_80_more b).mpr hb)]
    simp [ofsFold]
  · rw [ofsLoop_spec _ _ _ _ _ (by rw [Ne, and_80_more]; simp [hb]) ht']
    simp; omega

theorem ofsFold_append (acc : Nat) (xs : Bytes) (b : UInt8) :
    ofsFold acc (xs ++ [b]) = (ofsFold acc xs + 1) * 128 + b.toNat % 128 := by
  simp [ofsFold]

theorem snoc_induction {α : Type} {P : List α → Prop} (nil : P [])
    (snoc : ∀ xs x, P xs → P (xs ++ [x])) : ∀ l, P l := by
  intro l
  rw [← List.reverse_reverse l]
  induction l.reverse with
  | nil => exact nil
  | cons x xs ih => rw [List.reverse_cons]; exact snoc _ _ ih

def groups (acc : Nat) (bs : Bytes) : Nat :=
  bs.foldl (fun acc b => acc * 128 + b.toNat % 128) acc

def geo (k : Nat) : Nat := ((List.range k).map (fun k => if k = 0 then 0 else 128 ^ k)).sum

theorem geo_succ (k : Nat) (h : 0 < k) : geo (k + 1) = geo k + 128 ^ k := by
  have : k ≠ 0 := by omega
  simp [geo, List.range_succ, this]

theorem groups_add (bs : Bytes) : ∀ a c : Nat,
    groups (a + c) bs = groups a bs + c * 128 ^ bs.length := by
  induction bs with
  | nil => intro a c; simp [groups]
  | cons b bs ih =>
    intro a c
    have h : groups (a + c) (b :: bs) = groups ((a * 128 + b.toNat % 128) + c * 128) bs := by
      simp only [groups, List.foldl_cons]; congr 1; omega
    rw [h, ih]
    simp only [groups, List.foldl_cons, List.length_cons, Nat.pow_succ]
    rw [Nat.mul_assoc, Nat.mul_comm 128]

theorem ofsFold_groups (bs : Bytes) : ∀ acc : Nat,
    ofsFold acc bs = groups acc bs + geo (bs.length + 1) := by
  induction bs with
  | nil => intro acc; simp [ofsFold, groups, geo]
  | cons b bs ih =>
    intro acc
    have h : ofsFold acc (b :: bs) = ofsFold ((acc * 128 + b.toNat % 128) + 128) bs := by
      simp only [ofsFold, List.foldl_cons]; congr 1; omega
    rw [h, ih, groups_add, List.length_cons, geo_succ (bs.length + 1) (by omega), Nat.pow_succ]
    simp only [groups, List.foldl_cons]
    omega

theorem ofsFold_value (b : UInt8) (bs : Bytes) :
    ofsFold (b.toNat % 128) bs = ofsValue (b :: bs) := by
  rw [ofsFold_groups]
  simp [ofsValue, groups, geo]

theorem ofsDecode_spec {bs : Bytes} (ht : Terminated bs) (pre rest : Bytes) :
    ofsDecode (pre ++ (bs ++ rest)) pre.length =
      .ok (ofsValue bs, pre.length + bs.length) := by
  cases bs with
  | nil => exact absurd ht not_terminated_nil
  | cons b bs =>
    rw [ofsDecode_fold ht, ofsFold_value, List.length_cons]; rfl

theorem ofsDecode_trunc {data : Bytes} {i : Nat} (h : ∀ b ∈ data.drop i, more b = true) :
    ofsDecode data i = .error .indexError := by
  unfold ofsDecode
  cases hd : data.drop i with
  | nil => rfl
  | cons b bs =>
    rw [hd] at h
    exact ofsLoop_trunc _ _ _ _ (by rw [Ne, and_80_more]; simp [h b (by simp)])
      (fun x hx => h x (by simp [hx]))

theorem ofsValue_snoc {xs : Bytes} (h : xs ≠ []) (x : UInt8) :
    ofsValue (xs ++ [x]) = (ofsValue xs + 1) * 128 + x.toNat % 128 := by
  cases xs with
  | nil => exact absurd rfl h
  | cons b bs => rw [List.cons_append, ← ofsFold_value, ofsFold_append, ofsFold_value]

theorem ofsValue_single (x : UInt8) : ofsValue [x] = x.toNat % 128 := by
  simp [ofsValue]

theorem ofsEncodeAux_spec (n : Nat) : ∀ acc : Bytes, ∃ pre, ofsEncodeAux n acc = pre ++ acc ∧
    (∀ b ∈ pre, more b = true) ∧ (n = 0 → pre = []) ∧
    (0 < n → pre ≠ [] ∧ ofsValue pre + 1 = n) := by
  induction n using Nat.strongRecOn with
  | _ n ih =>
    intro acc
    unfold ofsEncodeAux
    by_cases hn : n = 0
    · simp only [hn, dif_pos]; exact ⟨[], rfl, by simp, by simp, by omega⟩
    · simp only [hn, dif_neg, not_false_eq_true]
      obtain ⟨pre, h1, h2, h3, h4⟩ := ih ((n - 1) / 128) (by omega)
        (UInt8.ofNat (128 + (n - 1) % 128) :: acc)
      have hx : (UInt8.ofNat (128 + (n - 1) % 128)).toNat = 128 + (n - 1) % 128 :=
        toNat_ofNat (by omega)
      refine ⟨pre ++ [UInt8.ofNat (128 + (n - 1) % 128)], ?_, ?_, ?_, ?_⟩
      · rw [h1]; simp
      · intro b hb
        rw [List.mem_append] at hb
        rcases hb with hb | hb
        · exact h2 b hb
        · rw [List.mem_singleton] at hb; rw [hb, more_true, hx]; omega
      · exact fun h => absurd h (by simp)
      · intro _
        refine ⟨by simp, ?_⟩
        by_cases hm : (n - 1) / 128 = 0
        · rw [h3 hm, List.nil_append, ofsValue_single, hx]; omega
        · obtain ⟨h5, h6⟩ := h4 (by omega)
          rw [ofsValue_snoc h5, h6, hx]; omega

theorem ofsEncode_spec (n : Nat) : Terminated (ofsEncode n) ∧ ofsValue (ofsEncode n) = n := by
  obtain ⟨pre, h1, h2, h3, h4⟩ := ofsEncodeAux_spec (n / 128) [UInt8.ofNat (n % 128)]
  have hx : (UInt8.ofNat (n % 128)).toNat = n % 128 := toNat_ofNat (by omega)
  refine ⟨⟨pre, _, h1, h2, by rw [more_false, hx]; omega⟩, ?_⟩
  rw [ofsEncode, h1]
  by_cases hm : n / 128 = 0
  · rw [h3 hm, List.nil_append, ofsValue_single, hx]; omega
  · obtain ⟨h5, h6⟩ := h4 (by omega)
    rw [ofsValue_snoc h5, h6, hx]; omega

theorem ofsEncodeAux_value (xs : Bytes) : (∀ b ∈ xs, more b = true) → xs ≠ [] →
    ∀ acc, ofsEncodeAux (ofsValue xs + 1) acc = xs ++ acc := by
  induction xs using snoc_induction with
  | nil => intro _ h; exact absurd rfl h
  | snoc xs x ih =>
    intro hm _ acc
    have hx := more_true.mp (hm x (by simp))
    have hx2 := toNat_lt x
    have hb : ∀ v, v % 128 = x.toNat % 128 → UInt8.ofNat (128 + v % 128) = x := by
      intro v hv
      apply UInt8.toNat_inj.mp
      rw [toNat_ofNat (by omega)]; omega
    rw [ofsEncodeAux, dif_neg (by omega)]
    by_cases hxs : xs = []
    · subst hxs
      rw [List.nil_append, ofsValue_single]
      rw [hb _ (by omega), show (x.toNat % 128 + 1 - 1) / 128 = 0 by omega, ofsEncodeAux, dif_pos rfl]
      rfl
    · rw [ofsValue_snoc hxs]
      rw [hb _ (by omega), show ((ofsValue xs + 1) * 128 + x.toNat % 128 + 1 - 1) / 128 =
        ofsValue xs + 1 by omega, ih (fun b hb => hm b (by simp [hb])) hxs]
      simp

theorem ofsEncode_value {bs : Bytes} (ht : Terminated bs) : ofsEncode (ofsValue bs) = bs := by
  obtain ⟨pre, last, rfl, h1, h2⟩ := ht
  have hl := more_false.mp h2
  have hb : ∀ v, v % 128 = last.toNat % 128 → UInt8.ofNat (v % 128) = last := by
    intro v hv
    apply UInt8.toNat_inj.mp
    rw [toNat_ofNat (by omega)]; omega
  by_cases hp : pre = []
  · subst hp
    rw [List.nil_append, ofsValue_single, ofsEncode, hb _ (by omega),
      show last.toNat % 128 / 128 = 0 by omega, ofsEncodeAux, dif_pos rfl]
  · rw [ofsValue_snoc hp, ofsEncode, hb _ (by omega),
      show ((ofsValue pre + 1) * 128 + last.toNat % 128) / 128 = ofsValue pre + 1 by omega,
      ofsEncodeAux_value _ h1 hp]

theorem msbSize_at (pre bs rest : Bytes) (ht : Terminated bs) :
    msbSize (pre ++ (bs ++ rest)) pre.length = .ok (pre.length + bs.length, leValue bs) := by
  unfold msbSize
  rw [List.drop_left, msbLoop_spec bs _ rest 0 0 ht (by simp; omega) (by simp)]
  simp; omega

end GitDB
