import Verif.Proofs.Delta
/-!
# Every byte string is a sequence of valid instructions followed by one of five endings
-/
set_option autoImplicit false

namespace GitDB
open Spec

theorem peel (b : Bool) (rest : Bytes) (h : b.toNat ≤ rest.length) :
    ∃ (o : Option UInt8) (rest' : Bytes), rest = o.toList ++ rest' ∧ o.isSome = b ∧
      rest'.length + b.toNat = rest.length := by
  cases b with
  | false => exact ⟨none, rest, rfl, rfl, rfl⟩
  | true =>
    cases rest with
    | nil => simp at h
    | cons x xs => exact ⟨some x, xs, rfl, rfl, rfl⟩

theorem toNat_bit (n : Nat) (h : n < 2) : (decide (n = 1)).toNat = n := by
  have : n = 0 ∨ n = 1 := by omega
  rcases this with rfl | rfl <;> rfl

theorem parse_copy (c : UInt8) (rest : Bytes) (h : 128 ≤ c.toNat)
    (ho : operands c.toNat ≤ rest.length) :
    ∃ o0 o1 o2 o3 s0 s1 s2 rest',
      c :: rest = (Instr.copy o0 o1 o2 o3 s0 s1 s2).encode ++ rest' := by
  unfold operands at ho
  have t : ∀ k, (decide (c.toNat / k % 2 = 1)).toNat = c.toNat / k % 2 :=
    fun k => toNat_bit _ (by omega)
  have t0 : (decide (c.toNat % 2 = 1)).toNat = c.toNat % 2 := toNat_bit _ (by omega)
  obtain ⟨o0, r0, e0, i0, l0⟩ := peel (decide (c.toNat % 2 = 1)) rest (by rw [t0]; omega)
  obtain ⟨o1, r1, e1, i1, l1⟩ := peel (decide (c.toNat / 2 % 2 = 1)) r0 (by rw [t]; omega)
  obtain ⟨o2, r2, e2, i2, l2⟩ := peel (decide (c.toNat / 4 % 2 = 1)) r1 (by rw [t] at *; omega)
  obtain ⟨o3, r3, e3, i3, l3⟩ := peel (decide (c.toNat / 8 % 2 = 1)) r2 (by rw [t] at *; omega)
  obtain ⟨s0, r4, e4, i4, l4⟩ := peel (decide (c.toNat / 16 % 2 = 1)) r3 (by rw [t] at *; omega)
  obtain ⟨s1, r5, e5, i5, l5⟩ := peel (decide (c.toNat / 32 % 2 = 1)) r4 (by rw [t] at *; omega)
  obtain ⟨s2, r6, e6, i6, l6⟩ := peel (decide (c.toNat / 64 % 2 = 1)) r5 (by rw [t] at *; omega)
  refine ⟨o0, o1, o2, o3, s0, s1, s2, r6, ?_⟩
  have hb : ∀ (o : Option UInt8) (n k : Nat), o.isSome = decide (n % 2 = 1) →
      bit o k = n % 2 * k := by
    intro o n k ho
    unfold bit
    have : n % 2 = 0 ∨ n % 2 = 1 := by omega
    rcases this with h' | h' <;> simp [ho, h']
  have hop : copyOp o0 o1 o2 o3 s0 s1 s2 = c.toNat := by
    have := toNat_lt c
    rw [copyOp, hb _ _ _ i0, hb _ _ _ i1, hb _ _ _ i2, hb _ _ _ i3, hb _ _ _ i4, hb _ _ _ i5,
      hb _ _ _ i6]
    omega
  rw [Instr.encode, hop]
  subst e0 e1 e2 e3 e4 e5 e6
  simp

/-- Decomposition of an arbitrary byte string. -/
theorem parse_delta (srcSize : Nat) (db : Bytes) :
    ∃ is rest, (∀ x ∈ is, x.Valid srcSize) ∧ db = encodeAll is ++ rest ∧ Stuck srcSize rest := by
  induction h : db.length using Nat.strongRecOn generalizing db with
  | ind n ih =>
    have step : ∀ (x : Instr) (rest : Bytes), x.Valid srcSize → db = x.encode ++ rest →
        x.encode ≠ [] → ∃ is rest, (∀ x ∈ is, x.Valid srcSize) ∧ db = encodeAll is ++ rest ∧
          Stuck srcSize rest := by
      intro x rest hx e hne
      have hpos := List.length_pos_iff.mpr hne
      obtain ⟨is, r, h1, h2, h3⟩ := ih rest.length (by
        rw [← h, e, List.length_append]; omega) rest rfl
      refine ⟨x :: is, r, ?_, ?_, h3⟩
      · intro y hy; simp at hy; rcases hy with rfl | hy
        · exact hx
        · exact h1 y hy
      · rw [e, h2]; simp [encodeAll]
    cases db with
    | nil => exact ⟨[], [], by simp, rfl, .nil⟩
    | cons c rest =>
      by_cases h0 : c = 0
      · subst h0; exact ⟨[], _, by simp, rfl, .zero rest⟩
      have hc0 : c.toNat ≠ 0 := fun hh => h0 (UInt8.toNat_inj.mp hh)
      by_cases h80 : 128 ≤ c.toNat
      · by_cases ht : rest.length < operands c.toNat
        · exact ⟨[], _, by simp, rfl, .copyTruncated c rest h80 ht⟩
        obtain ⟨o0, o1, o2, o3, s0, s1, s2, r, e⟩ := parse_copy c rest h80 (by omega)
        by_cases hr : srcSize < copyOff o0 o1 o2 o3 + copySize s0 s1 s2
        · rw [e]
          exact ⟨[], _, by simp, rfl, .copyOutside o0 o1 o2 o3 s0 s1 s2 r hr⟩
        · exact step (.copy o0 o1 o2 o3 s0 s1 s2) r (by simp [Instr.Valid]; omega) e
            (by simp [Instr.encode])
      · by_cases ht : rest.length < c.toNat
        · exact ⟨[], _, by simp, rfl, .insertTruncated c rest (by omega) ht⟩
        · have hlen : (rest.take c.toNat).length = c.toNat := by rw [List.length_take]; omega
          refine step (.insert (rest.take c.toNat)) (rest.drop c.toNat) ?_ ?_ (by simp [Instr.encode])
          · simp only [Instr.Valid, hlen]; omega
          · simp only [Instr.encode, hlen, List.cons_append, List.take_append_drop]
            simp

/-! ### truncated operands -/

theorem optByte_cases {db : Bytes} {c bit shift : Nat} {st : Nat × Nat} (hst : st.2 ≤ db.length) :
    (optByte db c bit shift st = .error .indexError) ∨
    ∃ st', optByte db c bit shift st = .ok st' ∧ st'.2 ≤ db.length ∧
      st'.2 = st.2 + if c &&& bit ≠ 0 then 1 else 0 := by
  unfold optByte
  split
  · unfold pyIndex
    cases hx : db[st.2]? with
    | none => simp
    | some b =>
      right
      have := (List.getElem?_eq_some_iff.mp hx).1
      exact ⟨_, rfl, by simp; omega, rfl⟩
  · right; exact ⟨_, rfl, hst, rfl⟩

theorem bitcount (c k : Nat) : (if c &&& 2 ^ k ≠ 0 then 1 else 0) = c / 2 ^ k % 2 := by
  have := and_two_pow_eq_zero c k
  by_cases h : c &&& 2 ^ k = 0
  · rw [if_neg (by simpa using h), this.mp h]
  · rw [if_pos h]
    have : c / 2 ^ k % 2 ≠ 0 := fun hh => h (this.mpr hh)
    omega

theorem decodeCopy_trunc (db : Bytes) (c i : Nat) (hi : i ≤ db.length)
    (ht : db.length < i + operands c) : decodeCopy db c i = .error .indexError := by
  unfold decodeCopy
  simp only [bind, Except.bind, pure, Except.pure]
  have b0 := bitcount c 0
  have b1 := bitcount c 1
  have b2 := bitcount c 2
  have b3 := bitcount c 3
  have b4 := bitcount c 4
  have b5 := bitcount c 5
  have b6 := bitcount c 6
  simp only [Nat.reducePow, Nat.div_one] at b0 b1 b2 b3 b4 b5 b6
  rcases optByte_cases (db := db) (c := c) (bit := 1) (shift := 0) (st := (0, i)) hi with
    h | ⟨st0, h, l0, m0⟩ <;> rw [h]
  simp only
  rcases optByte_cases (db := db) (c := c) (bit := 2) (shift := 8) (st := st0) l0 with
    h | ⟨st1, h, l1, m1⟩ <;> rw [h]
  simp only
  rcases optByte_cases (db := db) (c := c) (bit := 4) (shift := 16) (st := st1) l1 with
    h | ⟨st2, h, l2, m2⟩ <;> rw [h]
  simp only
  rcases optByte_cases (db := db) (c := c) (bit := 8) (shift := 24) (st := st2) l2 with
    h | ⟨st3, h, l3, m3⟩ <;> rw [h]
  simp only
  rcases optByte_cases (db := db) (c := c) (bit := 16) (shift := 0) (st := (0, st3.2)) l3 with
    h | ⟨st4, h, l4, m4⟩ <;> rw [h]
  simp only
  rcases optByte_cases (db := db) (c := c) (bit := 32) (shift := 8) (st := st4) l4 with
    h | ⟨st5, h, l5, m5⟩ <;> rw [h]
  simp only
  rcases optByte_cases (db := db) (c := c) (bit := 64) (shift := 16) (st := st5) l5 with
    h | ⟨st6, h, l6, m6⟩ <;> rw [h]
  exfalso
  rw [b0] at m0
  rw [b1] at m1
  rw [b2] at m2
  rw [b3] at m3
  rw [b4] at m4
  rw [b5] at m5
  rw [b6] at m6
  simp only [operands] at ht m0 m4
  omega

variable {ω : Type} (src : Bytes) (srcSize : Nat) (write : ω → Bytes → ω × Res Unit)

theorem applyLoop_copyTruncated (c : UInt8) (pre rest : Bytes) (w : ω) (h : 128 ≤ c.toNat)
    (ht : rest.length < operands c.toNat) :
    let db := pre ++ c :: rest
    applyLoop src srcSize db db.length write pre.length w = (w, .error .indexError) := by
  intro db
  rw [applyLoop]
  have hlt : pre.length < db.length := by simp [db]
  have hidx : pyIndex db pre.length = .ok c.toNat := pyIndex_append pre c rest
  rw [dif_pos hlt, hidx]
  have h80 : c.toNat &&& 0x80 ≠ 0 := by
    intro hh; have := (and_80_eq_zero (toNat_lt c)).mp hh; omega
  simp only [h80, ne_eq, not_false_eq_true, if_true]
  have hdec : decodeCopy db c.toNat (pre.length + 1) = .error .indexError := by
    apply decodeCopy_trunc
    · simp [db]
    · simp [db]; omega
  split
  · rename_i h; rw [hdec] at h; injection h with h; subst h; rfl
  · rename_i h; rw [hdec] at h; cases h

/-- The outcome on an arbitrary delta, case by case. -/
def stuckOutcome (out rest : Bytes) (r : Bytes × Res Unit) : Prop :=
  (rest = [] → r = (out, .ok ())) ∧
  (∀ t, rest = 0 :: t → r = (out, .error .valueError)) ∧
  (∀ c t, rest = c :: t → 128 ≤ c.toNat → t.length < operands c.toNat →
    r = (out, .error .indexError)) ∧
  (∀ c t, rest = c :: t → c.toNat < 128 → t.length < c.toNat →
    r = (out ++ t, .error .assertionError)) ∧
  (∀ o0 o1 o2 o3 s0 s1 s2 t, rest = (Instr.copy o0 o1 o2 o3 s0 s1 s2).encode ++ t →
    srcSize < copyOff o0 o1 o2 o3 + copySize s0 s1 s2 →
    r = (out, if t = [] then .ok () else .error .assertionError))

theorem applyDelta_outcome (is : List Instr) (rest : Bytes) (hv : ∀ x ∈ is, x.Valid srcSize) :
    stuckOutcome srcSize (runAll src is) rest
      (applyDeltaData src srcSize (encodeAll is ++ rest) (encodeAll is ++ rest).length collect []) := by
  have h := applyLoop_instrs src srcSize is [] rest [] hv
  simp only [List.nil_append, List.length_nil] at h
  unfold applyDeltaData
  rw [h]
  refine ⟨?_, ?_, ?_, ?_, ?_⟩
  · rintro rfl
    simp only [List.append_nil]
    exact applyLoop_end src srcSize collect (encodeAll is) _
  · rintro t rfl
    exact applyLoop_zero src srcSize collect (encodeAll is) t _
  · rintro c t rfl h80 ht
    exact applyLoop_copyTruncated src srcSize collect c (encodeAll is) t _ h80 ht
  · rintro c t rfl h80 ht
    rw [applyLoop_insert src srcSize collect c (encodeAll is) t _ (by omega) (by omega)]
    simp only [collect]
    rw [List.take_of_length_le (by omega), applyLoop_beyond]
    simp; omega
  · rintro o0 o1 o2 o3 s0 s1 s2 t rfl hr
    rw [applyLoop_copy, if_pos hr]

/-! ### only the declared source is read -/

theorem applyLoop_src (db : Bytes) (n : Nat) : ∀ (k i : Nat) (w : ω), n - i = k →
    applyLoop src srcSize db n write i w = applyLoop (src.take srcSize) srcSize db n write i w := by
  intro k
  induction k using Nat.strongRecOn with
  | ind k ih =>
    intro i w hk
    rw [applyLoop, applyLoop]
    by_cases hi : i < n
    · rw [dif_pos hi, dif_pos hi]
      cases hx : pyIndex db i with
      | error e => rfl
      | ok c =>
        simp only
        by_cases h80 : c &&& 0x80 ≠ 0
        · rw [if_pos h80, if_pos h80]
          split
          · rfl
          · rename_i off sz j h
            · by_cases hr : off + sz < sz ∨ off + sz > srcSize
              · rw [if_pos hr, if_pos hr]
              · rw [if_neg hr, if_neg hr]
                have e : pySlice (src.take srcSize) off (off + sz) = pySlice src off (off + sz) := by
                  unfold pySlice
                  rw [List.drop_take, List.take_take]
                  congr 1; omega
                rw [e]
                have hm := decodeCopy_mono h
                rcases write w (pySlice src off (off + sz)) with ⟨w', _ | ⟨⟩⟩
                · rfl
                · exact ih (n - j) (by omega) j w' rfl
        · rw [if_neg h80, if_neg h80]
          by_cases h0 : c ≠ 0
          · rw [if_pos h0, if_pos h0]
            rcases write w (pySlice db (i + 1) (i + 1 + c)) with ⟨w', _ | ⟨⟩⟩
            · rfl
            · exact ih (n - (i + 1 + c)) (by omega) _ w' rfl
          · rw [if_neg h0, if_neg h0]
    · rw [dif_neg hi, dif_neg hi]

end GitDB
