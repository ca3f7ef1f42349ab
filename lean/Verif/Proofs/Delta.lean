import Verif.Model.Delta
import Verif.Spec.Delta
import Verif.Proofs.Bits
/-!
# Lemmas about delta application
-/
set_option autoImplicit false

namespace GitDB
open Spec

theorem pyIndex_append (pre : Bytes) (x : UInt8) (rest : Bytes) :
    pyIndex (pre ++ x :: rest) pre.length = .ok x.toNat := by simp [pyIndex]

theorem optByte_spec {c bit shift : Nat} (pre : Bytes) (o : Option UInt8) (rest : Bytes) (acc : Nat)
    (hb : c &&& bit ≠ 0 ↔ o.isSome) :
    optByte (pre ++ (o.toList ++ rest)) c bit shift (acc, pre.length) =
      .ok (acc ||| opVal o <<< shift, (pre ++ o.toList).length) := by
  unfold optByte
  cases o with
  | none => rw [if_neg (by simpa using hb)]; simp [opVal]
  | some b =>
    rw [if_pos (hb.mpr rfl)]
    have : pre ++ ((some b).toList ++ rest) = pre ++ b :: rest := by simp
    rw [this]
    simp only [pyIndex_append]
    simp [opVal]

theorem copyOp_bits (o0 o1 o2 o3 s0 s1 s2 : Option UInt8) :
    let c := copyOp o0 o1 o2 o3 s0 s1 s2
    c < 256 ∧ (c &&& 0x80 ≠ 0) ∧ (c &&& 0x01 ≠ 0 ↔ o0.isSome) ∧ (c &&& 0x02 ≠ 0 ↔ o1.isSome) ∧
    (c &&& 0x04 ≠ 0 ↔ o2.isSome) ∧ (c &&& 0x08 ≠ 0 ↔ o3.isSome) ∧ (c &&& 0x10 ≠ 0 ↔ s0.isSome) ∧
    (c &&& 0x20 ≠ 0 ↔ s1.isSome) ∧ (c &&& 0x40 ≠ 0 ↔ s2.isSome) := by
  have key : ∀ b0 b1 b2 b3 b4 b5 b6 : Bool,
      let v := fun (b : Bool) (k : Nat) => if b = true then k else 0
      let c := 128 + v b0 1 + v b1 2 + v b2 4 + v b3 8 + v b4 16 + v b5 32 + v b6 64
      c < 256 ∧ (c &&& 0x80 ≠ 0) ∧ (c &&& 0x01 ≠ 0 ↔ b0) ∧ (c &&& 0x02 ≠ 0 ↔ b1) ∧
      (c &&& 0x04 ≠ 0 ↔ b2) ∧ (c &&& 0x08 ≠ 0 ↔ b3) ∧ (c &&& 0x10 ≠ 0 ↔ b4) ∧
      (c &&& 0x20 ≠ 0 ↔ b5) ∧ (c &&& 0x40 ≠ 0 ↔ b6) := by decide +kernel
  exact key o0.isSome o1.isSome o2.isSome o3.isSome s0.isSome s1.isSome s2.isSome

theorem opVal_lt (o : Option UInt8) : opVal o < 256 := by
  cases o with
  | none => simp [opVal]
  | some b => exact toNat_lt b

theorem decodeCopy_spec (o0 o1 o2 o3 s0 s1 s2 : Option UInt8) (pre rest : Bytes) :
    decodeCopy (pre ++ ((o0.toList ++ o1.toList ++ o2.toList ++ o3.toList ++ s0.toList ++ s1.toList ++
        s2.toList) ++ rest)) (copyOp o0 o1 o2 o3 s0 s1 s2) pre.length =
      .ok (copyOff o0 o1 o2 o3, copySize s0 s1 s2,
        (pre ++ (o0.toList ++ o1.toList ++ o2.toList ++ o3.toList ++ s0.toList ++ s1.toList ++
        s2.toList)).length) := by
  obtain ⟨_, _, h0, h1, h2, h3, h4, h5, h6⟩ := copyOp_bits o0 o1 o2 o3 s0 s1 s2
  have v0 := opVal_lt o0
  have v1 := opVal_lt o1
  have v2 := opVal_lt o2
  have v3 := opVal_lt o3
  have w0 := opVal_lt s0
  have w1 := opVal_lt s1
  have w2 := opVal_lt s2
  unfold decodeCopy
  generalize copyOp o0 o1 o2 o3 s0 s1 s2 = c at *
  have e0 : pre ++ ((o0.toList ++ o1.toList ++ o2.toList ++ o3.toList ++ s0.toList ++ s1.toList ++
        s2.toList) ++ rest) = pre ++ (o0.toList ++ (o1.toList ++ (o2.toList ++ (o3.toList ++
        (s0.toList ++ (s1.toList ++ (s2.toList ++ rest))))))) := by simp
  have q0 := optByte_spec (shift := 0) pre o0 (o1.toList ++ (o2.toList ++ (o3.toList ++
        (s0.toList ++ (s1.toList ++ (s2.toList ++ rest)))))) 0 h0
  have q1 := optByte_spec (shift := 8) (pre ++ o0.toList) o1 (o2.toList ++ (o3.toList ++
        (s0.toList ++ (s1.toList ++ (s2.toList ++ rest))))) (opVal o0) h1
  have q2 := optByte_spec (shift := 16) (pre ++ o0.toList ++ o1.toList) o2 (o3.toList ++
        (s0.toList ++ (s1.toList ++ (s2.toList ++ rest)))) (opVal o0 ||| opVal o1 <<< 8) h2
  have q3 := optByte_spec (shift := 24) (pre ++ o0.toList ++ o1.toList ++ o2.toList) o3
        (s0.toList ++ (s1.toList ++ (s2.toList ++ rest)))
        (opVal o0 ||| opVal o1 <<< 8 ||| opVal o2 <<< 16) h3
  have q4 := optByte_spec (shift := 0) (pre ++ o0.toList ++ o1.toList ++ o2.toList ++ o3.toList) s0
        (s1.toList ++ (s2.toList ++ rest)) 0 h4
  have q5 := optByte_spec (shift := 8) (pre ++ o0.toList ++ o1.toList ++ o2.toList ++ o3.toList ++
        s0.toList) s1 (s2.toList ++ rest) (opVal s0) h5
  have q6 := optByte_spec (shift := 16) (pre ++ o0.toList ++ o1.toList ++ o2.toList ++ o3.toList ++
        s0.toList ++ s1.toList) s2 rest (opVal s0 ||| opVal s1 <<< 8) h6
  simp only [Nat.zero_or, Nat.shiftLeft_zero, List.append_assoc] at q0 q1 q2 q3 q4 q5 q6 ⊢
  simp only [q0, q1, q2, q3, q4, q5, q6, bind, Except.bind, pure, Except.pure]
  have x1 : opVal o0 ||| opVal o1 <<< 8 = opVal o0 + 256 * opVal o1 := by
    rw [or_shl (by omega)]; omega
  have x2 : opVal o0 ||| opVal o1 <<< 8 ||| opVal o2 <<< 16 =
      opVal o0 + 256 * opVal o1 + 65536 * opVal o2 := by
    rw [x1, or_shl (by omega)]; omega
  have x3 : opVal o0 ||| opVal o1 <<< 8 ||| opVal o2 <<< 16 ||| opVal o3 <<< 24 =
      copyOff o0 o1 o2 o3 := by
    rw [x2, or_shl (by omega), copyOff]; omega
  have y1 : opVal s0 ||| opVal s1 <<< 8 = opVal s0 + 256 * opVal s1 := by
    rw [or_shl (by omega)]; omega
  have y2 : opVal s0 ||| opVal s1 <<< 8 ||| opVal s2 <<< 16 =
      opVal s0 + 256 * opVal s1 + 65536 * opVal s2 := by
    rw [y1, or_shl (by omega)]; omega
  rw [x3, y2, copySize]

theorem copySize_pos (s0 s1 s2 : Option UInt8) : 0 < copySize s0 s1 s2 := by
  unfold copySize; simp only; split <;> omega

/-! ### one step of the loop -/

variable {ω : Type} (src : Bytes) (srcSize : Nat) (write : ω → Bytes → ω × Res Unit)

/-- A copy instruction at the current position. -/
theorem applyLoop_copy (o0 o1 o2 o3 s0 s1 s2 : Option UInt8) (pre rest : Bytes) (w : ω) :
    let db := pre ++ ((Instr.copy o0 o1 o2 o3 s0 s1 s2).encode ++ rest)
    let i2 := (pre ++ (Instr.copy o0 o1 o2 o3 s0 s1 s2).encode).length
    applyLoop src srcSize db db.length write pre.length w =
      if srcSize < copyOff o0 o1 o2 o3 + copySize s0 s1 s2 then
        (w, if rest = [] then .ok () else .error .assertionError)
      else
        match write w ((Instr.copy o0 o1 o2 o3 s0 s1 s2).run src) with
        | (w, .error e) => (w, .error e)
        | (w, .ok ()) => applyLoop src srcSize db db.length write i2 w := by
  intro db i2
  obtain ⟨hc, h80, _⟩ := copyOp_bits o0 o1 o2 o3 s0 s1 s2
  rw [applyLoop]
  have hlt : pre.length < db.length := by simp [db, Instr.encode]
  rw [dif_pos hlt]
  have hidx : pyIndex db pre.length = .ok (copyOp o0 o1 o2 o3 s0 s1 s2) := by
    simp only [db, Instr.encode, List.cons_append, pyIndex_append]
    rw [toNat_ofNat hc]
  have hdec : decodeCopy db (copyOp o0 o1 o2 o3 s0 s1 s2) (pre.length + 1) =
      .ok (copyOff o0 o1 o2 o3, copySize s0 s1 s2, i2) := by
    have := decodeCopy_spec o0 o1 o2 o3 s0 s1 s2
      (pre ++ [UInt8.ofNat (copyOp o0 o1 o2 o3 s0 s1 s2)]) rest
    simp only [List.length_append, List.length_singleton] at this
    simp only [db, i2, Instr.encode]
    simpa [Nat.add_assoc, Nat.add_comm, Nat.add_left_comm] using this
  rw [hidx]
  simp only [h80, ne_eq, not_false_eq_true, if_true]
  have hpos := copySize_pos s0 s1 s2
  split
  · rename_i e h
    rw [hdec] at h; cases h
  · rename_i off sz j h
    rw [hdec] at h
    injection h with h
    injection h with h1 h
    injection h with h2 h3
    subst h1 h2 h3
    by_cases hr : srcSize < copyOff o0 o1 o2 o3 + copySize s0 s1 s2
    · rw [if_pos hr, if_pos (.inr hr)]
      congr 1
      unfold pyAssert
      have : (i2 == db.length) = decide (rest = []) := by
        have : i2 = db.length ↔ rest = [] := by
          simp only [i2, db]
          rw [← List.append_assoc, List.length_append (bs := rest), ← List.length_eq_zero_iff]
          omega
        by_cases hh : rest = []
        · simp [this.mpr hh, hh]
        · have h2 : ¬ i2 = db.length := fun x => hh (this.mp x)
          simp [h2, hh]
      rw [this]
      by_cases hh : rest = [] <;> simp [hh]
    · rw [if_neg hr, if_neg (by omega)]
      have : pySlice src (copyOff o0 o1 o2 o3) (copyOff o0 o1 o2 o3 + copySize s0 s1 s2) =
          (Instr.copy o0 o1 o2 o3 s0 s1 s2).run src := by
        simp [pySlice, Instr.run]
      rw [this]
      rcases write w ((Instr.copy o0 o1 o2 o3 s0 s1 s2).run src) with ⟨w', _ | ⟨⟩⟩ <;> rfl

/-- An opcode 1..127 at the current position, with `c` or fewer bytes behind it. -/
theorem applyLoop_insert (c : UInt8) (pre rest : Bytes) (w : ω) (h1 : 1 ≤ c.toNat)
    (h2 : c.toNat ≤ 127) :
    let db := pre ++ c :: rest
    applyLoop src srcSize db db.length write pre.length w =
        match write w (rest.take c.toNat) with
        | (w, .error e) => (w, .error e)
        | (w, .ok ()) => applyLoop src srcSize db db.length write (pre.length + 1 + c.toNat) w := by
  intro db
  rw [applyLoop]
  have hlt : pre.length < db.length := by simp [db]
  rw [dif_pos hlt]
  have hidx : pyIndex db pre.length = .ok c.toNat := pyIndex_append pre c rest
  rw [hidx]
  have h80 : c.toNat &&& 0x80 = 0 := (and_80_eq_zero (toNat_lt c)).mpr (by omega)
  have h0 : c.toNat ≠ 0 := by omega
  simp only [h80, ne_eq, not_true, if_false, h0, not_false_eq_true, if_true]
  have : pySlice db (pre.length + 1) (pre.length + 1 + c.toNat) = rest.take c.toNat := by
    have : db.drop (pre.length + 1) = rest := by simp [db]
    rw [pySlice, this]
    congr 1; omega
  rw [this]
  rcases write w (rest.take c.toNat) with ⟨w', _ | ⟨⟩⟩ <;> rfl

theorem applyLoop_zero (pre rest : Bytes) (w : ω) :
    let db := pre ++ 0 :: rest
    applyLoop src srcSize db db.length write pre.length w = (w, .error .valueError) := by
  intro db
  rw [applyLoop]
  have hlt : pre.length < db.length := by simp [db]
  rw [dif_pos hlt, pyIndex_append]
  rfl

theorem applyLoop_end (db : Bytes) (w : ω) :
    applyLoop src srcSize db db.length write db.length w = (w, .ok ()) := by
  rw [applyLoop, dif_neg (by omega)]; simp [pyAssert]

theorem applyLoop_beyond (db : Bytes) (i : Nat) (hi : db.length < i) (w : ω) :
    applyLoop src srcSize db db.length write i w = (w, .error .assertionError) := by
  rw [applyLoop, dif_neg (by omega)]
  have : (i == db.length) = false := by simp; omega
  rw [this]; rfl

/-! ### a sequence of instructions, for a collecting writer -/

theorem applyLoop_instrs (is : List Instr) : ∀ (pre rest : Bytes) (w : Bytes),
    (∀ x ∈ is, x.Valid srcSize) →
    let db := pre ++ (encodeAll is ++ rest)
    applyLoop src srcSize db db.length collect pre.length w =
      applyLoop src srcSize db db.length collect (pre ++ encodeAll is).length (w ++ runAll src is) := by
  induction is with
  | nil => intro pre rest w _; simp [encodeAll, runAll]
  | cons x xs ih =>
    intro pre rest w hv
    have hx := hv x (by simp)
    have e : pre ++ (encodeAll (x :: xs) ++ rest) = pre ++ (x.encode ++ (encodeAll xs ++ rest)) := by
      simp [encodeAll]
    have ih' := ih (pre ++ x.encode) rest (w ++ x.run src) (fun y hy => hv y (by simp [hy]))
    have e2 : pre ++ x.encode ++ (encodeAll xs ++ rest) =
        pre ++ (x.encode ++ (encodeAll xs ++ rest)) := by simp
    have e3 : (pre ++ x.encode ++ encodeAll xs) = pre ++ encodeAll (x :: xs) := by simp [encodeAll]
    have e4 : w ++ x.run src ++ runAll src xs = w ++ runAll src (x :: xs) := by simp [runAll]
    simp only [e2, e3, e4] at ih'
    rw [e]
    simp only
    rw [← ih']
    cases x with
    | copy o0 o1 o2 o3 s0 s1 s2 =>
      rw [applyLoop_copy]
      simp only [Instr.Valid] at hx
      rw [if_neg (by omega)]
      simp only [collect]
    | insert d =>
      simp only [Instr.Valid] at hx
      have hd : (UInt8.ofNat d.length).toNat = d.length := toNat_ofNat (by omega)
      have := applyLoop_insert src srcSize collect (UInt8.ofNat d.length) pre
        (d ++ (encodeAll xs ++ rest)) w (by omega) (by omega)
      simp only [Instr.encode, List.cons_append]
      rw [this]
      simp only [hd, List.take_left, collect, Instr.run]
      congr 1
      simp; omega

end GitDB
