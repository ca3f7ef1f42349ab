import Verif.Model.Basic
/-!
# Applying a delta: `gitdb/fun.py` 621-678
-/
set_option autoImplicit false

namespace GitDB

/-- `if (c & bit): cp |= (db[i] << shift); i += 1`, the pattern of `gitdb/fun.py` 639-659.  For the
first offset and the first size byte the code assigns instead of or-ing; there `cp` is 0. -/
def optByte (db : Bytes) (c bit shift : Nat) (st : Nat × Nat) : Res (Nat × Nat) :=
  if c &&& bit ≠ 0 then
    match pyIndex db st.2 with
    | .ok b => .ok (st.1 ||| b <<< shift, st.2 + 1)
    | .error e => .error e
  else .ok st

/-- The operands of a copy instruction, `gitdb/fun.py` 638-662: `(cp_off, cp_size, i)`. -/
def decodeCopy (db : Bytes) (c i : Nat) : Res (Nat × Nat × Nat) := do
  let st ← optByte db c 0x01 0 (0, i)
  let st ← optByte db c 0x02 8 st
  let st ← optByte db c 0x04 16 st
  let (cpOff, i) ← optByte db c 0x08 24 st
  let st ← optByte db c 0x10 0 (0, i)
  let st ← optByte db c 0x20 8 st
  let (cpSize, i) ← optByte db c 0x40 16 st
  let cpSize := if cpSize = 0 then 0x10000 else cpSize
  return (cpOff, cpSize, i)

theorem optByte_mono {db : Bytes} {c bit shift : Nat} {st st' : Nat × Nat}
    (h : optByte db c bit shift st = .ok st') : st.2 ≤ st'.2 := by
  unfold optByte at h
  split at h
  · split at h
    · injection h with h; subst h; simp
    · cases h
  · injection h with h; subst h; simp

theorem decodeCopy_mono {db : Bytes} {c i off size i' : Nat}
    (h : decodeCopy db c i = .ok (off, size, i')) : i ≤ i' := by
  unfold decodeCopy at h
  simp only [bind, Except.bind, pure, Except.pure] at h
  repeat' split at h
  all_goals cases h
  all_goals
    rename_i h1 _ _ h2 _ _ h3 _ _ h4 _ _ h5 _ _ h6 _ _ h7 _
    have a1 := optByte_mono h1
    have a2 := optByte_mono h2
    have a3 := optByte_mono h3
    have a4 := optByte_mono h4
    have a5 := optByte_mono h5
    have a6 := optByte_mono h6
    have a7 := optByte_mono h7
    simp only at a1 a5
    omega

variable {ω : Type}

/-- The loop of `apply_delta_data`, `gitdb/fun.py` 635-675, followed by the final assertion (678).
`write` is the bound method of a writer with state `ω`; it may raise.  The result is the state of
the writer and the outcome, so that bytes written before an exception are visible. -/
def applyLoop (src : Bytes) (srcSize : Nat) (db : Bytes) (dbSize : Nat)
    (write : ω → Bytes → ω × Res Unit) (i : Nat) (w : ω) : ω × Res Unit :=
  if hi : i < dbSize then
    match pyIndex db i with
    | .error e => (w, .error e)
    | .ok c =>
      if c &&& 0x80 ≠ 0 then
        match hd : decodeCopy db c (i + 1) with
        | .error e => (w, .error e)
        | .ok (cpOff, cpSize, i2) =>
          let rbound := cpOff + cpSize
          if rbound < cpSize ∨ rbound > srcSize then
            -- break
            (w, pyAssert (i2 == dbSize))
          else
            match write w (pySlice src cpOff (cpOff + cpSize)) with
            | (w, .error e) => (w, .error e)
            | (w, .ok ()) =>
              have : dbSize - i2 < dbSize - i := by
                have := decodeCopy_mono hd; omega
              applyLoop src srcSize db dbSize write i2 w
      else if c ≠ 0 then
        match write w (pySlice db (i + 1) (i + 1 + c)) with
        | (w, .error e) => (w, .error e)
        | (w, .ok ()) => applyLoop src srcSize db dbSize write (i + 1 + c) w
      else
        (w, .error .valueError)
  else
    (w, pyAssert (i == dbSize))
termination_by dbSize - i
decreasing_by all_goals omega

/-- `apply_delta_data(src_buf, src_buf_size, delta_buf, delta_buf_size, write)`,
`gitdb/fun.py` 621-678. -/
def applyDeltaData (src : Bytes) (srcSize : Nat) (db : Bytes) (dbSize : Nat)
    (write : ω → Bytes → ω × Res Unit) (w : ω) : ω × Res Unit :=
  applyLoop src srcSize db dbSize write 0 w

/-- A writer that collects everything, like `list.append` or an unbounded `BytesIO`. -/
def collect (w d : Bytes) : Bytes × Res Unit := (w ++ d, .ok ())

end GitDB
