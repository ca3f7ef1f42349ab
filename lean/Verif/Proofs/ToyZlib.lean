import Verif.Model.Zlib
/-!
# A codec that meets the zlib contract

Used to show that `ZlibLaws` is satisfiable and to exhibit behaviour the laws allow (and real zlib shows):
bytes below 251 stand for themselves, `254 b` stands for any byte `b`, `253 k b` is a run, `252` padding,
`255` the end mark.
-/
set_option autoImplicit false

namespace GitDB

/-- Put an item in front of a decoded rest. -/
def bump (n : Nat) (d : Bytes) (r : Bytes × Option Nat × Bool) : Bytes × Option Nat × Bool :=
  (d ++ r.1, r.2.1.map (· + n), r.2.2)

/-- Decoder: output, length of the stream if it ends, error flag. -/
def toy : Bytes → Bytes × Option Nat × Bool
  | [] => ([], none, false)
  | c :: rest =>
    if c = 255 then ([], some 1, false)
    else if c = 252 then bump 1 [] (toy rest)
    else if c = 254 then
      match rest with
      | [] => ([], none, false)
      | b :: rest => bump 2 [b] (toy rest)
    else if c = 253 then
      match rest with
      | [] => ([], none, false)
      | [_] => ([], none, false)
      | k :: b :: rest => bump 3 (List.replicate k.toNat b) (toy rest)
    else if c = 251 then ([], none, true)
    else bump 1 [c] (toy rest)

/-- Consumes as little as possible. -/
def toyTaken : Bytes → Bytes → Nat → Nat
  | fed, w, lim =>
    if lim ≤ (toy fed).1.length then 0
    else match w with
      | [] => 0
      | b :: w => toyTaken (fed ++ [b]) w lim + 1

/-- The codec. -/
def toyZlib : Zlib where
  out x := (toy x).1
  stop x := (toy x).2.1
  bad x := (toy x).2.2
  taken := toyTaken
  Comp := Unit
  cinit _ := ()
  ccompress c d := (c, d.flatMap fun b => [254, b])
  cflush _ := [255]

theorem toy_zero (r : Bytes) : toy (255 :: r) = ([], some 1, false) := by rw [toy.eq_def]; simp
theorem toy_pad (r : Bytes) : toy (252 :: r) = bump 1 [] (toy r) := by
  conv => lhs; rw [toy.eq_def]
  simp
theorem toy_esc (b : UInt8) (r : Bytes) : toy (254 :: b :: r) = bump 2 [b] (toy r) := by
  conv => lhs; rw [toy.eq_def]
  simp
theorem toy_esc0 : toy [254] = ([], none, false) := by rw [toy.eq_def]; simp
theorem toy_run (k b : UInt8) (r : Bytes) :
    toy (253 :: k :: b :: r) = bump 3 (List.replicate k.toNat b) (toy r) := by
  conv => lhs; rw [toy.eq_def]
  simp
theorem toy_run0 : toy [253] = ([], none, false) := by rw [toy.eq_def]; simp
theorem toy_run1 (k : UInt8) : toy [253, k] = ([], none, false) := by rw [toy.eq_def]; simp
theorem toy_nil : toy [] = ([], none, false) := by rw [toy.eq_def]
theorem toy_bad (r : Bytes) : toy (251 :: r) = ([], none, true) := by rw [toy.eq_def]; simp
theorem toy_lit (c : UInt8) (r : Bytes) (h : c.toNat < 251) : toy (c :: r) = bump 1 [c] (toy r) := by
  have h0 : c ≠ 255 := by rintro rfl; simp at h
  have h1 : c ≠ 254 := by rintro rfl; simp at h
  have h2 : c ≠ 253 := by rintro rfl; simp at h
  have h3 : c ≠ 252 := by rintro rfl; simp at h
  have h4 : c ≠ 251 := by rintro rfl; simp at h
  conv => lhs; rw [toy.eq_def]
  simp [h0, h1, h2, h3, h4]

theorem toy_append (y : Bytes) : ∀ (n : Nat) (x : Bytes), x.length ≤ n →
    ((toy x).1 <+: (toy (x ++ y)).1) ∧
    (∀ k, (toy x).2.1 = some k → toy (x ++ y) = toy x ∧ k ≤ x.length ∧ (toy (x.take k)) = toy x ∧
      (toy x).2.2 = false ∧ 0 < k ∧ (toy (x.take (k - 1))).1 = (toy x).1) ∧
    ((toy x).2.2 = true → (toy (x ++ y)).2.2 = true) := by
  intro n
  induction n with
  | zero =>
    intro x hx
    have : x = [] := List.length_eq_zero_iff.mp (by omega)
    subst this
    simp [toy]
  | succ n ih =>
    intro x hx
    rcases x with _ | ⟨c, rest⟩
    · simp [toy]
    · by_cases h0 : c = 255
      · subst h0
        simp only [List.cons_append, toy_zero]
        simp [toy_zero, toy]
      · by_cases h3 : c = 252
        · subst h3
          obtain ⟨i1, i2, i3⟩ := ih rest (by simp at hx; omega)
          refine ⟨by simpa [toy_pad, bump] using i1, ?_, by simpa [toy_pad, bump] using i3⟩
          intro k hk
          simp [toy_pad, bump] at hk
          obtain ⟨k', hk', rfl⟩ := hk
          obtain ⟨j1, j2, j3, j4, j5, j6⟩ := i2 k' hk'
          refine ⟨?_, by simp; omega, ?_, ?_, by omega, ?_⟩
          · simp [toy_pad, bump, j1]
          · simp [toy_pad, bump, j3]
          · simp [toy_pad, bump, j4]
          · obtain ⟨q, rfl⟩ : ∃ q, k' = q + 1 := ⟨k' - 1, by omega⟩
            simp at j6
            simp [toy_pad, bump, j6]
        · by_cases h1 : c = 254
          · subst h1
            rcases rest with _ | ⟨b, rest⟩
            · simp [toy_esc0]
            · obtain ⟨i1, i2, i3⟩ := ih rest (by simp at hx; omega)
              refine ⟨by simpa [toy_esc, bump] using i1, ?_, by simpa [toy_esc, bump] using i3⟩
              intro k hk
              simp [toy_esc, bump] at hk
              obtain ⟨k', hk', rfl⟩ := hk
              obtain ⟨j1, j2, j3, j4, j5, j6⟩ := i2 k' hk'
              refine ⟨?_, by simp; omega, ?_, ?_, by omega, ?_⟩
              · simp [toy_esc, bump, j1]
              · simp [toy_esc, bump, j3]
              · simp [toy_esc, bump, j4]
              · obtain ⟨q, rfl⟩ : ∃ q, k' = q + 1 := ⟨k' - 1, by omega⟩
                simp at j6
                simp [toy_esc, bump, j6]
          · by_cases h2 : c = 253
            · subst h2
              rcases rest with _ | ⟨a, _ | ⟨b, rest⟩⟩
              · simp [toy_run0]
              · simp [toy_run1]
              · obtain ⟨i1, i2, i3⟩ := ih rest (by simp at hx; omega)
                refine ⟨by simpa [toy_run, bump] using i1, ?_, by simpa [toy_run, bump] using i3⟩
                intro k hk
                simp [toy_run, bump] at hk
                obtain ⟨k', hk', rfl⟩ := hk
                obtain ⟨j1, j2, j3, j4, j5, j6⟩ := i2 k' hk'
                refine ⟨?_, by simp; omega, ?_, ?_, by omega, ?_⟩
                · simp [toy_run, bump, j1]
                · simp [toy_run, bump, j3]
                · simp [toy_run, bump, j4]
                · obtain ⟨q, rfl⟩ : ∃ q, k' = q + 1 := ⟨k' - 1, by omega⟩
                  simp at j6
                  simp [toy_run, bump, j6]
            · by_cases h4 : c = 251
              · subst h4; simp [toy_bad]
              · have hlt : c.toNat < 251 := by
                  have := UInt8.toNat_lt c
                  have e0 : c.toNat ≠ 255 := fun h => h0 (UInt8.toNat_inj.mp h)
                  have e1 : c.toNat ≠ 254 := fun h => h1 (UInt8.toNat_inj.mp h)
                  have e2 : c.toNat ≠ 253 := fun h => h2 (UInt8.toNat_inj.mp h)
                  have e3 : c.toNat ≠ 252 := fun h => h3 (UInt8.toNat_inj.mp h)
                  have e4 : c.toNat ≠ 251 := fun h => h4 (UInt8.toNat_inj.mp h)
                  omega
                obtain ⟨i1, i2, i3⟩ := ih rest (by simp at hx; omega)
                refine ⟨by simpa [toy_lit c _ hlt, bump] using i1, ?_, by simpa [toy_lit c _ hlt, bump] using i3⟩
                intro k hk
                simp [toy_lit c _ hlt, bump] at hk
                obtain ⟨k', hk', rfl⟩ := hk
                obtain ⟨j1, j2, j3, j4, j5, j6⟩ := i2 k' hk'
                refine ⟨?_, by simp; omega, ?_, ?_, by omega, ?_⟩
                · simp [toy_lit c _ hlt, bump, j1]
                · simp [toy_lit c _ hlt, bump, j3]
                · simp [toy_lit c _ hlt, bump, j4]
                · obtain ⟨q, rfl⟩ : ∃ q, k' = q + 1 := ⟨k' - 1, by omega⟩
                  simp at j6
                  simp [toy_lit c _ hlt, bump, j6]

theorem toy_out_append (x y : Bytes) : (toy x).1 <+: (toy (x ++ y)).1 :=
  (toy_append y _ x (Nat.le_refl _)).1

theorem toyTaken_spec : ∀ (w fed : Bytes) (lim : Nat), lim < (toy (fed ++ w)).1.length →
    toyTaken fed w lim ≤ w.length ∧ lim ≤ (toy (fed ++ w.take (toyTaken fed w lim))).1.length ∧
    ((toy fed).2.1 = none → (toy (fed ++ w.take (toyTaken fed w lim))).2.1 = none) := by
  intro w
  induction w with
  | nil =>
    intro fed lim h
    rw [toyTaken]
    rw [List.append_nil] at h
    rw [if_pos (by omega)]
    simp; omega
  | cons b w ih =>
    intro fed lim h
    rw [toyTaken]
    by_cases hl : lim ≤ (toy fed).1.length
    · rw [if_pos hl]; simp; exact hl
    · rw [if_neg hl]
      skip
      obtain ⟨i1, i2, i3⟩ := ih (fed ++ [b]) lim (by simpa using h)
      rw [List.append_assoc] at i2 i3
      refine ⟨by simp; omega, by simpa using i2, ?_⟩
      intro hs
      have := i3 ?_
      · simpa using this
      · rcases hk : (toy (fed ++ [b])).2.1 with _ | k
        · rfl
        · exfalso
          obtain ⟨_, i2, _⟩ := toy_append w _ (fed ++ [b]) (Nat.le_refl _)
          obtain ⟨j1, j2, j3, j4, j5, j6⟩ := i2 k hk
          rcases Nat.lt_or_ge fed.length k with hlt | hge
          · have hke : k = fed.length + 1 := by simp at j2; omega
            rw [hke] at j6
            simp at j6
            rw [List.append_assoc] at j1
            simp at j1
            rw [j1] at h
            have h2 := congrArg List.length j6
            omega
          · rw [List.take_append_of_le_length hge] at j3
            have h5 := toy_append (fed.drop k) _ (fed.take k) (Nat.le_refl _)
            have h6 := (h5.2.1 k (by rw [j3]; exact hk)).1
            rw [List.take_append_drop, j3] at h6
            rw [h6, hk] at hs
            simp at hs

theorem toy_emit (ds : List Bytes) : toyZlib.emit () ds = (ds.flatten.flatMap fun b => [254, b]) ++ [255] := by
  induction ds with
  | nil => rfl
  | cons d ds ih =>
    show (toyZlib.ccompress () d).2 ++ toyZlib.emit () ds = _
    rw [ih]
    simp [toyZlib]

theorem toy_enc (d : Bytes) :
    toy ((d.flatMap fun b => [254, b]) ++ [255]) =
      (d, some ((d.flatMap fun b => [(254 : UInt8), b]) ++ [255]).length, false) := by
  induction d with
  | nil => simp [toy]
  | cons b d ih =>
    simp only [List.flatMap_cons, List.cons_append, List.nil_append]
    rw [toy_esc, ih]
    simp [bump]

theorem toyZlib_laws : ZlibLaws toyZlib where
  out_append := toy_out_append
  stop_nil := rfl
  stop_le x k h := ((toy_append [] _ x (Nat.le_refl _)).2.1 k h).2.1
  stop_append x y k h := by
    have := ((toy_append y _ x (Nat.le_refl _)).2.1 k h).1
    show (toy (x ++ y)).2.1 = some k
    rw [this]; exact h
  stop_out x y k h := by
    have := ((toy_append y _ x (Nat.le_refl _)).2.1 k h).1
    show (toy (x ++ y)).1 = (toy x).1
    rw [this]
  stop_take x k h := by
    have := ((toy_append [] _ x (Nat.le_refl _)).2.1 k h).2.2.1
    show (toy (x.take k)).2.1 = some k
    rw [this]; exact h
  stop_good x k h := ((toy_append [] _ x (Nat.le_refl _)).2.1 k h).2.2.2.1
  bad_append x y h := (toy_append y _ x (Nat.le_refl _)).2.2 h
  taken_le fed w lim h := (toyTaken_spec w fed lim h).1
  taken_out fed w lim h := (toyTaken_spec w fed lim h).2.1
  taken_stop fed w lim h hs := (toyTaken_spec w fed lim h).2.2 hs
  emit_stop level ds := by
    show (toy (toyZlib.emit () ds)).2.1 = some (toyZlib.emit () ds).length
    rw [toy_emit, toy_enc]
  emit_out level ds := by
    show (toy (toyZlib.emit () ds)).1 = ds.flatten
    rw [toy_emit, toy_enc]

end GitDB
