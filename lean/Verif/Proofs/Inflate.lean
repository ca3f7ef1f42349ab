import Verif.Model.Inflate
/-!
# The decompressor of `Verif/Model/Inflate.lean` meets the contract of `Verif/Model/Zlib.lean`
-/
set_option autoImplicit false

namespace GitDB.Deflate

/-! ## Output only grows -/

theorem copyBack_suffix (dist : Nat) : ∀ (len : Nat) (rout : Bytes), rout <:+ copyBack dist len rout := by
  intro len
  induction len with
  | zero => intro rout; exact List.suffix_refl _
  | succ len ih => intro rout; exact (List.suffix_cons _ _).trans (ih _)

theorem copyBack_length (dist : Nat) : ∀ (len : Nat) (rout : Bytes), (copyBack dist len rout).length = rout.length + len := by
  intro len
  induction len with
  | zero => intro rout; rfl
  | succ len ih => intro rout; rw [copyBack, ih]; simp; omega

theorem doMatch_suffix (rout : Bytes) (c : Codes) (len dist : Nat) : rout <:+ (doMatch rout c len dist).rout := by
  unfold doMatch
  split
  · exact List.suffix_refl _
  · exact copyBack_suffix _ _ _

theorem collected_suffix (rout : Bytes) (i v : Nat) (w : Want) : rout <:+ (collected rout i v w).rout := by
  cases w <;> simp only [collected]
  case head => (repeat' split) <;> exact List.suffix_refl _
  case dictId => exact List.suffix_refl _
  case type => (repeat' split) <;> exact List.suffix_refl _
  case storedLen => (repeat' split) <;> exact List.suffix_refl _
  case storedByte => exact List.suffix_cons _ _
  case table => split <;> exact List.suffix_refl _
  case lenLens => split <;> exact List.suffix_refl _
  case repeatPrev => split <;> exact List.suffix_refl _
  case repeatZero => exact List.suffix_refl _
  case lenExtra => exact List.suffix_refl _
  case distExtra => exact doMatch_suffix _ _ _ _
  case check => exact List.suffix_refl _

theorem decoded_suffix (rout : Bytes) (i s : Nat) (y : Sym) : rout <:+ (decoded rout i s y).rout := by
  cases y <;> simp only [decoded]
  case codeLen => (repeat' split) <;> exact List.suffix_refl _
  case lit =>
    split
    · exact List.suffix_cons _ _
    · split
      · exact List.suffix_refl _
      · split <;> exact List.suffix_refl _
  case dist =>
    split
    · exact List.suffix_refl _
    · exact doMatch_suffix _ _ _ _
    · exact List.suffix_refl _

theorem bitStep_suffix (s : Inf) (i : Nat) (b : Bool) : s.rout <:+ (bitStep s i b).rout := by
  unfold bitStep
  split
  · exact List.suffix_refl _
  · exact List.suffix_refl _
  · exact List.suffix_refl _
  · simp only
    split
    · exact collected_suffix _ _ _ _
    · exact List.suffix_refl _
  · rename_i sym _ _ _ _
    cases sym <;> exact List.suffix_refl _
  · simp only
    generalize (if b = true then 1 else 0) = bb
    split
    · exact decoded_suffix _ _ _ _
    · split <;> exact List.suffix_refl _

theorem runBits_suffix : ∀ (bs : List Bool) (s : Inf) (i : Nat), s.rout <:+ (runBits s i bs).rout := by
  intro bs
  induction bs with
  | nil => intro s i; exact List.suffix_refl _
  | cons b bs ih => intro s i; exact (bitStep_suffix s i b).trans (ih _ _)

theorem feed_append (s : Inf) (x y : Bytes) : feed s (x ++ y) = feed (feed s x) y := by
  unfold feed; exact List.foldl_append ..

theorem feed_cons (s : Inf) (b : UInt8) (y : Bytes) : feed s (b :: y) = feed (stepByte s b) y := rfl

theorem feed_suffix : ∀ (x : Bytes) (s : Inf), s.rout <:+ (feed s x).rout := by
  intro x
  induction x with
  | nil => intro s; exact List.suffix_refl _
  | cons b x ih => intro s; exact (runBits_suffix _ s 0).trans (ih _)

/-! ## The end and errors are final -/

theorem runBits_done : ∀ (bs : List Bool) (s : Inf) (i : Nat), s.mode = .done → runBits s i bs = s := by
  intro bs
  induction bs with
  | nil => intro s i _; rfl
  | cons b bs ih =>
    intro s i h
    have : bitStep s i b = s := by unfold bitStep; rw [h]
    rw [runBits, this]
    exact ih s _ h

theorem runBits_bad : ∀ (bs : List Bool) (s : Inf) (i : Nat), s.mode = .bad → runBits s i bs = s := by
  intro bs
  induction bs with
  | nil => intro s i _; rfl
  | cons b bs ih =>
    intro s i h
    have : bitStep s i b = s := by unfold bitStep; rw [h]
    rw [runBits, this]
    exact ih s _ h

theorem feed_done : ∀ (x : Bytes) (s : Inf), s.mode = .done → feed s x = s := by
  intro x
  induction x with
  | nil => intro s _; rfl
  | cons b x ih =>
    intro s h
    rw [feed_cons, show stepByte s b = s from runBits_done _ s 0 h]
    exact ih s h

theorem feed_bad : ∀ (x : Bytes) (s : Inf), s.mode = .bad → feed s x = s := by
  intro x
  induction x with
  | nil => intro s _; rfl
  | cons b x ih =>
    intro s h
    rw [feed_cons, show stepByte s b = s from runBits_bad _ s 0 h]
    exact ih s h

/-! ## The checksum takes whole bytes -/

/-- At bit `i` of a byte that did not begin in the checksum. -/
structure Before (i : Nat) (m : Mode) : Prop where
  done : m ≠ .done
  check : ∀ need got acc, m = .collect .check need got acc → i = 8
  skip : ∀ left need, m = .skip left .check need → left + i = 8 ∧ 1 ≤ left

theorem before_startSym (i : Nat) (sym : Sym) : Before i (startSym sym) := by
  constructor <;> simp [startSym]

theorem before_bad (i : Nat) : Before i .bad := by constructor <;> simp

theorem before_collect (i : Nat) (w : Want) (need got acc : Nat) (h : w ≠ .check) : Before i (.collect w need got acc) := by
  constructor <;> simp [h]

theorem before_align (i : Nat) (hi : i < 8) (w : Want) (need : Nat) : Before (i + 1) (align i w need) := by
  unfold align
  split
  · constructor <;> simp_all
  · constructor
    · simp
    · simp
    · intro left need' h
      simp at h
      omega

theorem before_endBlock (i : Nat) (hi : i < 8) (final : Bool) : Before (i + 1) (endBlock final i) := by
  unfold endBlock
  split
  · exact before_align i hi _ _
  · exact before_collect _ _ _ _ _ (by simp)

theorem before_doMatch (i : Nat) (rout : Bytes) (c : Codes) (len dist : Nat) : Before i (doMatch rout c len dist).mode := by
  unfold doMatch
  split
  · exact before_bad _
  · exact before_startSym _ _

theorem before_doTable (i : Nat) (d : Dyn) (rlens : List Nat) : Before i (doTable d rlens) := by
  unfold doTable
  simp only
  split
  · exact before_bad _
  · split
    · exact before_startSym _ _
    · exact before_bad _

theorem before_doLens (i : Nat) (d : Dyn) (n val : Nat) : Before i (doLens d n val) := by
  unfold doLens
  simp only
  split
  · exact before_bad _
  · split
    · exact before_doTable _ _ _
    · exact before_startSym _ _

theorem before_collected (i : Nat) (hi : i < 8) (rout : Bytes) (v : Nat) (w : Want) (hw : w ≠ .check) :
    Before (i + 1) (collected rout i v w).mode := by
  cases w <;> simp only [collected]
  case head => 
    split
    · exact before_bad _
    · split <;> exact before_collect _ _ _ _ _ (by simp)
  case dictId => exact before_bad _
  case type =>
    split
    · exact before_align i hi _ _
    · split
      · exact before_startSym _ _
      · split
        · exact before_collect _ _ _ _ _ (by simp)
        · exact before_bad _
  case storedLen =>
    split
    · exact before_bad _
    · split
      · exact before_endBlock i hi _
      · exact before_collect _ _ _ _ _ (by simp)
  case storedByte =>
    split
    · exact before_endBlock i hi _
    · exact before_collect _ _ _ _ _ (by simp)
  case table =>
    split
    · exact before_bad _
    · exact before_collect _ _ _ _ _ (by simp)
  case lenLens =>
    split
    · simp only
      split
      · exact before_startSym _ _
      · exact before_bad _
    · exact before_collect _ _ _ _ _ (by simp)
  case repeatPrev =>
    split
    · exact before_bad _
    · exact before_doLens _ _ _ _
  case repeatZero => exact before_doLens _ _ _ _
  case lenExtra => exact before_startSym _ _
  case distExtra => exact before_doMatch _ _ _ _ _
  case check => exact absurd rfl hw

theorem before_decoded (i : Nat) (hi : i < 8) (rout : Bytes) (s : Nat) (y : Sym) : Before (i + 1) (decoded rout i s y).mode := by
  cases y <;> simp only [decoded]
  case codeLen =>
    split
    · exact before_doLens _ _ _ _
    · split
      · exact before_collect _ _ _ _ _ (by simp)
      · split <;> exact before_collect _ _ _ _ _ (by simp)
  case lit =>
    split
    · exact before_startSym _ _
    · split
      · exact before_endBlock i hi _
      · split
        · exact before_bad _
        · exact before_startSym _ _
        · exact before_collect _ _ _ _ _ (by simp)
  case dist =>
    split
    · exact before_bad _
    · exact before_doMatch _ _ _ _ _
    · exact before_collect _ _ _ _ _ (by simp)

theorem before_bitStep (i : Nat) (hi : i < 8) (s : Inf) (b : Bool) (h : Before i s.mode) : Before (i + 1) (bitStep s i b).mode := by
  unfold bitStep
  split
  · rename_i e; exact absurd e h.done
  · rename_i e; rw [e]; exact before_bad _
  · rename_i left want need e
    simp only
    by_cases hw : want = .check
    · subst hw
      obtain ⟨h1, h2⟩ := h.skip left need e
      split
      · constructor <;> simp
        omega
      · constructor <;> simp
        omega
    · split
      · exact before_collect _ _ _ _ _ hw
      · constructor <;> simp [hw]
  · rename_i want need got acc e
    have hw : want ≠ .check := by
      rintro rfl
      have := h.check _ _ _ e
      omega
    simp only
    split
    · exact before_collected i hi _ _ _ hw
    · exact before_collect _ _ _ _ _ hw
  · rename_i sym _ _ _ _
    cases sym
    · exact before_doLens _ _ _ _
    · exact before_bad _
    · exact before_bad _
  · simp only
    generalize (if b = true then 1 else 0) = bb
    split
    · exact before_decoded i hi _ _ _
    · split
      · exact before_bad _
      · constructor <;> simp

theorem before_runBits : ∀ (bs : List Bool) (i : Nat), i + bs.length ≤ 8 → ∀ s : Inf, Before i s.mode →
    Before (i + bs.length) (runBits s i bs).mode := by
  intro bs
  induction bs with
  | nil => intro i _ s h; exact h
  | cons b bs ih =>
    intro i hi s h
    simp only [List.length_cons] at hi ⊢
    have := ih (i + 1) (by omega) _ (before_bitStep i (by omega) s b h)
    rw [show i + (bs.length + 1) = i + 1 + bs.length by omega]
    exact this

/-- Bits are skipped before the checksum only within a byte. -/
def Aligned (s : Inf) : Prop := ∀ left need, s.mode ≠ .skip left .check need

/-- In the checksum, or at the end. -/
def InCheck (m : Mode) : Prop := m = .done ∨ m = .bad ∨ ∃ need got acc, m = .collect .check need got acc

theorem inCheck_bitStep (s : Inf) (i : Nat) (b : Bool) (h : InCheck s.mode) :
    InCheck (bitStep s i b).mode ∧ (bitStep s i b).rout = s.rout := by
  rcases h with h | h | ⟨need, got, acc, h⟩
  · have : bitStep s i b = s := by unfold bitStep; rw [h]
    rw [this]; exact ⟨.inl h, rfl⟩
  · have : bitStep s i b = s := by unfold bitStep; rw [h]
    rw [this]; exact ⟨.inr (.inl h), rfl⟩
  · unfold bitStep
    rw [h]
    simp only
    generalize acc + (if b = true then 2 ^ got else 0) = v
    split
    · rw [collected]
      refine ⟨?_, rfl⟩
      by_cases hc : swap32 v = adler32 s.rout.reverse
      · simp only [hc, if_true]
        exact .inl rfl
      · simp only [hc, if_false]
        exact .inr (.inl rfl)
    · exact ⟨.inr (.inr ⟨_, _, _, rfl⟩), rfl⟩

theorem inCheck_runBits : ∀ (bs : List Bool) (s : Inf) (i : Nat), InCheck s.mode →
    InCheck (runBits s i bs).mode ∧ (runBits s i bs).rout = s.rout := by
  intro bs
  induction bs with
  | nil => intro s i h; exact ⟨h, rfl⟩
  | cons b bs ih =>
    intro s i h
    obtain ⟨h1, h2⟩ := inCheck_bitStep s i b h
    obtain ⟨h3, h4⟩ := ih _ (i + 1) h1
    exact ⟨h3, h4.trans h2⟩

theorem stepByte_aligned (s : Inf) (b : UInt8) (h : Aligned s) :
    Aligned (stepByte s b) ∧ ((stepByte s b).mode = .done → (stepByte s b).rout = s.rout) := by
  by_cases hc : InCheck s.mode
  · obtain ⟨h1, h2⟩ := inCheck_runBits (byteBits b) s 0 hc
    refine ⟨?_, fun _ => h2⟩
    intro left need e
    change (runBits s 0 (byteBits b)).mode = _ at e
    rw [e] at h1
    rcases h1 with h1 | h1 | ⟨_, _, _, h1⟩ <;> cases h1
  · have hb : Before 0 s.mode := by
      constructor
      · intro e; exact hc (.inl e)
      · intro need got acc e; exact absurd (.inr (.inr ⟨_, _, _, e⟩)) hc
      · intro left need e; exact absurd e (h left need)
    have h8 := before_runBits (byteBits b) 0 (by simp [byteBits]) s hb
    simp only [byteBits, List.length_cons, List.length_nil, Nat.zero_add] at h8
    refine ⟨?_, fun e => absurd e h8.done⟩
    intro left need e
    have := h8.skip left need e
    omega

theorem feed_aligned : ∀ (x : Bytes) (s : Inf), Aligned s → Aligned (feed s x) := by
  intro x
  induction x with
  | nil => intro s h; exact h
  | cons b x ih => intro s h; exact ih _ (stepByte_aligned s b h).1

theorem init_aligned : Aligned {} := by intro left need h; cases h

/-! ## Where the stream ends -/

theorem stopFrom_iff : ∀ (x : Bytes) (s : Inf) (k : Nat), stopFrom s x = some k ↔
    k ≤ x.length ∧ (feed s (x.take k)).mode = .done ∧ ∀ j < k, (feed s (x.take j)).mode ≠ .done := by
  intro x
  induction x with
  | nil =>
    intro s k
    unfold stopFrom
    constructor
    · intro h
      split at h
      · rename_i hd
        cases h
        exact ⟨Nat.le_refl _, hd, by simp⟩
      · cases h
    · rintro ⟨h1, h2, h3⟩
      have : k = 0 := by simpa using h1
      subst this
      exact if_pos h2
  | cons b x ih =>
    intro s k
    unfold stopFrom
    by_cases hd : s.mode = .done
    · rw [if_pos hd]
      constructor
      · intro h
        cases h
        exact ⟨by omega, hd, by simp⟩
      · rintro ⟨h1, h2, h3⟩
        rcases k with _ | k
        · rfl
        · exact absurd hd (h3 0 (by omega))
    · rw [if_neg hd]
      rcases k with _ | k
      · constructor
        · intro h
          rw [Option.map_eq_some_iff] at h
          obtain ⟨a, _, h⟩ := h
          omega
        · rintro ⟨_, h2, _⟩
          exact absurd h2 hd
      · constructor
        · intro h
          rw [Option.map_eq_some_iff] at h
          obtain ⟨a, ha, e⟩ := h
          obtain rfl : a = k := by omega
          obtain ⟨h1, h2, h3⟩ := (ih _ a).mp ha
          refine ⟨by simpa using h1, h2, ?_⟩
          intro j hj
          rcases j with _ | j
          · exact hd
          · exact h3 j (by omega)
        · rintro ⟨h1, h2, h3⟩
          rw [(ih _ k).mpr ⟨by simpa using h1, h2, fun j hj => h3 (j + 1) (by omega)⟩]
          rfl

theorem stopFrom_none (s : Inf) (x : Bytes) : stopFrom s x = none ↔ (feed s x).mode ≠ .done := by
  constructor
  · intro h hd
    have hex : ∃ k, k ≤ x.length ∧ (feed s (x.take k)).mode = .done := ⟨x.length, Nat.le_refl _, by rw [List.take_length]; exact hd⟩
    have : ∀ n, ∀ k ≤ n, k ≤ x.length → (feed s (x.take k)).mode ≠ .done := by
      intro n
      induction n with
      | zero =>
        intro k hk hkl hdk
        obtain rfl : k = 0 := by omega
        have := (stopFrom_iff x s 0).mpr ⟨by omega, hdk, by simp⟩
        rw [h] at this; cases this
      | succ n ih =>
        intro k hk hkl hdk
        have := (stopFrom_iff x s k).mpr ⟨hkl, hdk, fun j hj => ih j (by omega) (by omega)⟩
        rw [h] at this; cases this
    obtain ⟨k, h1, h2⟩ := hex
    exact this k k (Nat.le_refl _) h1 h2
  · intro h
    rcases hs : stopFrom s x with _ | k
    · rfl
    · obtain ⟨h1, h2, _⟩ := (stopFrom_iff x s k).mp hs
      exfalso
      apply h
      rw [← List.take_append_drop k x, feed_append, feed_done _ _ h2]
      exact h2

/-! ## Where a limit stops it -/

theorem takenFrom_le (limit : Nat) : ∀ (x : Bytes) (s : Inf), takenFrom limit s x ≤ x.length := by
  intro x
  induction x with
  | nil => intro s; simp [takenFrom]
  | cons b x ih =>
    intro s
    unfold takenFrom
    split
    · omega
    · have := ih (stepByte s b)
      simp only [List.length_cons]
      omega

theorem takenFrom_out (limit : Nat) : ∀ (x : Bytes) (s : Inf), limit < (feed s x).rout.length →
    limit ≤ (feed s (x.take (takenFrom limit s x))).rout.length := by
  intro x
  induction x with
  | nil => intro s h; simpa using Nat.le_of_lt h
  | cons b x ih =>
    intro s h
    unfold takenFrom
    split
    · rename_i hf
      unfold Inf.full at hf
      show limit ≤ s.rout.length
      simp at hf
      omega
    · exact ih _ h

theorem takenFrom_stop (limit : Nat) : ∀ (x : Bytes) (s : Inf), Aligned s → s.mode ≠ .done → limit < (feed s x).rout.length →
    (feed s (x.take (takenFrom limit s x))).mode ≠ .done := by
  intro x
  induction x with
  | nil => intro s _ hd _; exact hd
  | cons b x ih =>
    intro s ha hd h
    unfold takenFrom
    split
    · exact hd
    · rename_i hf
      obtain ⟨h1, h2⟩ := stepByte_aligned s b ha
      rw [List.take_succ_cons, feed_cons]
      refine ih _ h1 ?_ h
      intro e
      have h3 := h2 e
      rw [feed_cons, feed_done _ _ e, h3] at h
      unfold Inf.full at hf
      simp at hf
      omega

/-- The decompressor meets the contract, whatever the compressor, as long as it decompresses what the compressor emits. -/
theorem zlib_laws (c : Compressor)
    (hstop : ∀ level ds, (zlib c).stop ((zlib c).emit (c.cinit level) ds) = some ((zlib c).emit (c.cinit level) ds).length)
    (hout : ∀ level ds, (zlib c).out ((zlib c).emit (c.cinit level) ds) = ds.flatten) : ZlibLaws (zlib c) where
  out_append x y := by
    show (feed {} x).rout.reverse <+: (feed {} (x ++ y)).rout.reverse
    rw [List.reverse_prefix, feed_append]
    exact feed_suffix _ _
  stop_nil := by
    show stopFrom {} [] = none
    rw [stopFrom_none]
    intro h; cases h
  stop_le x k h := ((stopFrom_iff x {} k).mp h).1
  stop_append x y k h := by
    obtain ⟨h1, h2, h3⟩ := (stopFrom_iff x {} k).mp h
    refine (stopFrom_iff _ {} k).mpr ⟨by simp; omega, ?_, ?_⟩
    · rw [List.take_append_of_le_length h1]; exact h2
    · intro j hj
      rw [List.take_append_of_le_length (by omega)]; exact h3 j hj
  stop_out x y k h := by
    have hd : (feed {} x).mode = .done := by
      obtain ⟨h1, h2, h3⟩ := (stopFrom_iff x {} k).mp h
      rw [← List.take_append_drop k x, feed_append, feed_done _ _ h2]; exact h2
    show (feed {} (x ++ y)).rout.reverse = (feed {} x).rout.reverse
    rw [feed_append, feed_done _ _ hd]
  stop_take x k h := by
    obtain ⟨h1, h2, h3⟩ := (stopFrom_iff x {} k).mp h
    refine (stopFrom_iff _ {} k).mpr ⟨by simp; omega, ?_, ?_⟩
    · rw [List.take_take, Nat.min_self]; exact h2
    · intro j hj
      rw [List.take_take, Nat.min_eq_left (by omega)]; exact h3 j hj
  stop_good x k h := by
    have hd : (feed {} x).mode = .done := by
      obtain ⟨h1, h2, h3⟩ := (stopFrom_iff x {} k).mp h
      rw [← List.take_append_drop k x, feed_append, feed_done _ _ h2]; exact h2
    show ((feed {} x).mode == .bad) = false
    rw [hd]; rfl
  bad_append x y h := by
    have h : ((feed {} x).mode == .bad) = true := h
    rw [beq_iff_eq] at h
    show ((feed {} (x ++ y)).mode == .bad) = true
    rw [feed_append, feed_bad _ _ h, h]; rfl
  taken_le fed w lim _ := takenFrom_le _ _ _
  taken_out fed w lim h := by
    have h : lim < (feed {} (fed ++ w)).rout.reverse.length := h
    rw [List.length_reverse, feed_append] at h
    show lim ≤ (feed {} (fed ++ w.take (takenFrom lim (feed {} fed) w))).rout.reverse.length
    rw [List.length_reverse, feed_append]
    exact takenFrom_out _ _ _ h
  taken_stop fed w lim h hs := by
    have h : lim < (feed {} (fed ++ w)).rout.reverse.length := h
    rw [List.length_reverse, feed_append] at h
    have hs : stopFrom {} fed = none := hs
    show stopFrom {} (fed ++ w.take (takenFrom lim (feed {} fed) w)) = none
    rw [stopFrom_none] at hs ⊢
    rw [feed_append]
    exact takenFrom_stop _ _ _ (feed_aligned _ _ init_aligned) hs h
  emit_stop := hstop
  emit_out := hout

end GitDB.Deflate
