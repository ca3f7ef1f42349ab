import Verif.Proofs.Inflate
/-!
# A compressor that stores

The zlib format without compression (RFC 1951, 3.2.4), as emitted by zlib at level 0 with a flush after every piece: an instance of the contract
`ZlibLaws` in the real format.
-/
set_option autoImplicit false

namespace GitDB.Deflate

/-! ## Whole bytes -/

theorem byte_sum (b : UInt8) : b.toNat =
    (if b.toNat.testBit 0 then 2 ^ 0 else 0) + (if b.toNat.testBit 1 then 2 ^ 1 else 0) + (if b.toNat.testBit 2 then 2 ^ 2 else 0) +
    (if b.toNat.testBit 3 then 2 ^ 3 else 0) + (if b.toNat.testBit 4 then 2 ^ 4 else 0) + (if b.toNat.testBit 5 then 2 ^ 5 else 0) +
    (if b.toNat.testBit 6 then 2 ^ 6 else 0) + (if b.toNat.testBit 7 then 2 ^ 7 else 0) := by
  have key : ∀ n : Fin 256, n.val =
    (if n.val.testBit 0 then 2 ^ 0 else 0) + (if n.val.testBit 1 then 2 ^ 1 else 0) + (if n.val.testBit 2 then 2 ^ 2 else 0) +
    (if n.val.testBit 3 then 2 ^ 3 else 0) + (if n.val.testBit 4 then 2 ^ 4 else 0) + (if n.val.testBit 5 then 2 ^ 5 else 0) +
    (if n.val.testBit 6 then 2 ^ 6 else 0) + (if n.val.testBit 7 then 2 ^ 7 else 0) := by decide +kernel
  exact key ⟨b.toNat, b.toNat_lt⟩

theorem bitStep_collect (rout : Bytes) (w : Want) (need got acc i : Nat) (b : Bool) (h : got + 1 < need) :
    bitStep ⟨rout, .collect w need got acc⟩ i b = ⟨rout, .collect w need (got + 1) (acc + if b then 2 ^ got else 0)⟩ := by
  unfold bitStep
  simp only
  rw [if_neg (by omega)]

theorem bitStep_collected (rout : Bytes) (w : Want) (need got acc i : Nat) (b : Bool) (h : got + 1 = need) :
    bitStep ⟨rout, .collect w need got acc⟩ i b = collected rout i (acc + if b then 2 ^ got else 0) w := by
  unfold bitStep
  simp only
  rw [if_pos h]

theorem shifted (b : Bool) (got i : Nat) : (if b then 2 ^ (got + i) else 0) = 2 ^ got * (if b then 2 ^ i else 0) := by
  cases b <;> simp [Nat.pow_add]

theorem bits_value (b : UInt8) (got acc : Nat) :
    acc + (if b.toNat.testBit 0 then 2 ^ got else 0) + (if b.toNat.testBit 1 then 2 ^ (got + 1) else 0) +
      (if b.toNat.testBit 2 then 2 ^ (got + 2) else 0) + (if b.toNat.testBit 3 then 2 ^ (got + 3) else 0) +
      (if b.toNat.testBit 4 then 2 ^ (got + 4) else 0) + (if b.toNat.testBit 5 then 2 ^ (got + 5) else 0) +
      (if b.toNat.testBit 6 then 2 ^ (got + 6) else 0) + (if b.toNat.testBit 7 then 2 ^ (got + 7) else 0) = acc + 2 ^ got * b.toNat := by
  rw [show (if b.toNat.testBit 0 = true then 2 ^ got else 0) = 2 ^ got * (if b.toNat.testBit 0 = true then 2 ^ 0 else 0) from shifted _ got 0,
    shifted _ got 1, shifted _ got 2, shifted _ got 3, shifted _ got 4, shifted _ got 5, shifted _ got 6, shifted _ got 7]
  conv => rhs; rw [byte_sum b]
  simp only [Nat.mul_add]
  omega

/-- A byte that does not complete what is wanted. -/
theorem stepByte_collect (rout : Bytes) (w : Want) (need got acc : Nat) (b : UInt8) (h : got + 8 < need) :
    stepByte ⟨rout, .collect w need got acc⟩ b = ⟨rout, .collect w need (got + 8) (acc + 2 ^ got * b.toNat)⟩ := by
  unfold stepByte byteBits
  simp only [runBits]
  rw [bitStep_collect _ _ _ _ _ _ _ (by omega), bitStep_collect _ _ _ _ _ _ _ (by omega), bitStep_collect _ _ _ _ _ _ _ (by omega),
    bitStep_collect _ _ _ _ _ _ _ (by omega), bitStep_collect _ _ _ _ _ _ _ (by omega), bitStep_collect _ _ _ _ _ _ _ (by omega),
    bitStep_collect _ _ _ _ _ _ _ (by omega), bitStep_collect _ _ _ _ _ _ _ (by omega), ← bits_value]

/-- A byte that completes it. -/
theorem stepByte_collected (rout : Bytes) (w : Want) (need got acc : Nat) (b : UInt8) (h : got + 8 = need) :
    stepByte ⟨rout, .collect w need got acc⟩ b = collected rout 7 (acc + 2 ^ got * b.toNat) w := by
  unfold stepByte byteBits
  simp only [runBits]
  rw [bitStep_collect _ _ _ _ _ _ _ (by omega), bitStep_collect _ _ _ _ _ _ _ (by omega), bitStep_collect _ _ _ _ _ _ _ (by omega),
    bitStep_collect _ _ _ _ _ _ _ (by omega), bitStep_collect _ _ _ _ _ _ _ (by omega), bitStep_collect _ _ _ _ _ _ _ (by omega),
    bitStep_collect _ _ _ _ _ _ _ (by omega), bitStep_collected _ _ _ _ _ _ _ (by omega), ← bits_value]

/-- Four bytes. -/
theorem feed_four (rout : Bytes) (w : Want) (a b c d : UInt8) :
    feed ⟨rout, .collect w 32 0 0⟩ [a, b, c, d] =
      collected rout 7 (a.toNat + 256 * b.toNat + 65536 * c.toNat + 16777216 * d.toNat) w := by
  simp only [feed_cons]
  rw [stepByte_collect _ _ _ _ _ _ (by omega), stepByte_collect _ _ _ _ _ _ (by omega), stepByte_collect _ _ _ _ _ _ (by omega),
    stepByte_collected _ _ _ _ _ _ (by omega)]
  show collected _ _ _ _ = _
  congr 1
  simp

/-- The bytes of a stored block. -/
theorem feed_stored (final : Bool) : ∀ (x rout : Bytes), x ≠ [] →
    feed ⟨rout, .collect (.storedByte final x.length) 8 0 0⟩ x = ⟨x.reverse ++ rout, endBlock final 7⟩ := by
  intro x
  induction x with
  | nil => intro _ h; exact absurd rfl h
  | cons b x ih =>
    intro rout _
    rw [feed_cons, stepByte_collected _ _ _ _ _ _ (by omega)]
    have hb : UInt8.ofNat (0 + 2 ^ 0 * b.toNat) = b := by simp
    rw [collected, hb]
    rcases x with _ | ⟨c, x⟩
    · simp [feed]
    · rw [if_neg (by simp)]
      have := ih (b :: rout) (by simp)
      simp only [List.length_cons, Nat.add_sub_cancel] at this ⊢
      rw [this]
      simp

/-! ## The compressor -/

/-- Two bytes, little-endian. -/
def le2 (n : Nat) : Bytes := [UInt8.ofNat n, UInt8.ofNat (n / 256)]

/-- A stored block that is not the last one. -/
def storedBlock (x : Bytes) : Bytes := 0 :: (le2 x.length ++ le2 (65535 - x.length)) ++ x

/-- Stored blocks for some data. -/
def storedBlocks (x : Bytes) : Bytes :=
  if _h : x = [] then []
  else storedBlock (x.take 65535) ++ storedBlocks (x.drop 65535)
termination_by x.length
decreasing_by
  have := List.length_pos_iff.mpr _h
  simp only [List.length_drop]
  omega

/-- Four bytes, big-endian. -/
def be4 (n : Nat) : Bytes := [UInt8.ofNat (n / 16777216), UInt8.ofNat (n / 65536), UInt8.ofNat (n / 256), UInt8.ofNat n]

/-- The beginning, if it was not emitted before. -/
def zhead (started : Bool) : Bytes := if started then [] else [0x78, 0x01]

/-- A compressor that stores: the state is whether it has begun, and the data so far. -/
def storing : Compressor where
  Comp := Bool × Bytes
  cinit := fun _ => (false, [])
  ccompress := fun c d => ((true, c.2 ++ d), zhead c.1 ++ storedBlocks d)
  cflush := fun c => zhead c.1 ++ 1 :: (le2 0 ++ le2 65535) ++ be4 (adler32 c.2)

/-- A library in the real format. -/
def storedZlib : Zlib := zlib storing

/-! ## Its output is decompressed -/

theorem feed_type_stored (rout : Bytes) : stepByte ⟨rout, .collect .type 3 0 0⟩ 0 = ⟨rout, .collect (.storedLen false) 32 0 0⟩ := rfl

theorem feed_type_last (rout : Bytes) : stepByte ⟨rout, .collect .type 3 0 0⟩ 1 = ⟨rout, .collect (.storedLen true) 32 0 0⟩ := rfl

theorem feed_head (rout : Bytes) : feed ⟨rout, .collect .head 16 0 0⟩ [0x78, 0x01] = ⟨rout, .collect .type 3 0 0⟩ := by
  simp only [feed_cons]
  rw [stepByte_collect _ _ _ _ _ _ (by omega), stepByte_collected _ _ _ _ _ _ (by omega)]
  rw [show (0 + 2 ^ 0 * (0x78 : UInt8).toNat + 2 ^ (0 + 8) * (0x01 : UInt8).toNat) = 376 by decide, collected]
  rw [if_neg (by decide), if_neg (by decide)]
  rfl

theorem le2_value (n : Nat) (h : n < 65536) : (UInt8.ofNat n).toNat + 256 * (UInt8.ofNat (n / 256)).toNat = n := by
  simp only [UInt8.toNat_ofNat']
  omega

theorem feed_storedLen (rout : Bytes) (final : Bool) (n : Nat) (h : n ≤ 65535) :
    feed ⟨rout, .collect (.storedLen final) 32 0 0⟩ (le2 n ++ le2 (65535 - n)) =
      if n = 0 then ⟨rout, endBlock final 7⟩ else ⟨rout, .collect (.storedByte final n) 8 0 0⟩ := by
  have h1 := le2_value n (by omega)
  have h2 := le2_value (65535 - n) (by omega)
  show feed _ [_, _, _, _] = _
  rw [feed_four]
  rw [show ∀ a b c d : Nat, a + 256 * b + 65536 * c + 16777216 * d = (a + 256 * b) + 65536 * (c + 256 * d) by intros; omega, h1, h2]
  rw [collected, if_neg (by omega)]
  rw [show (n + 65536 * (65535 - n)) % 65536 = n by omega]

theorem feed_storedBlock (rout x : Bytes) (h0 : x ≠ []) (h : x.length ≤ 65535) :
    feed ⟨rout, .collect .type 3 0 0⟩ (storedBlock x) = ⟨x.reverse ++ rout, .collect .type 3 0 0⟩ := by
  have hl := List.length_pos_iff.mpr h0
  unfold storedBlock
  rw [List.cons_append, feed_cons, feed_type_stored, feed_append, feed_storedLen _ _ _ h, if_neg (by omega), feed_stored _ _ _ h0]
  rfl

theorem feed_storedBlocks : ∀ (n : Nat) (x : Bytes), x.length ≤ n → ∀ rout,
    feed ⟨rout, .collect .type 3 0 0⟩ (storedBlocks x) = ⟨x.reverse ++ rout, .collect .type 3 0 0⟩ := by
  intro n
  induction n with
  | zero =>
    intro x h rout
    have : x = [] := by simpa using h
    subst this
    rw [storedBlocks]
    rfl
  | succ n ih =>
    intro x h rout
    rw [storedBlocks]
    split
    · rename_i h0
      subst h0
      rfl
    · rename_i h0
      have hl := List.length_pos_iff.mpr h0
      rw [feed_append, feed_storedBlock _ _ (by simpa using h0) (by simp; omega), ih _ (by simp; omega)]
      congr 1
      rw [← List.append_assoc, ← List.reverse_append, List.take_append_drop]

theorem adler_fold (x : Bytes) : ∀ (ab : Nat × Nat), ab.1 < 65521 → ab.2 < 65521 →
    (x.foldl (fun (ab : Nat × Nat) c => let a := (ab.1 + c.toNat) % 65521; (a, (ab.2 + a) % 65521)) ab).1 < 65521 ∧
    (x.foldl (fun (ab : Nat × Nat) c => let a := (ab.1 + c.toNat) % 65521; (a, (ab.2 + a) % 65521)) ab).2 < 65521 := by
  induction x with
  | nil => intro ab h1 h2; exact ⟨h1, h2⟩
  | cons c x ih =>
    intro ab h1 h2
    rw [List.foldl_cons]
    exact ih _ (Nat.mod_lt _ (by omega)) (Nat.mod_lt _ (by omega))

theorem adler32_lt (x : Bytes) : adler32 x < 4294967296 := by
  have := adler_fold x (1, 0) (by decide) (by decide)
  unfold adler32
  show _ * 65536 + _ < _
  revert this
  generalize (List.foldl _ (1, 0) x : Nat × Nat) = r
  intro this
  omega

theorem swap_be4 (n : Nat) (h : n < 4294967296) :
    swap32 ((UInt8.ofNat (n / 16777216)).toNat + 256 * (UInt8.ofNat (n / 65536)).toNat + 65536 * (UInt8.ofNat (n / 256)).toNat +
      16777216 * (UInt8.ofNat n).toNat) = n := by
  simp only [UInt8.toNat_ofNat']
  generalize ha : n / 16777216 % 2 ^ 8 = a
  generalize hb : n / 65536 % 2 ^ 8 = b
  generalize hc : n / 256 % 2 ^ 8 = c
  generalize hd : n % 2 ^ 8 = d
  have h1 : a < 256 ∧ b < 256 ∧ c < 256 ∧ d < 256 ∧ n = a * 16777216 + b * 65536 + c * 256 + d := by omega
  clear ha hb hc hd
  obtain ⟨ha, hb, hc, hd, e⟩ := h1
  unfold swap32
  rw [show (a + 256 * b + 65536 * c + 16777216 * d) % 256 = a by omega,
    show (a + 256 * b + 65536 * c + 16777216 * d) / 256 = b + 256 * c + 65536 * d by omega,
    show (a + 256 * b + 65536 * c + 16777216 * d) / 65536 = c + 256 * d by omega,
    show (a + 256 * b + 65536 * c + 16777216 * d) / 16777216 = d by omega,
    show (b + 256 * c + 65536 * d) % 256 = b by omega, show (c + 256 * d) % 256 = c by omega]
  omega

theorem feed_check (rout : Bytes) : feed ⟨rout, .collect .check 32 0 0⟩ (be4 (adler32 rout.reverse)) = ⟨rout, .done⟩ := by
  unfold be4
  rw [feed_four, collected, if_pos (swap_be4 _ (adler32_lt _))]

/-- What the machine is after `zhead`. -/
theorem feed_zhead (started : Bool) (rout : Bytes) (h : started = false → rout = []) :
    feed (if started then ⟨rout, .collect .type 3 0 0⟩ else {}) (zhead started) = ⟨rout, .collect .type 3 0 0⟩ := by
  cases started
  · rw [h rfl]; exact feed_head []
  · rfl

/-- All but the last byte of the checksum leaves the machine in the checksum. -/
theorem feed_emit : ∀ (ds : List Bytes) (c : Bool × Bytes), (c.1 = false → c.2 = []) →
    feed (if c.1 then ⟨c.2.reverse, .collect .type 3 0 0⟩ else {}) (storedZlib.emit c ds) = ⟨ds.flatten.reverse ++ c.2.reverse, .done⟩ := by
  intro ds
  induction ds with
  | nil =>
    intro c hc
    show feed _ (zhead c.1 ++ 1 :: (le2 0 ++ le2 65535) ++ be4 (adler32 c.2)) = _
    rw [List.append_assoc, feed_append, feed_zhead _ _ (fun h => by rw [hc h]; rfl), List.cons_append, feed_cons, feed_type_last, feed_append,
      feed_storedLen _ _ 0 (by omega), if_pos rfl]
    have := feed_check c.2.reverse
    rw [List.reverse_reverse] at this
    exact this
  | cons d ds ih =>
    intro c hc
    show feed _ ((zhead c.1 ++ storedBlocks d) ++ storedZlib.emit (true, c.2 ++ d) ds) = _
    rw [feed_append, feed_append, feed_zhead _ _ (fun h => by rw [hc h]; rfl), feed_storedBlocks _ _ (Nat.le_refl _)]
    have := ih (true, c.2 ++ d) (by simp)
    simp only [if_true, List.reverse_append] at this
    rw [this]
    simp

theorem stop_of_last (x : Bytes) (b : UInt8) (hd : (feed {} (x ++ [b])).mode = .done) (hn : (feed {} x).mode ≠ .done) :
    stopFrom {} (x ++ [b]) = some (x ++ [b]).length := by
  refine (stopFrom_iff _ _ _).mpr ⟨Nat.le_refl _, by rw [List.take_length]; exact hd, ?_⟩
  intro j hj e
  apply hn
  have hj : j ≤ x.length := by simp at hj; omega
  rw [List.take_append_of_le_length hj] at e
  rw [← List.take_append_drop j x, feed_append, feed_done _ _ e]
  exact e

theorem emit_last : ∀ (ds : List Bytes) (c : Bool × Bytes), (c.1 = false → c.2 = []) → ∃ x b, storedZlib.emit c ds = x ++ [b] ∧
    (feed (if c.1 then ⟨c.2.reverse, .collect .type 3 0 0⟩ else {}) x).mode ≠ .done := by
  intro ds
  induction ds with
  | nil =>
    intro c hc
    refine ⟨zhead c.1 ++ 1 :: (le2 0 ++ le2 65535) ++ (be4 (adler32 c.2)).take 3, UInt8.ofNat (adler32 c.2), ?_, ?_⟩
    · show zhead c.1 ++ 1 :: (le2 0 ++ le2 65535) ++ be4 (adler32 c.2) = _
      rw [List.append_assoc (zhead c.1 ++ _) _ [_]]
      rfl
    · rw [List.append_assoc, feed_append, feed_zhead _ _ (fun h => by rw [hc h]; rfl), List.cons_append, feed_cons, feed_type_last, feed_append,
        feed_storedLen _ _ 0 (by omega), if_pos rfl]
      show (feed ⟨_, .collect .check 32 0 0⟩ [_, _, _]).mode ≠ _
      simp only [feed_cons]
      rw [stepByte_collect _ _ _ _ _ _ (by omega), stepByte_collect _ _ _ _ _ _ (by omega), stepByte_collect _ _ _ _ _ _ (by omega)]
      intro h; cases h
  | cons d ds ih =>
    intro c hc
    obtain ⟨x, b, h1, h2⟩ := ih (true, c.2 ++ d) (by simp)
    refine ⟨(zhead c.1 ++ storedBlocks d) ++ x, b, ?_, ?_⟩
    · show (zhead c.1 ++ storedBlocks d) ++ storedZlib.emit (true, c.2 ++ d) ds = _
      rw [h1, List.append_assoc, List.append_assoc, List.append_assoc]
    · rw [feed_append, feed_append, feed_zhead _ _ (fun h => by rw [hc h]; rfl), feed_storedBlocks _ _ (Nat.le_refl _)]
      simp only [if_true, List.reverse_append] at h2
      exact h2

/-- The contract holds for a library in the real format. -/
theorem storedZlib_laws : ZlibLaws storedZlib := by
  refine zlib_laws storing ?_ ?_
  · intro level ds
    show stopFrom {} (storedZlib.emit (false, []) ds) = some (storedZlib.emit (false, []) ds).length
    obtain ⟨x, b, h1, h2⟩ := emit_last ds (false, []) (fun _ => rfl)
    have h3 := feed_emit ds (false, []) (fun _ => rfl)
    rw [h1] at h3 ⊢
    exact stop_of_last x b (by rw [show feed {} (x ++ [b]) = _ from h3]) h2
  · intro level ds
    have h3 := feed_emit ds (false, []) (fun _ => rfl)
    show (feed {} (storedZlib.emit (false, []) ds)).rout.reverse = _
    rw [show feed {} (storedZlib.emit (false, []) ds) = _ from h3]
    simp

/-! ## What is taken when there is no room -/

theorem feed_stored_some (final : Bool) : ∀ (a rout : Bytes) (left : Nat), a.length < left →
    feed ⟨rout, .collect (.storedByte final left) 8 0 0⟩ a = ⟨a.reverse ++ rout, .collect (.storedByte final (left - a.length)) 8 0 0⟩ := by
  intro a
  induction a with
  | nil => intro rout left _; rfl
  | cons b a ih =>
    intro rout left h
    rw [List.length_cons] at h
    rw [feed_cons, stepByte_collected _ _ _ _ _ _ (by omega)]
    have hb : UInt8.ofNat (0 + 2 ^ 0 * b.toNat) = b := by simp
    rw [collected, hb, if_neg (by omega), ih _ _ (by omega)]
    simp only [List.reverse_cons, List.append_assoc, List.singleton_append, List.length_cons]
    rw [show left - 1 - a.length = left - (a.length + 1) by omega]

theorem takenFrom_exact (limit : Nat) : ∀ (a b : Bytes) (s : Inf), (∀ j, j < a.length → (feed s (a.take j)).full limit = false) →
    (feed s a).full limit = true → takenFrom limit s (a ++ b) = a.length := by
  intro a
  induction a with
  | nil =>
    intro b s _ h
    cases b with
    | nil => rfl
    | cons c b => simp only [List.nil_append, takenFrom]; rw [if_pos (by simpa [feed] using h)]; simp
  | cons c a ih =>
    intro b s h1 h2
    have h0 := h1 0 (by simp)
    simp only [List.take_zero, feed, List.foldl_nil] at h0
    rw [List.cons_append, takenFrom, h0]
    rw [if_neg (by simp), ih b (stepByte s c) (fun j hj => by
      have := h1 (j + 1) (by simpa using hj)
      rwa [List.take_succ_cons, feed_cons] at this) (by rwa [feed_cons] at h2)]
    simp

/-- Nothing is taken once there is no room. -/
theorem takenFrom_least (limit : Nat) : ∀ (x : Bytes) (s : Inf) (j : Nat), j < takenFrom limit s x → (feed s (x.take j)).full limit = false := by
  intro x
  induction x with
  | nil => intro s j h; simp [takenFrom] at h
  | cons b x ih =>
    intro s j h
    rw [takenFrom] at h
    by_cases hf : s.full limit = true
    · rw [if_pos hf] at h; omega
    · rw [if_neg hf] at h
      cases j with
      | zero => simpa [feed] using hf
      | succ j => rw [List.take_succ_cons, feed_cons]; exact ih _ _ (by omega)

/-- The beginning of a stream with one stored block. -/
def storedHead (n : Nat) : Bytes := [0x78, 0x01, 1] ++ (le2 n ++ le2 (65535 - n))

theorem feed_storedHead (n : Nat) (h0 : 0 < n) (h : n ≤ 65535) : feed {} (storedHead n) = ⟨[], .collect (.storedByte true n) 8 0 0⟩ := by
  have : storedHead n = [0x78, 0x01] ++ ([1] ++ (le2 n ++ le2 (65535 - n))) := rfl
  rw [this, feed_append, feed_head [], feed_append]
  rw [show feed ⟨[], .collect .type 3 0 0⟩ [1] = ⟨[], .collect (.storedLen true) 32 0 0⟩ from feed_type_last [], feed_storedLen _ _ _ h, if_neg (by omega)]

theorem storedHead_none (n j : Nat) (h0 : 0 < n) (h : n ≤ 65535) : (feed {} ((storedHead n).take j)).rout = [] := by
  have h1 := feed_suffix ((storedHead n).drop j) (feed {} ((storedHead n).take j))
  rw [← feed_append, List.take_append_drop, feed_storedHead n h0 h] at h1
  exact List.suffix_nil.1 h1

theorem stored_taken (x rest : Bytes) (n : Nat) (h0 : 0 < n) (hn : n < x.length) (hx : x.length ≤ 65535) :
    takenFrom n {} (storedHead x.length ++ (x ++ rest)) = 7 + n := by
  have hl : (storedHead x.length).length = 7 := rfl
  have hfull : ∀ k, k ≤ n → feed {} (storedHead x.length ++ x.take k) = ⟨(x.take k).reverse, .collect (.storedByte true (x.length - k)) 8 0 0⟩ := by
    intro k hk
    have hk' : (x.take k).length = k := by rw [List.length_take]; omega
    rw [feed_append, feed_storedHead _ (by omega) hx, feed_stored_some _ _ _ _ (by omega), hk', List.append_nil]
  have e : storedHead x.length ++ (x ++ rest) = (storedHead x.length ++ x.take n) ++ (x.drop n ++ rest) := by
    simp only [List.append_assoc]
    rw [← List.append_assoc (x.take n), List.take_append_drop]
  rw [e, takenFrom_exact]
  · rw [List.length_append, hl, List.length_take]
    have : min n x.length = n := by omega
    rw [this]
  · intro j hj
    rw [List.length_append, hl, List.length_take] at hj
    rw [List.take_append, hl]
    have hlt : (feed {} ((storedHead x.length).take j ++ (x.take n).take (j - 7))).rout.length < n := by
      by_cases hj7 : j ≤ 7
      · rw [show j - 7 = 0 by omega, List.take_zero, List.append_nil, storedHead_none _ _ (by omega) hx]
        exact h0
      · rw [List.take_of_length_le (by omega), List.take_take, show min (j - 7) n = j - 7 by omega, hfull _ (by omega)]
        rw [List.length_reverse, List.length_take]
        omega
    unfold Inf.full
    simp only [Bool.or_eq_false_iff, decide_eq_false_iff_not, Bool.and_eq_false_iff, beq_eq_false_iff_ne]
    exact ⟨by omega, .inl (by omega)⟩
  · rw [hfull n (Nat.le_refl _)]
    simp only [Inf.full, Mode.copying, List.length_reverse, List.length_take]
    simp
    omega

end GitDB.Deflate
