import Verif.Proofs.Index
/-!
# Reading index files in git's formats
-/
set_option autoImplicit false

namespace GitDB
open Spec

theorem fanoutTable_length (names : List Bytes) : (fanoutTable names).length = 256 := by
  simp [fanoutTable]

theorem fanoutTable_get (names : List Bytes) (k : Nat) (h : k < (fanoutTable names).length) :
    (fanoutTable names)[k] = names.countP (firstLe k) := by
  simp [fanoutTable]

theorem fanoutTable_getD (names : List Bytes) (k : Nat) (h : k < 256) :
    (fanoutTable names).getD k 0 = names.countP (firstLe k) := by
  have hl : k < (fanoutTable names).length := by rw [fanoutTable_length]; exact h
  rw [List.getD_eq_getElem?_getD, List.getElem?_eq_getElem hl, Option.getD_some, fanoutTable_get]

theorem firstLe_255 (name : Bytes) : firstLe 255 name = true := by
  cases name with
  | nil => rfl
  | cons b t =>
    have : b.toNat < 256 := b.toNat_lt
    simp only [firstLe, decide_eq_true_eq]; omega

theorem countP_firstLe_255 (names : List Bytes) : names.countP (firstLe 255) = names.length := by
  rw [List.countP_eq_length]
  intro a _
  exact firstLe_255 a

theorem fanoutTable_lt (names : List Bytes) (h : names.length < 2 ^ 32) :
    ∀ a ∈ fanoutTable names, a < 2 ^ 32 := by
  intro a ha
  simp only [fanoutTable, List.mem_map] at ha
  obtain ⟨k, _, rfl⟩ := ha
  exact Nat.lt_of_le_of_lt List.countP_le_length h

theorem readFanout_spec (names : List Bytes) (h : names.length < 2 ^ 32) (pre post : Bytes) (off : Nat)
    (ho : off = pre.length) :
    readFanout (pre ++ (fanoutTable names).flatMap u32 ++ post) off = .ok (fanoutTable names) := by
  unfold readFanout
  rw [mapM_ok _ (fun k => names.countP (firstLe k))]
  · rfl
  · intro k hk
    have hl : k < (fanoutTable names).length := by rw [fanoutTable_length]; simpa using hk
    have := unpackL_block (fun a => a) (fanoutTable names) (fanoutTable_lt names h) k hl pre post off ho
    rw [fanoutTable_get] at this
    exact this

theorem unpackL_at (pre post : Bytes) (n : Nat) (h : n < 2 ^ 32) (off : Nat) (ho : off = pre.length) :
    unpackL (pre ++ u32 n ++ post) off = .ok n := by
  have := unpackL_block (fun a => a) [n] (by simpa using h) 0 (by simp) pre post off ho
  simpa using this

theorem zipIdx_get {α : Type} (l : List α) (i : Nat) (h : i < l.zipIdx.length) :
    l.zipIdx[i] = (l[i]'(by simpa using h), i) := by simp

theorem filter_get {α : Type} (P : α → Bool) : ∀ (l : List α) (i : Nat) (h : i < l.length),
    P l[i] = true → ∃ h' : (l.take i).countP P < (l.filter P).length,
      (l.filter P)[(l.take i).countP P] = l[i]
  | [], i, h, _ => absurd h (by simp)
  | a :: l, 0, h, hp => by
    simp only [List.getElem_cons_zero] at hp
    simp [hp]
  | a :: l, i + 1, h, hp => by
    obtain ⟨h1, h2⟩ := filter_get P l i (by simpa using h) (by simpa using hp)
    by_cases ha : P a = true
    · simp [ha, h2]; simpa using h1
    · simp [ha, h2]; simpa using h1

theorem and_high_bit (v : Nat) (h : v < 2 ^ 32) : v &&& 0x80000000 ≠ 0 ↔ 2 ^ 31 ≤ v := by
  have hb : v.testBit 31 = decide (2 ^ 31 ≤ v) := by
    rw [Nat.testBit_eq_decide_div_mod_eq]
    congr 1
    apply propext
    omega
  have key : (v &&& 0x80000000) = 0 ↔ v.testBit 31 = false := by
    constructor
    · intro h0
      have := congrArg (Nat.testBit · 31) h0
      simp only [Nat.testBit_and, Nat.zero_testBit] at this
      rw [show Nat.testBit 0x80000000 31 = true by decide, Bool.and_true] at this
      exact this
    · intro h0
      apply Nat.eq_of_testBit_eq
      intro i
      rw [Nat.testBit_and, Nat.zero_testBit, show (0x80000000 : Nat) = 2 ^ 31 from rfl, Nat.testBit_two_pow]
      by_cases hi : 31 = i
      · subst hi; simp [h0]
      · simp [hi]
  rw [Ne, key, hb]
  simp

/-! ## Version 2 -/

/-- The state after opening a version 2 file. -/
def v2File (es : List Entry) (packSha idxSha : Bytes) : IndexFile :=
  { map := indexV2 es packSha idxSha, version := 2, fanout := fanoutTable (es.map Entry.name),
    crcOff := 1032 + es.length * 20, packOff := 1032 + es.length * 20 + es.length * 4,
    pack64Off := 1032 + es.length * 20 + es.length * 4 + es.length * 4 }

theorem fan_bytes_length (names : List Bytes) : ((fanoutTable names).flatMap u32).length = 1024 := by
  rw [flatMap_length_const _ 4 _ (fun _ _ => rfl), fanoutTable_length]

theorem v2_load (es : List Entry) (packSha idxSha : Bytes) (hv : ValidV2 es) :
    IndexFile.load (indexV2 es packSha idxSha) = .ok (v2File es packSha idxSha) := by
  have h4 : (indexV2 es packSha idxSha).take 4 = [0xff, 0x74, 0x4f, 0x63] := by
    simp [indexV2]
  have hver : unpackL (indexV2 es packSha idxSha) 4 = .ok 2 := by
    have : indexV2 es packSha idxSha = [255, 116, 79, 99] ++ u32 2 ++
      ((indexV2 es packSha idxSha).drop 8) := by
      simp [indexV2, u32]
    rw [this]
    exact unpackL_at _ _ 2 (by omega) 4 rfl
  have hfan : readFanout (indexV2 es packSha idxSha) 8 = .ok (fanoutTable (es.map Entry.name)) := by
    have := readFanout_spec (es.map Entry.name) (by simpa using hv.count) ([255, 116, 79, 99] ++ u32 2)
      ((es.map Entry.name).flatten ++
        (es.map Entry.crc).flatMap u32 ++
        es.zipIdx.flatMap (fun p => u32 (ofsField es p.1 p.2)) ++
        (es.filter isLarge).flatMap (fun e => u64 e.ofs) ++ packSha ++ idxSha) 8 rfl
    rw [← this]
    simp only [indexV2, List.append_assoc]
  unfold IndexFile.load
  simp only [h4, if_true, hver, hfan]
  rw [fanoutTable_getD _ _ (by omega), countP_firstLe_255, List.length_map]
  rfl

theorem v2_names_length (es : List Entry) (hv : ∀ e ∈ es, e.name.length = 20) :
    ((es.map Entry.name).flatten).length = es.length * 20 :=
  flatMap_length_const Entry.name 20 es hv

theorem v2_crc_length (es : List Entry) : ((es.map Entry.crc).flatMap u32).length = es.length * 4 := by
  rw [flatMap_length_const _ 4 _ (fun _ _ => rfl), List.length_map]

theorem v2_ofs_length (es : List Entry) :
    (es.zipIdx.flatMap (fun p => u32 (ofsField es p.1 p.2))).length = es.length * 4 := by
  rw [flatMap_length_const _ 4 _ (fun _ _ => rfl), List.length_zipIdx]

theorem v2_size (es : List Entry) (packSha idxSha : Bytes) :
    (v2File es packSha idxSha).size = es.length := by
  unfold IndexFile.size v2File
  simp only
  rw [fanoutTable_getD _ _ (by omega), countP_firstLe_255, List.length_map]

theorem v2_sha (es : List Entry) (packSha idxSha : Bytes) (hv : ValidV2 es) (i : Nat)
    (h : i < es.length) : (v2File es packSha idxSha).sha i = es[i].name := by
  unfold IndexFile.sha v2File
  simp only [if_true]
  have := pySlice_block Entry.name 20 es hv.name_len i h
    ([255, 116, 79, 99] ++ u32 2 ++ (fanoutTable (es.map Entry.name)).flatMap u32)
    ((es.map Entry.crc).flatMap u32 ++
      es.zipIdx.flatMap (fun p => u32 (ofsField es p.1 p.2)) ++
      (es.filter isLarge).flatMap (fun e => u64 e.ofs) ++ packSha ++ idxSha) shaListOff
    (by rw [List.length_append, fan_bytes_length]; rfl)
  have e : indexV2 es packSha idxSha =
      ([255, 116, 79, 99] ++ u32 2 ++ (fanoutTable (es.map Entry.name)).flatMap u32) ++
      es.flatMap Entry.name ++ ((es.map Entry.crc).flatMap u32 ++
      es.zipIdx.flatMap (fun p => u32 (ofsField es p.1 p.2)) ++
      (es.filter isLarge).flatMap (fun e => u64 e.ofs) ++ packSha ++ idxSha) := by
    simp only [indexV2, List.append_assoc, List.flatMap_def]
  rw [e]
  exact this

theorem v2_crc (es : List Entry) (packSha idxSha : Bytes) (hv : ValidV2 es) (i : Nat)
    (h : i < es.length) : (v2File es packSha idxSha).crc i = .ok es[i].crc := by
  unfold IndexFile.crc v2File
  simp only [if_true]
  have := unpackL_block Entry.crc es hv.crc_lt i h
    ([255, 116, 79, 99] ++ u32 2 ++ (fanoutTable (es.map Entry.name)).flatMap u32 ++
      (es.map Entry.name).flatten)
    (es.zipIdx.flatMap (fun p => u32 (ofsField es p.1 p.2)) ++
      (es.filter isLarge).flatMap (fun e => u64 e.ofs) ++ packSha ++ idxSha) (1032 + es.length * 20)
    (by rw [List.length_append, List.length_append, fan_bytes_length, v2_names_length es hv.name_len]; rfl)
  have e : indexV2 es packSha idxSha = ([255, 116, 79, 99] ++ u32 2 ++
      (fanoutTable (es.map Entry.name)).flatMap u32 ++ (es.map Entry.name).flatten) ++
      es.flatMap (fun e => u32 e.crc) ++ (es.zipIdx.flatMap (fun p => u32 (ofsField es p.1 p.2)) ++
      (es.filter isLarge).flatMap (fun e => u64 e.ofs) ++ packSha ++ idxSha) := by
    simp only [indexV2, List.append_assoc, List.flatMap_map]
  rw [e]
  exact this

theorem ofsField_lt (es : List Entry) (hv : ValidV2 es) (i : Nat) (h : i < es.length) :
    ofsField es es[i] i < 2 ^ 32 := by
  unfold ofsField
  split
  · rename_i hl
    obtain ⟨h1, _⟩ := filter_get isLarge es i h hl
    rw [← List.countP_eq_length_filter] at h1
    have := hv.large
    omega
  · rename_i hl
    simp only [isLarge, decide_eq_true_eq] at hl
    omega

theorem v2_offset (es : List Entry) (packSha idxSha : Bytes) (hv : ValidV2 es) (i : Nat)
    (h : i < es.length) : (v2File es packSha idxSha).offset i = .ok es[i].ofs := by
  have h1 : unpackL (indexV2 es packSha idxSha) (1032 + es.length * 20 + es.length * 4 + i * 4) =
      .ok (ofsField es es[i] i) := by
    have := unpackL_block (fun p : Entry × Nat => ofsField es p.1 p.2) es.zipIdx
      (by
        intro p hp
        obtain ⟨j, hj, he⟩ := List.mem_iff_getElem.1 hp
        rw [zipIdx_get] at he
        rw [← he]
        exact ofsField_lt es hv j (by simpa using hj)) i (by simpa using h)
      ([255, 116, 79, 99] ++ u32 2 ++ (fanoutTable (es.map Entry.name)).flatMap u32 ++
        (es.map Entry.name).flatten ++ (es.map Entry.crc).flatMap u32)
      ((es.filter isLarge).flatMap (fun e => u64 e.ofs) ++ packSha ++ idxSha)
      (1032 + es.length * 20 + es.length * 4)
      (by rw [List.length_append, List.length_append, List.length_append, fan_bytes_length,
            v2_names_length es hv.name_len, v2_crc_length]; rfl)
    rw [zipIdx_get] at this
    have e : indexV2 es packSha idxSha = ([255, 116, 79, 99] ++ u32 2 ++
        (fanoutTable (es.map Entry.name)).flatMap u32 ++
        (es.map Entry.name).flatten ++ (es.map Entry.crc).flatMap u32) ++
        es.zipIdx.flatMap (fun p => u32 (ofsField es p.1 p.2)) ++
        ((es.filter isLarge).flatMap (fun e => u64 e.ofs) ++ packSha ++ idxSha) := by
      simp only [indexV2, List.append_assoc]
    rw [e]
    exact this
  unfold IndexFile.offset
  simp only [v2File, if_true, h1]
  have hlt := ofsField_lt es hv i h
  by_cases hl : isLarge es[i] = true
  · obtain ⟨h2, h3⟩ := filter_get isLarge es i h hl
    have hf : ofsField es es[i] i = 2 ^ 31 + (es.take i).countP isLarge := by
      unfold ofsField; rw [if_pos hl]
    rw [if_pos ((and_high_bit _ hlt).2 (by omega)), hf]
    have := unpackQ_block Entry.ofs (es.filter isLarge)
      (fun e he => hv.ofs_lt e (List.mem_filter.1 he).1) _ h2
      ([255, 116, 79, 99] ++ u32 2 ++ (fanoutTable (es.map Entry.name)).flatMap u32 ++
        (es.map Entry.name).flatten ++ (es.map Entry.crc).flatMap u32 ++
        es.zipIdx.flatMap (fun p => u32 (ofsField es p.1 p.2)))
      (packSha ++ idxSha)
      (1032 + es.length * 20 + es.length * 4 + es.length * 4)
      (by rw [List.length_append, List.length_append, List.length_append, List.length_append,
            fan_bytes_length, v2_names_length es hv.name_len, v2_crc_length, v2_ofs_length]; rfl)
    rw [h3] at this
    have e : indexV2 es packSha idxSha = ([255, 116, 79, 99] ++ u32 2 ++
        (fanoutTable (es.map Entry.name)).flatMap u32 ++
        (es.map Entry.name).flatten ++ (es.map Entry.crc).flatMap u32 ++
        es.zipIdx.flatMap (fun p => u32 (ofsField es p.1 p.2))) ++
        (es.filter isLarge).flatMap (fun e => u64 e.ofs) ++ (packSha ++ idxSha) := by
      simp only [indexV2, List.append_assoc]
    rw [e, show 2 ^ 31 + (es.take i).countP isLarge - 0x80000000 = (es.take i).countP isLarge by omega]
    exact this
  · have hf : ofsField es es[i] i = es[i].ofs := by
      unfold ofsField; rw [if_neg hl]
    have hsm : es[i].ofs < 2 ^ 31 := by
      simp only [isLarge, decide_eq_true_eq] at hl; omega
    rw [if_neg (fun h' => by have := (and_high_bit _ hlt).1 h'; omega), hf]

theorem v2_indexOf (es : List Entry) (packSha idxSha : Bytes) (hv : ValidV2 es)
    (hs : Ascending (es.map Entry.name)) :
    IndexOf (v2File es packSha idxSha) (es.map Entry.name) where
  size := by rw [v2_size, List.length_map]
  sha := by
    intro i h
    rw [v2_sha es packSha idxSha hv i (by simpa using h), List.getElem_map]
  fanout := fun k hk => fanoutTable_getD _ k hk
  len := by
    intro n hn
    obtain ⟨e, he, rfl⟩ := List.mem_map.1 hn
    exact hv.name_len e he
  sorted := hs

theorem v2_checksums (es : List Entry) (packSha idxSha : Bytes) (h1 : packSha.length = 20)
    (h2 : idxSha.length = 20) :
    (v2File es packSha idxSha).packfileChecksum = packSha ∧
      (v2File es packSha idxSha).indexfileChecksum = idxSha := by
  unfold IndexFile.packfileChecksum IndexFile.indexfileChecksum
  obtain ⟨body, hb⟩ : ∃ body, indexV2 es packSha idxSha = body ++ packSha ++ idxSha := ⟨_, rfl⟩
  simp only [v2File, hb]
  have hl : (body ++ packSha ++ idxSha).length = body.length + 40 := by
    simp only [List.length_append]; omega
  rw [hl]
  constructor
  · unfold pySlice
    rw [show body.length + 40 - 40 = body.length by omega,
      show body.length + 40 - 20 - body.length = packSha.length by omega, List.append_assoc,
      List.drop_left, List.take_left]
  · rw [show body.length + 40 - 20 = (body ++ packSha).length by rw [List.length_append]; omega,
      List.drop_left]

theorem words32_u32 (l : List Nat) (h : ∀ a ∈ l, a < 2 ^ 32) : words32 (l.flatMap u32) = .ok l := by
  induction l with
  | nil => rfl
  | cons a l ih =>
    have ha := beVal_u32 a (h a (by simp))
    rw [List.flatMap_cons]
    simp only [u32, List.cons_append, List.nil_append] at ha ⊢
    rw [words32, ih (fun b hb => h b (by simp [hb]))]
    simp only [ha]

theorem v2_offsets (es : List Entry) (packSha idxSha : Bytes) (hv : ValidV2 es) :
    (v2File es packSha idxSha).offsets = .ok (es.zipIdx.map fun p => ofsField es p.1 p.2) := by
  unfold IndexFile.offsets
  have hsl : pySlice (indexV2 es packSha idxSha) (1032 + es.length * 20 + es.length * 4)
      (1032 + es.length * 20 + es.length * 4 + es.length * 4) =
      (es.zipIdx.map fun p => ofsField es p.1 p.2).flatMap u32 := by
    unfold pySlice
    rw [Nat.add_sub_cancel_left, List.flatMap_map]
    have hpre : ([255, 116, 79, 99] ++ u32 2 ++ (fanoutTable (es.map Entry.name)).flatMap u32 ++
        (es.map Entry.name).flatten ++ (es.map Entry.crc).flatMap u32).length =
        1032 + es.length * 20 + es.length * 4 := by
      rw [List.length_append, List.length_append, List.length_append, fan_bytes_length,
            v2_names_length es hv.name_len, v2_crc_length]; rfl
    have : indexV2 es packSha idxSha = ([255, 116, 79, 99] ++ u32 2 ++
        (fanoutTable (es.map Entry.name)).flatMap u32 ++ (es.map Entry.name).flatten ++
        (es.map Entry.crc).flatMap u32) ++ (es.zipIdx.flatMap (fun p => u32 (ofsField es p.1 p.2)) ++
        ((es.filter isLarge).flatMap (fun e => u64 e.ofs) ++ packSha ++ idxSha)) := by
      simp only [indexV2, List.append_assoc]
    rw [this, ← hpre, List.drop_left, ← v2_ofs_length es, List.take_left]
  simp only [v2File, if_true]
  rw [hsl, words32_u32]
  intro a ha
  obtain ⟨p, hp, rfl⟩ := List.mem_map.1 ha
  obtain ⟨j, hj, he⟩ := List.mem_iff_getElem.1 hp
  rw [zipIdx_get] at he
  rw [← he]
  exact ofsField_lt es hv j (by simpa using hj)

/-! ## Version 1 -/

/-- The state after opening a version 1 file. -/
def v1File (es : List Entry) (packSha idxSha : Bytes) : IndexFile :=
  { map := indexV1 es packSha idxSha, version := 1, fanout := fanoutTable (es.map Entry.name) }

theorem v1_load (es : List Entry) (packSha idxSha : Bytes) (hv : ValidV1 es)
    (h0 : (es.map Entry.name).countP (firstLe 0) ≠ 0xff744f63) :
    IndexFile.load (indexV1 es packSha idxSha) = .ok (v1File es packSha idxSha) := by
  have hfan : readFanout (indexV1 es packSha idxSha) 0 = .ok (fanoutTable (es.map Entry.name)) := by
    have := readFanout_spec (es.map Entry.name) (by simpa using hv.count) []
      (es.flatMap (fun e => u32 e.ofs ++ e.name) ++ packSha ++ idxSha) 0 rfl
    rw [← this]
    simp only [indexV1, List.append_assoc, List.nil_append]
  have h4 : (indexV1 es packSha idxSha).take 4 ≠ [0xff, 0x74, 0x4f, 0x63] := by
    obtain ⟨rest, hr⟩ : ∃ rest, fanoutTable (es.map Entry.name) =
        (es.map Entry.name).countP (firstLe 0) :: rest := by
      have : List.range 256 = 0 :: (List.range 255).map (· + 1) := by
        rw [show 256 = 255 + 1 from rfl, List.range_succ_eq_map]
      exact ⟨_, by rw [fanoutTable, this, List.map_cons]⟩
    intro h
    simp only [indexV1, hr, List.flatMap_cons, List.append_assoc] at h
    rw [show (4 : Nat) = (u32 ((es.map Entry.name).countP (firstLe 0))).length from rfl,
      List.take_left] at h
    have hlt : (es.map Entry.name).countP (firstLe 0) < 2 ^ 32 :=
      Nat.lt_of_le_of_lt List.countP_le_length (by simpa using hv.count)
    have := beVal_u32 _ hlt
    rw [h] at this
    exact h0 this.symm
  unfold IndexFile.load
  simp only [if_neg h4]
  rw [if_neg (by omega)]
  simp only
  rw [if_neg (by omega), hfan]
  simp only
  rw [if_neg (by omega)]
  rfl

theorem pySlice_pySlice (b : Bytes) (a k c d : Nat) (h : d ≤ k) :
    pySlice b (a + c) (a + d) = pySlice (pySlice b a (a + k)) c d := by
  unfold pySlice
  rw [Nat.add_sub_cancel_left, List.drop_take, List.take_take, List.drop_drop]
  congr 1; omega

theorem v1_block (es : List Entry) (packSha idxSha : Bytes) (hv : ValidV1 es) (i : Nat)
    (h : i < es.length) :
    pySlice (indexV1 es packSha idxSha) (1024 + i * 24) (1024 + i * 24 + 24) =
      u32 es[i].ofs ++ es[i].name ∧ 1024 + i * 24 + 24 ≤ (indexV1 es packSha idxSha).length := by
  have hf : ∀ e ∈ es, (u32 e.ofs ++ e.name).length = 24 := by
    intro e he
    rw [List.length_append, hv.name_len e he]; rfl
  have e : indexV1 es packSha idxSha = (fanoutTable (es.map Entry.name)).flatMap u32 ++
      es.flatMap (fun e => u32 e.ofs ++ e.name) ++ (packSha ++ idxSha) := by
    simp only [indexV1, List.append_assoc]
  rw [e]
  exact ⟨pySlice_block (fun e : Entry => u32 e.ofs ++ e.name) 24 es hf i h _ (packSha ++ idxSha) 1024
    (fan_bytes_length _).symm, block_bound (fun e : Entry => u32 e.ofs ++ e.name) 24 es hf i h _
    (packSha ++ idxSha) 1024 (fan_bytes_length _).symm⟩

theorem v1_sha (es : List Entry) (packSha idxSha : Bytes) (hv : ValidV1 es) (i : Nat)
    (h : i < es.length) : (v1File es packSha idxSha).sha i = es[i].name := by
  unfold IndexFile.sha v1File
  simp only
  rw [if_neg (by omega), show 1024 + i * 24 + 4 + 20 = 1024 + i * 24 + 24 by omega,
    pySlice_pySlice _ _ 24 4 24 (by omega), (v1_block es packSha idxSha hv i h).1]
  unfold pySlice
  rw [show (4 : Nat) = (u32 es[i].ofs).length from rfl, List.drop_left]
  apply List.take_of_length_le
  rw [hv.name_len _ (List.getElem_mem h), u32_length]; omega

theorem v1_ofs_slice (es : List Entry) (packSha idxSha : Bytes) (hv : ValidV1 es) (i : Nat)
    (h : i < es.length) :
    beVal (pySlice (indexV1 es packSha idxSha) (1024 + i * 24) (1024 + i * 24 + 4)) = es[i].ofs := by
  have := pySlice_pySlice (indexV1 es packSha idxSha) (1024 + i * 24) 24 0 4 (by omega)
  rw [Nat.add_zero] at this
  rw [this, (v1_block es packSha idxSha hv i h).1]
  unfold pySlice
  rw [List.drop_zero, show 4 - 0 = (u32 es[i].ofs).length from rfl, List.take_left,
    beVal_u32 _ (hv.ofs_lt _ (List.getElem_mem h))]

theorem v1_offset (es : List Entry) (packSha idxSha : Bytes) (hv : ValidV1 es) (i : Nat)
    (h : i < es.length) : (v1File es packSha idxSha).offset i = .ok es[i].ofs := by
  unfold IndexFile.offset v1File unpackL
  simp only
  have := (v1_block es packSha idxSha hv i h).2
  rw [if_neg (by omega), if_pos (by omega), v1_ofs_slice es packSha idxSha hv i h]

theorem v1_entry (es : List Entry) (packSha idxSha : Bytes) (hv : ValidV1 es) (i : Nat)
    (h : i < es.length) :
    (v1File es packSha idxSha).entry i = .ok (es[i].ofs, es[i].name, 0) := by
  have hsha := v1_sha es packSha idxSha hv i h
  have hb := (v1_block es packSha idxSha hv i h).2
  have hm : (v1File es packSha idxSha).map = indexV1 es packSha idxSha := rfl
  unfold IndexFile.entry
  rw [hsha, if_neg (by simp [v1File]), hm, if_pos hb, v1_ofs_slice es packSha idxSha hv i h]

theorem v1_indexOf (es : List Entry) (packSha idxSha : Bytes) (hv : ValidV1 es)
    (hs : Ascending (es.map Entry.name)) :
    IndexOf (v1File es packSha idxSha) (es.map Entry.name) where
  size := by
    unfold IndexFile.size v1File
    simp only
    rw [fanoutTable_getD _ _ (by omega), countP_firstLe_255]
  sha := by
    intro i h
    rw [v1_sha es packSha idxSha hv i (by simpa using h), List.getElem_map]
  fanout := fun k hk => fanoutTable_getD _ k hk
  len := by
    intro n hn
    obtain ⟨e, he, rfl⟩ := List.mem_map.1 hn
    exact hv.name_len e he
  sorted := hs

end GitDB
