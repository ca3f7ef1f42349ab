import Verif.Proofs.LooseLookup
/-!
# Iterating over loose objects and resolving abbreviations
-/
set_option autoImplicit false

namespace GitDB
open Spec

theorem isDecimal_eq : ∀ (n : Nat) (ds : Bytes), IsDecimal ds n → ds = natToDec n := by
  intro n
  induction n using Nat.strongRecOn with
  | _ n ih =>
    intro ds h
    obtain ⟨h1, h2, h3, h4⟩ := h
    obtain ⟨as, d, rfl⟩ : ∃ as d, ds = as ++ [d] := ⟨ds.dropLast, ds.getLast h3, (List.dropLast_concat_getLast h3).symm⟩
    rw [decValue_snoc] at h2
    have hd := h1 d (by simp)
    have hdd : UInt8.ofNat (48 + (d.toNat - 48)) = d := by
      rw [show 48 + (d.toNat - 48) = d.toNat by omega, UInt8.ofNat_toNat]
    by_cases ha : as = []
    · subst ha
      simp [decValue] at h2
      rw [natToDec_eq, if_pos (by omega), ← h2, hdd]; rfl
    · have hz : as.head? ≠ some 48 := by
        intro hh
        have : (as ++ [d]).head? = some 48 := by
          rcases as with _ | ⟨x, xs⟩
          · exact absurd rfl ha
          · simpa using hh
        have := congrArg List.length (h4 this)
        simp only [List.length_append, List.length_singleton] at this
        have := List.length_pos_iff.mpr ha
        omega
      have hpos : 0 < decValue as := by
        rcases as with _ | ⟨x, xs⟩
        · exact absurd rfl ha
        · have hx := h1 x (by simp)
          have hx' : x.toNat ≠ 48 := by
            intro e; apply hz
            simp only [List.head?_cons, Option.some.injEq]
            rw [← UInt8.ofNat_toNat (x := x), e]; rfl
          have := dec_lower xs (10 * 0 + (x.toNat - 48))
          have hv : decValue (x :: xs) = xs.foldl (fun a d => 10 * a + (d.toNat - 48)) (10 * 0 + (x.toNat - 48)) := rfl
          rw [← hv] at this
          have h5 : 0 < 10 ^ xs.length * (10 * 0 + (x.toNat - 48)) :=
            Nat.mul_pos (Nat.pow_pos (by omega)) (by omega)
          omega
      have := ih (decValue as) (by omega) as ⟨fun x hx => h1 x (by simp [hx]), rfl, ha, fun hh => absurd hh hz⟩
      rw [natToDec_eq, if_neg (by omega)]
      rw [show n / 10 = decValue as by omega, show n % 10 = d.toNat - 48 by omega, hdd, ← this]

theorem isObject_unique {x y ty data : Bytes} (hx : IsObject x ty data) (hy : IsObject y ty data) : x = y := by
  obtain ⟨ds, h1, rfl⟩ := hx
  obtain ⟨ds', h2, rfl⟩ := hy
  rw [isDecimal_eq _ _ h1, isDecimal_eq _ _ h2]

/-! ### the loop -/

theorem partialLoop_some (part : Bytes) (c : Bytes) : ∀ (ns : List Bytes),
    partialLoop part (some c) (ns.map .ok) =
      if ns.filter (fun b => part.isPrefixOf (binToHex b)) = [] then .ok c else .error .ambiguousObjectName
  | [] => rfl
  | b :: ns => by
    simp only [List.map_cons, partialLoop, List.filter_cons]
    by_cases h : part.isPrefixOf (binToHex b) = true
    · simp [h]
    · simp only [h]
      exact partialLoop_some part c ns

theorem partialLoop_none (part : Bytes) : ∀ (ns : List Bytes),
    partialLoop part none (ns.map .ok) =
      match ns.filter (fun b => part.isPrefixOf (binToHex b)) with
      | [] => .error .badObject
      | [b] => .ok b
      | _ => .error .ambiguousObjectName
  | [] => rfl
  | b :: ns => by
    simp only [List.map_cons, partialLoop, List.filter_cons]
    by_cases h : part.isPrefixOf (binToHex b) = true
    · simp only [h, if_true]
      rw [partialLoop_some]
      rcases ns.filter (fun b => part.isPrefixOf (binToHex b)) with _ | ⟨a, l⟩ <;> simp
    · simp only [h]
      exact partialLoop_none part ns

theorem shaCount_ok : ∀ (ns : List Bytes), shaCount (ns.map .ok) = .ok ns.length
  | [] => rfl
  | b :: ns => by simp only [List.map_cons, shaCount, shaCount_ok ns, List.length_cons]

/-! ### the names found -/

/-- The hex names `sha_iter` converts. -/
def hexNames (walk : List (Bytes × List Bytes)) : List Bytes :=
  walk.flatMap fun d => if d.1.length ≠ 2 then [] else (d.2.filter (fun f => f.length = 38)).map (d.1 ++ ·)

theorem shaIterFiles_eq (base : Bytes) : ∀ fs : List Bytes,
    shaIterFiles base fs = ((fs.filter (fun f => f.length = 38)).map (base ++ ·)).map hexToBin
  | [] => rfl
  | f :: fs => by
    unfold shaIterFiles
    by_cases h : f.length = 38
    · simp [h, shaIterFiles_eq base fs]
    · simp [h, shaIterFiles_eq base fs]

theorem shaIter_eq (walk : List (Bytes × List Bytes)) : shaIter walk = (hexNames walk).map hexToBin := by
  unfold shaIter hexNames
  rw [List.map_flatMap]
  congr 1
  funext d
  split
  · rfl
  · exact shaIterFiles_eq _ _

/-- What `sha_iter` sees of a walk: the base name of every directory. -/
def seen (base : Bytes) (walk : List (Path × List Bytes)) : List (Bytes × List Bytes) :=
  walk.map fun w => (w.1.getLast?.getD base, w.2)

theorem mem_hexNames {base : Bytes} {fs : Fs} {walk : List (Path × List Bytes)} (hw : IsWalk fs walk)
    (hl : ObjectLayout base fs) (h : Bytes) :
    h ∈ hexNames (seen base walk) ↔
      ∃ d f, d.length = 2 ∧ f.length = 38 ∧ h = d ++ f ∧ fs [d] = some .dir ∧ IsFile fs [d, f] := by
  unfold hexNames seen
  simp only [List.mem_flatMap, List.mem_map]
  constructor
  · rintro ⟨_, ⟨w, hwm, rfl⟩, hh⟩
    split at hh
    · simp at hh
    · rename_i h2
      simp only [ne_eq, Decidable.not_not] at h2
      simp only [List.mem_map, List.mem_filter, decide_eq_true_eq] at hh
      obtain ⟨f, ⟨hf1, hf2⟩, rfl⟩ := hh
      have hdir := (hw.dirs w.1).mp (List.mem_map.mpr ⟨w, hwm, rfl⟩)
      rcases hn : w.1.getLast? with _ | d
      · rw [hn] at h2; exact absurd h2 hl.root
      · rw [hn] at h2
        simp only [Option.getD_some] at h2 ⊢
        obtain ⟨q, hq⟩ : ∃ q, w.1 = q ++ [d] := by
          rw [List.getLast?_eq_some_iff] at hn; exact hn
        rcases hdir with hd | hd
        · rw [hd] at hn; simp at hn
        · rw [hq] at hd
          have := hl.depth _ _ hd h2
          subst this
          have hf := (hw.files w hwm f).mp hf1
          rw [hq] at hf
          exact ⟨d, f, h2, hf2, rfl, hd, hf⟩
  · rintro ⟨d, f, h1, h2, rfl, h3, h4⟩
    have := (hw.dirs [d]).mpr (Or.inr h3)
    obtain ⟨w, hwm, hwd⟩ := List.mem_map.mp this
    refine ⟨_, ⟨w, hwm, rfl⟩, ?_⟩
    simp only [hwd, List.getLast?_singleton, Option.getD_some, h1, ne_eq, not_true_eq_false, if_false,
      List.mem_map, List.mem_filter, decide_eq_true_eq]
    exact ⟨f, ⟨(hw.files w hwm f).mpr (by rw [hwd]; exact h4), h2⟩, rfl⟩

theorem hexNames_nodup {base : Bytes} {fs : Fs} {walk : List (Path × List Bytes)} (hw : IsWalk fs walk)
    (hl : ObjectLayout base fs) : (hexNames (seen base walk)).Nodup := by
  unfold hexNames seen
  rw [List.flatMap_map]
  have hone : ∀ w ∈ walk, (w.1.getLast?.getD base).length = 2 → w.1 = [w.1.getLast?.getD base] := by
    intro w hwm h2
    have hdir := (hw.dirs w.1).mp (List.mem_map.mpr ⟨w, hwm, rfl⟩)
    rcases hn : w.1.getLast? with _ | d
    · rw [hn] at h2; exact absurd h2 hl.root
    · rw [hn] at h2
      simp only [Option.getD_some] at h2 ⊢
      obtain ⟨q, hq⟩ : ∃ q, w.1 = q ++ [d] := by
        rw [List.getLast?_eq_some_iff] at hn; exact hn
      rcases hdir with hd | hd
      · rw [hd] at hn; simp at hn
      · rw [hq] at hd
        have := hl.depth _ _ hd h2
        subst this
        simpa using hq
  have honce := hw.once
  have hfiles := hw.files_once
  clear hw
  induction walk with
  | nil => simp
  | cons w walk ih =>
    rw [List.flatMap_cons, List.nodup_append]
    simp only [List.map_cons, List.nodup_cons] at honce
    refine ⟨?_, ih (fun v hv => hone v (by simp [hv])) honce.2 (fun v hv => hfiles v (by simp [hv])), ?_⟩
    · split
      · simp
      · unfold List.Nodup
        rw [List.pairwise_map]
        have := (hfiles w (by simp)).filter (fun f => decide (f.length = 38))
        exact this.imp fun hne => fun e => hne (List.append_cancel_left e)
    · intro a ha b hb hab
      subst hab
      simp only at ha
      split at ha
      · simp at ha
      rename_i h2
      simp only [ne_eq, Decidable.not_not] at h2
      obtain ⟨v, hv, hb⟩ := List.mem_flatMap.mp hb
      simp only at hb
      split at hb
      · simp at hb
      rename_i h2'
      simp only [ne_eq, Decidable.not_not] at h2'
      obtain ⟨f, _, e1⟩ := List.mem_map.mp ha
      obtain ⟨g, _, e2⟩ := List.mem_map.mp hb
      have h5 := List.append_inj (e1.trans e2.symm) (by rw [h2, h2'])
      have k1 := hone w (by simp) h2
      have k2 := hone v (by simp [hv]) h2'
      apply honce.1
      rw [List.mem_map]
      refine ⟨v, hv, ?_⟩
      rw [k2, ← h5.1, ← k1]

/-- The names in the database. -/
theorem shaIter_names {base : Bytes} {fs : Fs} {walk : List (Path × List Bytes)} (hw : IsWalk fs walk)
    (hl : ObjectLayout base fs) : ∃ ns : List Bytes, shaIter (seen base walk) = ns.map .ok ∧ ns.Nodup ∧
      ∀ b, b ∈ ns ↔ b.length = 20 ∧ Contains fs b := by
  have hm := mem_hexNames hw hl
  have hnd := hexNames_nodup hw hl
  rw [shaIter_eq]
  have key : ∀ h ∈ hexNames (seen base walk), ∃ b, hexToBin h = .ok b ∧ b.length = 20 ∧ binToHex b = h := by
    intro h hh
    obtain ⟨d, f, h1, h2, rfl, h3, h4⟩ := (hm h).mp hh
    exact hexToBin_lower 20 _ (by simp [h1, h2]) (hl.hex d f h3 h1 h4 h2)
  have hns : ∃ ns : List Bytes, (hexNames (seen base walk)).map hexToBin = ns.map .ok ∧
      hexNames (seen base walk) = ns.map binToHex ∧ ∀ b ∈ ns, b.length = 20 := by
    clear hm hnd
    generalize hexNames (seen base walk) = hs at *
    induction hs with
    | nil => exact ⟨[], rfl, rfl, by simp⟩
    | cons h hs ih =>
      obtain ⟨b, e1, e2, e3⟩ := key h (by simp)
      obtain ⟨ns, f1, f2, f3⟩ := ih (fun x hx => key x (by simp [hx]))
      refine ⟨b :: ns, by simp [e1, f1], by simp [e3, f2], ?_⟩
      intro x hx
      rcases List.mem_cons.mp hx with rfl | hx
      · exact e2
      · exact f3 x hx
  obtain ⟨ns, h1, h2, h3⟩ := hns
  refine ⟨ns, h1, ?_, ?_⟩
  · rw [h2] at hnd
    unfold List.Nodup at hnd
    rw [List.pairwise_map] at hnd
    exact hnd.imp fun hne e => hne (by rw [e])
  · intro b
    constructor
    · intro hb
      have := (hm (binToHex b)).mp (by rw [h2]; exact List.mem_map.mpr ⟨b, hb, rfl⟩)
      obtain ⟨d, f, k1, k2, k3, k4, k5⟩ := this
      refine ⟨h3 b hb, [d, f], ⟨binToHex b, binToHex_isHexOf b, ?_⟩, k5, k4⟩
      rw [k3, List.take_left' k1, List.drop_left' k1]
    · rintro ⟨k1, p, k2, k3, k4⟩
      rw [isPathOf_unique k2] at k3 k4
      have hlen := binToHex_length b
      have : binToHex b ∈ hexNames (seen base walk) := by
        rw [hm]
        exact ⟨(binToHex b).take 2, (binToHex b).drop 2, by rw [List.length_take]; omega, by
          rw [List.length_drop]; omega, (List.take_append_drop _ _).symm, k4, k3⟩
      rw [h2] at this
      obtain ⟨b', hb', e⟩ := List.mem_map.mp this
      have : hexToBin (binToHex b') = hexToBin (binToHex b) := by rw [e]
      rw [hexToBin_binToHex, hexToBin_binToHex] at this
      simp only [Except.ok.injEq] at this
      rwa [← this]

end GitDB
