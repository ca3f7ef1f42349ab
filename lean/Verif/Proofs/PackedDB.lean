import Verif.Model.PackedDB
import Verif.Proofs.IndexRead
import Verif.Proofs.Index
/-!
# Lemmas about `PackedDB`
-/
set_option autoImplicit false

namespace GitDB
open Spec

/-! ### sorting -/

/-- Most hits first. -/
def MostHitsFirst (l : List PackItem) : Prop := l.Pairwise fun a b => b.hits ≤ a.hits

theorem insertItem_perm (it : PackItem) : ∀ l : List PackItem, (insertItem it l).Perm (it :: l)
  | [] => List.Perm.refl _
  | x :: l => by
    unfold insertItem
    split
    · exact List.Perm.refl _
    · exact ((insertItem_perm it l).cons x).trans (List.Perm.swap it x l)

theorem sortItems_perm : ∀ l : List PackItem, (sortItems l).Perm l
  | [] => List.Perm.refl _
  | it :: l => (insertItem_perm it _).trans ((sortItems_perm l).cons it)

theorem insertItem_sorted (it : PackItem) : ∀ l : List PackItem, MostHitsFirst l → MostHitsFirst (insertItem it l)
  | [], _ => by simp [insertItem, MostHitsFirst]
  | x :: l, h => by
    obtain ⟨h1, h2⟩ := List.pairwise_cons.mp h
    unfold insertItem
    split
    · rename_i hx
      refine List.pairwise_cons.mpr ⟨?_, h⟩
      intro y hy
      rcases List.mem_cons.mp hy with rfl | hy
      · exact hx
      · exact Nat.le_trans (h1 y hy) hx
    · rename_i hx
      refine List.pairwise_cons.mpr ⟨?_, insertItem_sorted it l h2⟩
      intro y hy
      rcases List.mem_cons.mp ((insertItem_perm it l).mem_iff.mp hy) with rfl | hy
      · omega
      · exact h1 y hy

theorem sortItems_sorted : ∀ l : List PackItem, MostHitsFirst (sortItems l)
  | [] => List.Pairwise.nil
  | it :: l => insertItem_sorted it _ (sortItems_sorted l)

theorem insertItem_append (it : PackItem) (suf : List PackItem) (h : ∀ b ∈ suf, b.hits ≤ it.hits) :
    ∀ A : List PackItem, insertItem it (A ++ suf) = insertItem it A ++ suf
  | [] => by
    cases suf with
    | nil => rfl
    | cons b suf => simp [insertItem, h b (by simp)]
  | a :: A => by
    simp only [List.cons_append, insertItem]
    split
    · rfl
    · rw [insertItem_append it suf h A]; rfl

theorem sortItems_of_sorted : ∀ l : List PackItem, MostHitsFirst l → sortItems l = l
  | [], _ => rfl
  | it :: l, h => by
    obtain ⟨h1, h2⟩ := List.pairwise_cons.mp h
    rw [sortItems, sortItems_of_sorted l h2]
    cases l with
    | nil => rfl
    | cons b l => simp [insertItem, h1 b (by simp)]

theorem sortItems_append (suf : List PackItem) (hs : MostHitsFirst suf) : ∀ pre : List PackItem,
    (∀ a ∈ pre, ∀ b ∈ suf, b.hits ≤ a.hits) → sortItems (pre ++ suf) = sortItems pre ++ suf
  | [], _ => sortItems_of_sorted suf hs
  | a :: pre, h => by
    rw [List.cons_append, sortItems, sortItems_append suf hs pre (fun x hx => h x (by simp [hx])), sortItems,
      insertItem_append a suf (h a (by simp))]

/-! ### keys -/

/-- The contents of the index of an item: what is mapped, or what will be mapped. -/
def PackItem.content (dir : PackDir) (it : PackItem) : Option Bytes :=
  match it.idx with
  | some c => some c
  | none => dir.get (idxName it.path)

/-- What matters about an item. -/
def PackItem.key (dir : PackDir) (it : PackItem) : Bytes × PackFile × Option Bytes :=
  (it.path, it.pack, it.content dir)

/-- The index file with these contents. -/
def indexOf : Option Bytes → Res IndexFile
  | none => .error .fileNotFound
  | some c => IndexFile.load c

theorem index_snd (dir : PackDir) (it : PackItem) : (it.index dir).2 = indexOf (it.content dir) := by
  unfold PackItem.index PackItem.content
  rcases it.idx with _ | c
  · simp only
    rcases dir.get (idxName it.path) with _ | c <;> rfl
  · rfl

theorem index_fst (dir : PackDir) (it : PackItem) :
    (it.index dir).1.key dir = it.key dir ∧ (it.index dir).1.hits = it.hits := by
  unfold PackItem.index PackItem.key PackItem.content
  rcases hi : it.idx with _ | c
  · simp only
    rcases hg : dir.get (idxName it.path) with _ | c
    · simp [hi, hg]
    · simp
  · simp [hi]

theorem find_snd (dir : PackDir) (it : PackItem) {sha : Bytes} (hs : sha ≠ []) :
    (it.find dir sha).2 = match indexOf (it.content dir) with
      | .error e => .error e
      | .ok x => x.shaToIndex sha := by
  unfold PackItem.find
  rw [if_neg hs, ← index_snd]
  rcases it.index dir with ⟨it', e | x⟩ <;> rfl

theorem find_fst (dir : PackDir) (it : PackItem) (sha : Bytes) :
    (it.find dir sha).1.key dir = it.key dir ∧ (it.find dir sha).1.hits = it.hits := by
  unfold PackItem.find
  split
  · exact ⟨rfl, rfl⟩
  · have := index_fst dir it
    rcases hi : it.index dir with ⟨it', e | x⟩ <;> (rw [hi] at this; exact this)

theorem shaToIndex_ok (x : IndexFile) {sha : Bytes} (hs : sha ≠ []) : ∃ r, x.shaToIndex sha = .ok r := by
  obtain ⟨b, t, rfl⟩ := List.exists_cons_of_ne_nil hs
  unfold IndexFile.shaToIndex
  exact ⟨_, rfl⟩

/-- The index can be loaded. -/
def Loadable (k : Bytes × PackFile × Option Bytes) : Prop := ∃ x, indexOf k.2.2 = .ok x

/-- The index has an entry with this name (as far as `sha_to_index` knows). -/
def keyHas (sha : Bytes) (k : Bytes × PackFile × Option Bytes) : Bool :=
  match indexOf k.2.2 with
  | .error _ => false
  | .ok x => match x.shaToIndex sha with
    | .ok (some _) => true
    | _ => false

/-- How a scan ends. -/
def outcome (r : Res (Option (PackItem × Nat))) : Res Bool :=
  match r with
  | .error e => .error e
  | .ok none => .ok false
  | .ok (some _) => .ok true

/-- The answer, as a function of the keys. -/
def answer (sha : Bytes) (pre suf : List (Bytes × PackFile × Option Bytes)) : Res Bool :=
  if pre.any (keyHas sha) then .ok true
  else match suf with
    | [] => .ok false
    | k :: _ => match indexOf k.2.2 with
      | .error e => .error e
      | .ok _ => .ok false

theorem scan_spec (dir : PackDir) {sha : Bytes} (hs : sha ≠ []) (suf : List PackItem)
    (hb : ∀ b l, suf = b :: l → ¬ Loadable (b.key dir)) : ∀ pre : List PackItem,
    (∀ a ∈ pre, Loadable (a.key dir)) →
    outcome (scanItems dir sha (pre ++ suf)).2 = answer sha (pre.map (PackItem.key dir)) (suf.map (PackItem.key dir)) ∧
    ∃ pre1 suf1, (scanItems dir sha (pre ++ suf)).1 = pre1 ++ suf1 ∧
      pre1.map (PackItem.key dir) = pre.map (PackItem.key dir) ∧
      suf1.map (PackItem.key dir) = suf.map (PackItem.key dir) ∧
      suf1.map PackItem.hits = suf.map PackItem.hits ∧
      (∀ a1 ∈ pre1, ∃ a ∈ pre, a.hits ≤ a1.hits)
  | [], _ => by
    cases suf with
    | nil => exact ⟨rfl, [], [], rfl, rfl, rfl, rfl, by simp⟩
    | cons b l =>
      have hnb := hb b l rfl
      have h1 := find_snd dir b hs
      have h2 := find_fst dir b sha
      unfold Loadable PackItem.key at hnb
      simp only at hnb
      rcases hi : indexOf (b.content dir) with e | x
      · rw [hi] at h1
        simp only [List.nil_append, scanItems]
        rcases hf : b.find dir sha with ⟨b1, r⟩
        rw [hf] at h1 h2
        simp only at h1 h2
        subst h1
        refine ⟨?_, [], b1 :: l, rfl, rfl, ?_, ?_, by simp⟩
        · simp [outcome, answer, PackItem.key, hi]
        · simp [h2.1]
        · simp [h2.2]
      · exact absurd ⟨x, hi⟩ hnb
  | a :: pre, ha => by
    obtain ⟨x, hx⟩ := ha a (by simp)
    have hx' : indexOf (a.content dir) = .ok x := hx
    have h1 := find_snd dir a hs
    have h2 := find_fst dir a sha
    rw [hx'] at h1
    obtain ⟨r, hr⟩ := shaToIndex_ok x hs
    simp only [hr] at h1
    simp only [List.cons_append, scanItems]
    rcases hf : a.find dir sha with ⟨a1, r'⟩
    rw [hf] at h1 h2
    simp only at h1 h2
    subst h1
    cases r with
    | some i =>
      refine ⟨?_, { a1 with hits := a1.hits + 1 } :: pre, suf, rfl, ?_, rfl, rfl, ?_⟩
      · have : keyHas sha (a.key dir) = true := by unfold keyHas; rw [hx]; simp [hr]
        simp [outcome, answer, this]
      · simp only [List.map_cons, List.cons.injEq, and_true]
        exact h2.1
      · intro y hy
        rcases List.mem_cons.mp hy with rfl | hy
        · exact ⟨a, by simp, by simp; omega⟩
        · exact ⟨y, by simp [hy], Nat.le_refl _⟩
    | none =>
      obtain ⟨i1, pre1, suf1, i2, i3, i4, i5, i6⟩ := scan_spec dir hs suf hb pre (fun y hy => ha y (by simp [hy]))
      refine ⟨?_, a1 :: pre1, suf1, by simp [i2], ?_, i4, i5, ?_⟩
      · have : keyHas sha (a.key dir) = false := by unfold keyHas; rw [hx]; simp [hr]
        simp only
        rw [i1]
        simp [answer, this]
      · simp [h2.1, i3]
      · intro y hy
        rcases List.mem_cons.mp hy with rfl | hy
        · exact ⟨a, by simp, by omega⟩
        · obtain ⟨b, hb1, hb2⟩ := i6 y hy
          exact ⟨b, by simp [hb1], hb2⟩

theorem scan_found (dir : PackDir) {sha : Bytes} (hs : sha ≠ []) : ∀ (l l' : List PackItem) (it : PackItem) (i : Nat),
    scanItems dir sha l = (l', .ok (some (it, i))) → ∃ it0 x, it0 ∈ l ∧ it.key dir = it0.key dir ∧
      indexOf (it0.content dir) = .ok x ∧ x.shaToIndex sha = .ok (some i) ∧ it ∈ l'
  | [], l', it, i, h => by simp [scanItems] at h
  | a :: l, l', it, i, h => by
    have h1 := find_snd dir a hs
    have h2 := find_fst dir a sha
    unfold scanItems at h
    rcases hf : a.find dir sha with ⟨a1, e | o⟩
    · rw [hf] at h; simp at h
    · rw [hf] at h h1 h2
      cases o with
      | none =>
        simp only [Prod.mk.injEq] at h
        obtain ⟨rfl, h⟩ := h
        obtain ⟨it0, x, k1, k2, k3, k4, k5⟩ := scan_found dir hs l _ it i (Prod.ext rfl h)
        exact ⟨it0, x, by simp [k1], k2, k3, k4, by simp [k5]⟩
      | some j =>
        simp only [Prod.mk.injEq, Except.ok.injEq, Option.some.injEq] at h
        obtain ⟨rfl, rfl, rfl⟩ := h
        simp only at h1 h2
        rcases hi : indexOf (a.content dir) with e | x
        · rw [hi] at h1; simp at h1
        · rw [hi] at h1
          exact ⟨a, x, by simp, h2.1, hi, h1.symm, by simp⟩

/-- The invariant of lookups: a permutation of the packs that can be used, the rest untouched. -/
structure PInv (dir : PackDir) (pre0 suf0 : List (Bytes × PackFile × Option Bytes)) (l : List PackItem) : Prop where
  good : ∀ k ∈ pre0, Loadable k
  bad : ∀ k r, suf0 = k :: r → ¬ Loadable k
  ex : ∃ pre suf, l = pre ++ suf ∧ (pre.map (PackItem.key dir)).Perm pre0 ∧ suf.map (PackItem.key dir) = suf0 ∧
    MostHitsFirst suf ∧ ∀ a ∈ pre, ∀ b ∈ suf, b.hits ≤ a.hits

theorem mostHits_of_hits {l l' : List PackItem} (h : l'.map PackItem.hits = l.map PackItem.hits)
    (hl : MostHitsFirst l) : MostHitsFirst l' := by
  unfold MostHitsFirst at *
  have e : ∀ l : List PackItem, (l.map PackItem.hits).Pairwise (fun a b => b ≤ a) ↔
      l.Pairwise (fun a b => b.hits ≤ a.hits) := fun l => List.pairwise_map
  rw [← e] at hl ⊢
  rw [h]; exact hl

theorem answer_perm {sha : Bytes} {a b suf : List (Bytes × PackFile × Option Bytes)} (h : a.Perm b) :
    answer sha a suf = answer sha b suf := by
  have : a.any (keyHas sha) = b.any (keyHas sha) := by
    rw [Bool.eq_iff_iff, List.any_eq_true, List.any_eq_true]
    constructor
    · rintro ⟨x, hx, hh⟩; exact ⟨x, h.mem_iff.mp hx, hh⟩
    · rintro ⟨x, hx, hh⟩; exact ⟨x, h.mem_iff.mpr hx, hh⟩
  unfold answer
  rw [this]

theorem pinv_sort {dir : PackDir} {pre0 suf0 : List (Bytes × PackFile × Option Bytes)} {l : List PackItem}
    (h : PInv dir pre0 suf0 l) : PInv dir pre0 suf0 (sortItems l) := by
  obtain ⟨pre, suf, rfl, h1, h2, h3, h4⟩ := h.ex
  refine ⟨h.good, h.bad, sortItems pre, suf, sortItems_append suf h3 pre h4, ?_, h2, h3, ?_⟩
  · exact ((sortItems_perm pre).map _).trans h1
  · intro a ha
    exact h4 a ((sortItems_perm pre).mem_iff.mp ha)

theorem pinv_scan {dir : PackDir} {pre0 suf0 : List (Bytes × PackFile × Option Bytes)} {l : List PackItem}
    (h : PInv dir pre0 suf0 l) {sha : Bytes} (hs : sha ≠ []) :
    PInv dir pre0 suf0 (scanItems dir sha l).1 ∧ outcome (scanItems dir sha l).2 = answer sha pre0 suf0 := by
  obtain ⟨pre, suf, rfl, h1, h2, h3, h4⟩ := h.ex
  obtain ⟨k1, pre1, suf1, k2, k3, k4, k5, k6⟩ := scan_spec dir hs suf (by
      rintro b r rfl
      exact h.bad _ _ h2.symm) pre (fun a ha => h.good _ (h1.mem_iff.mp (List.mem_map_of_mem ha)))
  refine ⟨⟨h.good, h.bad, pre1, suf1, k2, by rw [k3]; exact h1, by rw [k4, h2], mostHits_of_hits k5 h3, ?_⟩, ?_⟩
  · intro a ha b hb
    obtain ⟨a0, ha0, hle⟩ := k6 a ha
    have : b.hits ∈ suf.map PackItem.hits := by rw [← k5]; exact List.mem_map_of_mem hb
    obtain ⟨b0, hb0, hbe⟩ := List.mem_map.mp this
    rw [← hbe]
    exact Nat.le_trans (h4 a0 ha0 b0 hb0) hle
  · rw [k1, h2]; exact answer_perm h1

open Classical in
/-- Every sorted list has the invariant. -/
theorem pinv_init (dir : PackDir) {l : List PackItem} (hs : MostHitsFirst l) :
    ∃ pre suf, pre ++ suf = l ∧ PInv dir (pre.map (PackItem.key dir)) (suf.map (PackItem.key dir)) l := by
  refine ⟨l.takeWhile (fun a => decide (Loadable (a.key dir))), l.dropWhile (fun a => decide (Loadable (a.key dir))),
    List.takeWhile_append_dropWhile, ?_, ?_, ?_⟩
  · intro k hk
    obtain ⟨a, ha, rfl⟩ := List.mem_map.mp hk
    have := List.all_takeWhile (p := fun a => decide (Loadable (PackItem.key dir a))) (l := l)
    rw [List.all_eq_true] at this
    simpa using this a ha
  · intro k r hk
    rcases hd : l.dropWhile (fun a => decide (Loadable (a.key dir))) with _ | ⟨b, t⟩
    · rw [hd] at hk; simp at hk
    · rw [hd] at hk
      simp only [List.map_cons, List.cons.injEq] at hk
      have := List.head_dropWhile_not (fun a => decide (Loadable (PackItem.key dir a))) (l := l) (by rw [hd]; simp)
      simp only [hd, List.head_cons, decide_eq_false_iff_not] at this
      rw [← hk.1]; exact this
  · refine ⟨_, _, List.takeWhile_append_dropWhile.symm, List.Perm.refl _, rfl, ?_, ?_⟩
    · exact List.Pairwise.sublist (List.dropWhile_sublist _) hs
    · have := hs
      rw [← List.takeWhile_append_dropWhile (p := fun a => decide (Loadable (a.key dir))) (l := l)] at this
      unfold MostHitsFirst at this
      rw [List.pairwise_append] at this
      exact this.2.2

theorem unpackL_error {m : Bytes} {n : Nat} {e : Err} (h : unpackL m n = .error e) : e = .structError := by
  unfold unpackL at h
  split at h <;> simp_all

theorem mapM_unpackL_error {m : Bytes} {n : Nat} {e : Err} : ∀ r : List Nat,
    r.mapM (fun i => unpackL m (n + i * 4)) = .error e → e = .structError
  | [], h => by simp [pure, Except.pure] at h
  | i :: r, h => by
    rw [List.mapM_cons] at h
    rcases hu : unpackL m (n + i * 4) with e1 | v
    · rw [hu] at h
      simp only [bind, Except.bind, Except.error.injEq] at h
      rw [← h]; exact unpackL_error hu
    · rcases hr : r.mapM (fun i => unpackL m (n + i * 4)) with e1 | v1
      · rw [hu, hr] at h
        simp only [bind, Except.bind, Except.error.injEq] at h
        rw [← h]; exact mapM_unpackL_error r hr
      · rw [hu, hr] at h; simp [bind, Except.bind, pure, Except.pure] at h

theorem load_error {c : Bytes} {e : Err} (h : IndexFile.load c = .error e) : e = .structError ∨ e = .assertionError := by
  have hF : ∀ m n, readFanout m n = .error e → e = .structError := fun m n h => mapM_unpackL_error _ h
  unfold IndexFile.load at h
  by_cases hm : c.take 4 = [0xff, 0x74, 0x4f, 0x63]
  · simp only [hm, if_true] at h
    rcases hu : unpackL c 4 with e1 | v
    · rw [hu] at h
      simp only [Except.error.injEq] at h
      rw [← h]; exact Or.inl (unpackL_error hu)
    · rw [hu] at h
      by_cases hv : v = 2
      · simp only [hv, if_true] at h
        rcases hf : readFanout c 8 with e1 | f
        · rw [hf] at h
          simp only [Except.error.injEq] at h
          subst h
          exact Or.inl (hF _ _ hf)
        · rw [hf] at h; simp at h
      · simp only [hv, if_false, Except.error.injEq] at h
        exact Or.inr h.symm
  · simp only [hm, if_false] at h
    simp only [show ¬ (1 : Nat) = 2 by decide, if_false] at h
    rcases hf : readFanout c 0 with e1 | f
    · rw [hf] at h
      simp only [Except.error.injEq] at h
      subst h
      exact Or.inl (hF _ _ hf)
    · rw [hf] at h; simp at h

theorem indexOf_error (o : Option Bytes) : indexOf o ≠ .error .badObject := by
  intro h
  cases o with
  | none => simp [indexOf] at h
  | some c => rcases load_error h with h | h <;> simp at h

/-- One lookup. -/
theorem packInfo_inv {order : List Bytes → List Bytes} {dir : Option PackDir} {db : PackedDB} {l : List PackItem}
    {pre0 suf0 : List (Bytes × PackFile × Option Bytes)} (hl : db.entities = some l)
    (h : PInv (dirFiles dir) pre0 suf0 l) {sha : Bytes} (hs : sha ≠ []) :
    (∃ l', (db.packInfo order dir sha).1.entities = some l' ∧ PInv (dirFiles dir) pre0 suf0 l') ∧
    (db.hasObject order dir sha).2 = answer sha pre0 suf0 ∧
    (db.packInfo order dir sha).1.mtime = db.mtime := by
  have hload : db.load order dir = (db, .ok l) := by unfold PackedDB.load; rw [hl]
  have h1 : PInv (dirFiles dir) pre0 suf0 (if db.hitCount % sortInterval = 0 then sortItems l else l) := by
    split
    · exact pinv_sort h
    · exact h
  obtain ⟨k1, k2⟩ := pinv_scan h1 hs
  unfold PackedDB.hasObject PackedDB.packInfo
  rw [hload]
  simp only
  rcases hsc : scanItems (dirFiles dir) sha (if db.hitCount % sortInterval = 0 then sortItems l else l) with ⟨l1, e | o⟩
  · rw [hsc] at k1 k2
    simp only [outcome] at k2 ⊢
    have hne : e ≠ .badObject := by
      rintro rfl
      unfold answer at k2
      split at k2
      · simp at k2
      · split at k2
        · simp at k2
        · split at k2
          · rename_i hh
            simp only [Except.error.injEq] at k2
            subst k2
            exact indexOf_error _ hh
          · simp at k2
    refine ⟨⟨l1, rfl, k1⟩, ?_, trivial⟩
    rw [← k2]
    cases e <;> first | rfl | exact absurd rfl hne
  · rw [hsc] at k1 k2
    cases o with
    | none => exact ⟨⟨l1, rfl, k1⟩, k2, rfl⟩
    | some r => exact ⟨⟨l1, rfl, k1⟩, k2, rfl⟩

/-! ### other operations keep the items -/

/-- The same packs with the same hits in the same order. -/
def SameItems (dir : PackDir) (l' l : List PackItem) : Prop :=
  l'.map (PackItem.key dir) = l.map (PackItem.key dir) ∧ l'.map PackItem.hits = l.map PackItem.hits

theorem SameItems.refl (dir : PackDir) (l : List PackItem) : SameItems dir l l := ⟨rfl, rfl⟩

theorem SameItems.cons {dir : PackDir} {a a' : PackItem} {l l' : List PackItem}
    (ha : a'.key dir = a.key dir ∧ a'.hits = a.hits) (h : SameItems dir l' l) : SameItems dir (a' :: l') (a :: l) := by
  unfold SameItems
  simp [ha.1, ha.2, h.1, h.2]

theorem loadIndices_same (dir : PackDir) : ∀ l : List PackItem, SameItems dir (loadIndices dir l).1 l
  | [] => SameItems.refl _ _
  | a :: l => by
    have ha := index_fst dir a
    have ih := loadIndices_same dir l
    unfold loadIndices
    rcases hi : a.index dir with ⟨a1, e | x⟩
    · rw [hi] at ha
      exact SameItems.cons ha (SameItems.refl _ _)
    · rw [hi] at ha
      rcases hl : loadIndices dir l with ⟨l1, e | xs⟩
      · rw [hl] at ih; exact SameItems.cons ha ih
      · rw [hl] at ih; exact SameItems.cons ha ih

theorem complete_fst (dir : PackDir) (it : PackItem) (part : Bytes) (n : Nat) :
    (it.complete dir part n).1.key dir = it.key dir ∧ (it.complete dir part n).1.hits = it.hits := by
  have := index_fst dir it
  unfold PackItem.complete
  split
  · exact ⟨rfl, rfl⟩
  · rcases hi : it.index dir with ⟨a, e | x⟩
    · rw [hi] at this; exact this
    · rw [hi] at this
      simp only
      rcases x.partialShaToIndex part n with e | o
      · exact this
      · cases o <;> exact this

theorem completeLoop_same (dir : PackDir) (part : Bytes) (n : Nat) : ∀ (l : List PackItem) (c : Option Bytes),
    SameItems dir (completeLoop dir part n l c).1 l
  | [], _ => SameItems.refl _ _
  | a :: l, c => by
    have ha := complete_fst dir a part n
    unfold completeLoop
    rcases hi : a.complete dir part n with ⟨a1, e | o⟩
    · rw [hi] at ha
      exact SameItems.cons ha (SameItems.refl _ _)
    · rw [hi] at ha
      cases o with
      | none => exact SameItems.cons ha (completeLoop_same dir part n l c)
      | some sha =>
        simp only
        split
        · exact SameItems.cons ha (SameItems.refl _ _)
        · exact SameItems.cons ha (completeLoop_same dir part n l _)

theorem pinv_same {dir : PackDir} {pre0 suf0 : List (Bytes × PackFile × Option Bytes)} {l l' : List PackItem}
    (h : PInv dir pre0 suf0 l) (hs : SameItems dir l' l) : PInv dir pre0 suf0 l' := by
  obtain ⟨pre, suf, rfl, h1, h2, h3, h4⟩ := h.ex
  obtain ⟨k1, k2⟩ := hs
  rw [List.map_append] at k1
  obtain ⟨pre', suf', rfl, e1, e2⟩ := List.map_eq_append_iff.mp k1
  have hlen : pre'.length = pre.length := by simpa using congrArg List.length e1
  rw [List.map_append, List.map_append] at k2
  obtain ⟨f1, f2⟩ := List.append_inj k2 (by simp [hlen])
  refine ⟨h.good, h.bad, pre', suf', rfl, by rw [e1]; exact h1, by rw [e2, h2], mostHits_of_hits f2 h3, ?_⟩
  intro a ha b hb
  have ma : a.hits ∈ pre.map PackItem.hits := by rw [← f1]; exact List.mem_map_of_mem ha
  have mb : b.hits ∈ suf.map PackItem.hits := by rw [← f2]; exact List.mem_map_of_mem hb
  obtain ⟨a0, ha0, ea⟩ := List.mem_map.mp ma
  obtain ⟨b0, hb0, eb⟩ := List.mem_map.mp mb
  rw [← ea, ← eb]
  exact h4 a0 ha0 b0 hb0

theorem scan_empty (dir : PackDir) (l : List PackItem) :
    scanItems dir [] l = (l, if l = [] then .ok none else .error .indexError) := by
  cases l with
  | nil => rfl
  | cons a l => simp [scanItems, PackItem.find]

/-- A lookup of the empty name. -/
theorem packInfo_empty {order : List Bytes → List Bytes} {dir : Option PackDir} {db : PackedDB} {l : List PackItem}
    {pre0 suf0 : List (Bytes × PackFile × Option Bytes)} (hl : db.entities = some l)
    (h : PInv (dirFiles dir) pre0 suf0 l) :
    (∃ l', (db.packInfo order dir []).1.entities = some l' ∧ PInv (dirFiles dir) pre0 suf0 l') ∧
    (db.hasObject order dir []).2 = (if pre0 ++ suf0 = [] then .ok false else .error .indexError) := by
  have hload : db.load order dir = (db, .ok l) := by unfold PackedDB.load; rw [hl]
  have h1 : PInv (dirFiles dir) pre0 suf0 (if db.hitCount % sortInterval = 0 then sortItems l else l) := by
    split
    · exact pinv_sort h
    · exact h
  have he : (if db.hitCount % sortInterval = 0 then sortItems l else l) = [] ↔ pre0 ++ suf0 = [] := by
    obtain ⟨pre, suf, e, k1, k2, -, -⟩ := h1.ex
    rw [e]
    have l1 := k1.length_eq
    have l2 := congrArg List.length k2
    simp only [List.length_map] at l1 l2
    simp only [← List.length_eq_zero_iff, List.length_append]
    omega
  unfold PackedDB.hasObject PackedDB.packInfo
  rw [hload]
  simp only [scan_empty]
  by_cases h0 : pre0 ++ suf0 = []
  · rw [if_pos (he.mpr h0), if_pos h0]
    exact ⟨⟨_, rfl, h1⟩, rfl⟩
  · rw [if_neg (fun h => h0 (he.mp h)), if_neg h0]
    exact ⟨⟨_, rfl, h1⟩, rfl⟩

/-! ### refreshing -/

/-- A newly added pack. -/
def FreshItem (dir : PackDir) (it : PackItem) : Prop :=
  ∃ c, dir.get it.path = some c ∧ PackFile.load c = .ok it.pack ∧ it.hits = it.pack.size ∧ it.idx = none

theorem addPacks_spec (dir : PackDir) : ∀ (ps : List Bytes) (items : List PackItem),
    ∃ new, (addPacks dir ps items).1 = items ++ new ∧ (∀ it ∈ new, FreshItem dir it) ∧
      new.map PackItem.path <+: ps ∧ ((addPacks dir ps items).2 = .ok () → new.map PackItem.path = ps)
  | [], items => ⟨[], by simp [addPacks], by simp, by simp, by simp⟩
  | p :: ps, items => by
    unfold addPacks
    rcases hg : dir.get p with _ | c
    · exact ⟨[], by simp, by simp, by simp, by simp⟩
    · simp only
      rcases hl : PackFile.load c with e | pk
      · exact ⟨[], by simp, by simp, by simp, by simp⟩
      · simp only
        obtain ⟨new, h1, h2, h3, h4⟩ := addPacks_spec dir ps (items ++ [{ hits := pk.size, path := p, pack := pk }])
        refine ⟨{ hits := pk.size, path := p, pack := pk } :: new, by rw [h1]; simp, ?_, ?_, ?_⟩
        · intro it hit
          rcases List.mem_cons.mp hit with rfl | hit
          · exact ⟨c, hg, hl, rfl, rfl⟩
          · exact h2 it hit
        · simpa using h3
        · intro h
          simpa using h4 h

theorem addPacks_succeeds (dir : PackDir) : ∀ (ps : List Bytes) (items : List PackItem),
    (∀ p ∈ ps, ∃ c pk, dir.get p = some c ∧ PackFile.load c = .ok pk) → (addPacks dir ps items).2 = .ok ()
  | [], _, _ => rfl
  | p :: ps, items, h => by
    obtain ⟨c, pk, h1, h2⟩ := h p (by simp)
    unfold addPacks
    simp only [h1, h2]
    exact addPacks_succeeds dir ps _ (fun q hq => h q (by simp [hq]))

theorem eraseP_path (p : Bytes) : ∀ items : List PackItem, (items.map PackItem.path).Nodup →
    items.eraseP (fun it => it.path == p) = items.filter (fun it => decide (it.path ≠ p))
  | [], _ => rfl
  | a :: l, h => by
    simp only [List.map_cons, List.nodup_cons] at h
    by_cases hp : a.path = p
    · rw [List.eraseP_cons_of_pos (by simp [hp]), List.filter_cons_of_neg (by simp [hp])]
      symm
      rw [List.filter_eq_self]
      intro b hb
      simp only [ne_eq, decide_not, Bool.not_eq_true', decide_eq_false_iff_not]
      intro e
      exact h.1 (by rw [hp, ← e]; exact List.mem_map_of_mem hb)
    · rw [List.eraseP_cons_of_neg (by simp [hp]), List.filter_cons_of_pos (by simp [hp]), eraseP_path p l h.2]

theorem dropPacks_spec : ∀ (ps : List Bytes) (items : List PackItem), (items.map PackItem.path).Nodup →
    dropPacks ps items = items.filter (fun it => decide (it.path ∉ ps))
  | [], items, _ => by
    rw [dropPacks]
    exact (List.filter_eq_self.mpr (by simp)).symm
  | p :: ps, items, h => by
    rw [dropPacks, eraseP_path p items h, dropPacks_spec ps _ (h.sublist (List.filter_sublist.map _)),
      List.filter_filter]
    congr 1
    funext it
    simp [Bool.and_comm]

/-- `files` lists each name once. -/
def PackDir.Wf (d : PackDir) : Prop := (d.files.map Prod.fst).Nodup

theorem nodup_append_of {α : Type} {a b : List α} (ha : a.Nodup) (hb : b.Nodup) (h : ∀ x ∈ a, x ∉ b) :
    (a ++ b).Nodup := by
  rw [List.nodup_append]
  refine ⟨ha, hb, ?_⟩
  rintro x hx y hy rfl
  exact h x hx hy

theorem prefix_nodup {α : Type} {a b : List α} (h : a <+: b) (hb : b.Nodup) : a.Nodup := hb.sublist h.sublist

/-- Everything about a refresh. -/
theorem refresh_spec {order : List Bytes → List Bytes} (ho : ∀ l, (order l).Perm l) {dir : PackDir} (hd : dir.Wf)
    {items : List PackItem} (hn : (items.map PackItem.path).Nodup) :
    ((refreshItems order dir items).1.map PackItem.path).Nodup ∧
    (∀ it ∈ (refreshItems order dir items).1, it ∈ items ∨ (it.path ∈ dir.packs ∧ it.path ∉ items.map PackItem.path ∧ FreshItem dir it)) ∧
    ((refreshItems order dir items).2 = .ok () →
      (∀ p, p ∈ (refreshItems order dir items).1.map PackItem.path ↔ p ∈ dir.packs) ∧
      (∀ it ∈ items, it.path ∈ dir.packs → it ∈ (refreshItems order dir items).1) ∧
      MostHitsFirst (refreshItems order dir items).1) := by
  have hpn : dir.packs.Nodup := hd.sublist List.filter_sublist
  obtain ⟨new, h1, h2, h3, h4⟩ := addPacks_spec dir
    (order (dir.packs.filter fun f => decide (f ∉ items.map PackItem.path))) items
  have hmem : ∀ p, p ∈ order (dir.packs.filter fun f => decide (f ∉ items.map PackItem.path)) ↔
      p ∈ dir.packs ∧ p ∉ items.map PackItem.path := by
    intro p
    rw [(ho _).mem_iff, List.mem_filter]
    simp
  have hnn : (new.map PackItem.path).Nodup :=
    prefix_nodup h3 ((ho _).nodup_iff.mpr (hpn.sublist List.filter_sublist))
  have hnm : ∀ p ∈ new.map PackItem.path, p ∈ dir.packs ∧ p ∉ items.map PackItem.path :=
    fun p hp => (hmem p).mp (h3.subset hp)
  have hall : ((items ++ new).map PackItem.path).Nodup := by
    rw [List.map_append]
    exact nodup_append_of hn hnn (fun x hx hx' => (hnm x hx').2 hx)
  unfold refreshItems
  simp only
  rcases ha : addPacks dir (order (dir.packs.filter fun f => decide (f ∉ items.map PackItem.path))) items with ⟨l, e | u⟩
  · rw [ha] at h1
    simp only at h1
    subst h1
    refine ⟨hall, ?_, by simp⟩
    intro it hit
    rcases List.mem_append.mp hit with hit | hit
    · exact Or.inl hit
    · have := hnm _ (List.mem_map_of_mem hit)
      exact Or.inr ⟨this.1, this.2, h2 it hit⟩
  · rw [ha] at h1 h4
    simp only at h1 h4
    subst h1
    have h4 := h4 trivial
    simp only
    rw [dropPacks_spec _ _ hall]
    have hmem2 : ∀ p, p ∈ order ((items.map PackItem.path).filter fun f => decide (f ∉ dir.packs)) ↔
        p ∈ items.map PackItem.path ∧ p ∉ dir.packs := by
      intro p
      rw [(ho _).mem_iff, List.mem_filter]
      simp
    have hin : ∀ it, it ∈ sortItems ((items ++ new).filter fun it => decide
        (it.path ∉ order ((items.map PackItem.path).filter fun f => decide (f ∉ dir.packs)))) ↔
        (it ∈ items ∨ it ∈ new) ∧ ¬ (it.path ∈ items.map PackItem.path ∧ it.path ∉ dir.packs) := by
      intro it
      rw [(sortItems_perm _).mem_iff, List.mem_filter, List.mem_append, decide_eq_true_eq, hmem2]
    refine ⟨?_, ?_, fun _ => ⟨?_, ?_, sortItems_sorted _⟩⟩
    · exact ((sortItems_perm _).map _).nodup_iff.mpr (hall.sublist (List.filter_sublist.map _))
    · intro it hit
      rcases ((hin it).mp hit).1 with h | h
      · exact Or.inl h
      · have := hnm _ (List.mem_map_of_mem h)
        exact Or.inr ⟨this.1, this.2, h2 it h⟩
    · intro p
      rw [List.mem_map]
      constructor
      · rintro ⟨it, hit, rfl⟩
        obtain ⟨h | h, hno⟩ := (hin it).mp hit
        · exact Classical.byContradiction fun hc => hno ⟨List.mem_map_of_mem h, hc⟩
        · exact (hnm _ (List.mem_map_of_mem h)).1
      · intro hp
        by_cases ho' : p ∈ items.map PackItem.path
        · obtain ⟨it, hit, rfl⟩ := List.mem_map.mp ho'
          exact ⟨it, (hin it).mpr ⟨Or.inl hit, fun h => h.2 hp⟩, rfl⟩
        · have : p ∈ new.map PackItem.path := by rw [h4, hmem]; exact ⟨hp, ho'⟩
          obtain ⟨it, hit, rfl⟩ := List.mem_map.mp this
          exact ⟨it, (hin it).mpr ⟨Or.inr hit, fun h => h.2 hp⟩, rfl⟩
    · intro it hit hp
      exact (hin it).mpr ⟨Or.inl hit, fun h => h.2 hp⟩

theorem refresh_succeeds {order : List Bytes → List Bytes} (ho : ∀ l, (order l).Perm l) {dir : PackDir}
    {items : List PackItem}
    (h : ∀ p ∈ dir.packs, ∃ c pk, dir.get p = some c ∧ PackFile.load c = .ok pk) :
    (refreshItems order dir items).2 = .ok () := by
  have := addPacks_succeeds dir (order (dir.packs.filter fun f => decide (f ∉ items.map PackItem.path))) items (by
    intro p hp
    rw [(ho _).mem_iff, List.mem_filter] at hp
    exact h p hp.1)
  unfold refreshItems
  simp only
  rcases ha : addPacks dir (order (dir.packs.filter fun f => decide (f ∉ items.map PackItem.path))) items with ⟨l, e | u⟩
  · rw [ha] at this; simp at this
  · rfl

end GitDB
