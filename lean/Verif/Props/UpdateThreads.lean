import Verif.Model.UpdateThreads
/-!
# C118: `PackedDB.update_cache` in several threads
-/
set_option autoImplicit false

namespace GitDB.Props
open GitDB

/-- Orders do not lose or invent anything. -/
def UCall.Fair (c : UCall) : Prop := (∀ l, (c.setOrd l).Perm l) ∧ ∀ l, (c.sortOrd l).Perm l

/-- A thread that runs the call `c`; packs it holds are known. -/
def UFits (K : Nat → Prop) (c : UCall) : UPc → Prop
  | .check c' | .setTime c' | .scan c' _ _ | .remove c' _ | .find c' _ _ _ | .del c' _ _ | .presort c' => c' = c
  | .add c' new _ => c' = c ∧ ∀ p ∈ new, p ∈ c.files
  | .sort c' saved _ _ => c' = c ∧ ∀ p ∈ saved, K p
  | .done r => r = .ok true ∨ (r = .ok false ∧ c.force = false) ∨ r = .error .assertionError ∨ r = .error .indexError ∨ r = .error .valueError

theorem ustep_fits {K : Nat → Prop} {c : UCall} (hc : UCall.Fair c) (hK : ∀ p ∈ c.files, K p) (db : UDb) (hdb : ∀ p ∈ db.items, K p) (pc : UPc) (h : UFits K c pc) :
    (∀ p ∈ (ustep db pc).1.items, K p) ∧ UFits K c (ustep db pc).2 := by
  cases pc with
  | check c' =>
    cases h
    simp only [ustep]
    split
    · rename_i hh; exact ⟨hdb, .inr (.inl ⟨rfl, hh.1⟩)⟩
    · exact ⟨hdb, rfl⟩
  | setTime c' => cases h; exact ⟨hdb, rfl⟩
  | scan c' k our =>
    cases h
    simp only [ustep]
    split
    · exact ⟨hdb, rfl⟩
    · exact ⟨hdb, rfl, fun p hp => (List.mem_filter.1 ((hc.1 _).mem_iff.1 hp)).1⟩
  | add c' new gone =>
    obtain ⟨rfl, h⟩ := h
    cases new with
    | nil => exact ⟨hdb, rfl⟩
    | cons p new =>
      refine ⟨fun q hq => ?_, rfl, fun q hq => h q (List.mem_cons_of_mem _ hq)⟩
      rcases List.mem_append.1 hq with hq | hq
      · exact hdb q hq
      · rw [List.mem_singleton.1 hq]; exact hK p (h p (List.mem_cons_self ..))
  | remove c' gone => cases h; cases gone <;> exact ⟨hdb, rfl⟩
  | find c' gone p k =>
    cases h
    simp only [ustep]
    split
    · exact ⟨hdb, .inr (.inr (.inl rfl))⟩
    · split <;> exact ⟨hdb, rfl⟩
  | del c' gone i =>
    cases h
    simp only [ustep]
    split
    · exact ⟨fun p hp => hdb p (List.mem_of_mem_eraseIdx hp), rfl⟩
    · exact ⟨hdb, .inr (.inr (.inr (.inl rfl)))⟩
  | presort c' =>
    cases h
    simp only [ustep]
    split
    · exact ⟨hdb, .inl rfl⟩
    · exact ⟨nofun, rfl, hdb⟩
  | sort c' saved mark n =>
    obtain ⟨rfl, h⟩ := h
    cases n with
    | succ n => exact ⟨hdb, rfl, h⟩
    | zero =>
      simp only [ustep]
      refine ⟨fun p hp => h p ((hc.2 _).mem_iff.1 hp), ?_⟩
      split
      · exact .inl rfl
      · exact .inr (.inr (.inr (.inr rfl)))
  | done r => exact ⟨hdb, h⟩

/-- **C118** whatever the threads do: every pack in the list was there at first, or `glob` found it in one of the calls; a call returns True, or False (if it is not forced), or raises
`AssertionError`, `IndexError` or `ValueError`. -/
theorem C118_sound (db : UDb) (calls : List UCall) (hc : ∀ c ∈ calls, UCall.Fair c) (sched : List Nat) (s : USys) (hs : s = USys.run ⟨db, calls.map UPc.check⟩ sched) :
    (∀ p ∈ s.db.items, p ∈ db.items ∨ ∃ c ∈ calls, p ∈ c.files) ∧
    ∀ (i : Nat) (c : UCall) (r : Res Bool), calls[i]? = some c → s.threads[i]? = some (.done r) →
      r = .ok true ∨ (r = .ok false ∧ c.force = false) ∨ r = .error .assertionError ∨ r = .error .indexError ∨ r = .error .valueError := by
  let K : Nat → Prop := fun p => p ∈ db.items ∨ ∃ c ∈ calls, p ∈ c.files
  have key : ∀ (sched : List Nat) (t : USys), t.threads.length = calls.length → (∀ p ∈ t.db.items, K p) →
      (∀ (i : Nat) (c : UCall) (pc : UPc), calls[i]? = some c → t.threads[i]? = some pc → UFits K c pc) →
      (∀ p ∈ (t.run sched).db.items, K p) ∧ ∀ (i : Nat) (c : UCall) (pc : UPc), calls[i]? = some c → (t.run sched).threads[i]? = some pc → UFits K c pc := by
    intro sched
    induction sched with
    | nil => exact fun t _ h1 h2 => ⟨h1, h2⟩
    | cons i sched ih =>
      intro t hl h1 h2
      show (∀ p ∈ ((t.step i).run sched).db.items, K p) ∧ _
      refine ih (t.step i) ?_ ?_ ?_ <;> unfold USys.step <;> rcases hpc : t.threads[i]? with _ | pc
      · exact hl
      · dsimp only; rw [List.length_set]; exact hl
      · exact h1
      · have hi : i < calls.length := by rw [← hl]; exact (List.getElem?_eq_some_iff.mp hpc).1
        exact (ustep_fits (hc _ (List.getElem_mem hi)) (fun p hp => .inr ⟨_, List.getElem_mem hi, hp⟩) t.db h1 pc (h2 i _ pc (List.getElem?_eq_getElem hi) hpc)).1
      · exact h2
      · intro j c pc' hj hpc'
        dsimp only at hpc'
        by_cases hji : i = j
        · subst hji
          rw [List.getElem?_set_self (List.getElem?_eq_some_iff.mp hpc).1] at hpc'
          cases hpc'
          have hm := List.mem_of_getElem? hj
          exact (ustep_fits (hc _ hm) (fun p hp => .inr ⟨_, hm, hp⟩) t.db h1 pc (h2 i _ pc hj hpc)).2
        · rw [List.getElem?_set_ne hji] at hpc'
          exact h2 j c pc' hj hpc'
  obtain ⟨k1, k2⟩ := key sched ⟨db, calls.map UPc.check⟩ (by simp) (fun p hp => .inl hp) (by
    intro i c pc h1 h2
    simp only [List.getElem?_map, h1, Option.map_some, Option.some.injEq] at h2
    subst h2
    rfl)
  rw [← hs] at k1 k2
  exact ⟨k1, fun i c r h1 h2 => k2 i c _ h1 h2⟩

/-! ### one call at a time -/

/-- Some steps of one thread. -/
def usolo : Nat → UDb × UPc → UDb × UPc
  | 0, x => x
  | n + 1, x => usolo n (ustep x.1 x.2)

theorem usolo_add (a b : Nat) (x : UDb × UPc) : usolo (a + b) x = usolo b (usolo a x) := by
  induction a generalizing x with
  | zero => rw [Nat.zero_add]; rfl
  | succ a ih => rw [show a + 1 + b = (a + b) + 1 by omega]; exact ih _

/-- One state comes after the other. -/
def UReach (x y : UDb × UPc) : Prop := ∃ n, usolo n x = y

theorem UReach.refl (x : UDb × UPc) : UReach x x := ⟨0, rfl⟩
theorem UReach.one {x y z : UDb × UPc} (h : ustep x.1 x.2 = y) (h2 : UReach y z) : UReach x z := by
  obtain ⟨n, h2⟩ := h2
  exact ⟨n + 1, by rw [← h2, ← h]; rfl⟩
theorem UReach.trans {x y z : UDb × UPc} (h : UReach x y) (h2 : UReach y z) : UReach x z := by
  obtain ⟨n, rfl⟩ := h
  obtain ⟨m, rfl⟩ := h2
  exact ⟨n + m, usolo_add ..⟩

theorem urun_solo (i : Nat) : ∀ (n : Nat) (s : USys) (pc : UPc), s.threads[i]? = some pc →
    s.run (List.replicate n i) = ⟨(usolo n (s.db, pc)).1, s.threads.set i (usolo n (s.db, pc)).2⟩
  | 0, s, pc, h => by
    have hl := (List.getElem?_eq_some_iff.mp h).1
    have : s.threads.set i pc = s.threads := by
      apply List.ext_getElem?
      intro j
      by_cases hj : i = j
      · subst hj; rw [List.getElem?_set_self hl, h]
      · rw [List.getElem?_set_ne hj]
    simp only [usolo, this]
    rfl
  | n + 1, s, pc, h => by
    have hl := (List.getElem?_eq_some_iff.mp h).1
    have e : s.step i = ⟨(ustep s.db pc).1, s.threads.set i (ustep s.db pc).2⟩ := by unfold USys.step; rw [h]
    rw [List.replicate_succ]
    show (s.step i).run (List.replicate n i) = _
    rw [e, urun_solo i n _ _ (List.getElem?_set_self hl)]
    simp only [List.set_set]
    rfl

/-- What is to be added and removed, once the list was seen. -/
def afterScan (c : UCall) (our : List Nat) : UPc :=
  .add c (c.setOrd (c.files.filter (fun p => !our.contains p))) (c.setOrd (our.filter (fun p => !c.files.contains p)))

theorem nodup_insert {l : List Nat} (h : l.Nodup) (p : Nat) : (l.insert p).Nodup := by
  by_cases hp : p ∈ l
  · rw [List.insert_of_mem hp]; exact h
  · rw [List.insert_of_not_mem hp]; exact List.nodup_cons.2 ⟨hp, h⟩

theorem solo_scan (c : UCall) (db : UDb) : ∀ (m k : Nat) (our : List Nat), db.items.length - k = m → our.Nodup →
    ∃ our' : List Nat, our'.Nodup ∧ (∀ p, p ∈ our' ↔ p ∈ our ∨ p ∈ db.items.drop k) ∧ UReach (db, .scan c k our) (db, afterScan c our')
  | 0, k, our, hm, hn => by
    have hk : db.items[k]? = none := List.getElem?_eq_none (by omega)
    refine ⟨our, hn, fun p => ?_, .one (y := (db, afterScan c our)) (by simp only [ustep, hk]; rfl) (.refl _)⟩
    rw [List.drop_eq_nil_of_le (by omega)]
    simp
  | m + 1, k, our, hm, hn => by
    have hk : k < db.items.length := by omega
    obtain ⟨our', h1, h2, h3⟩ := solo_scan c db m (k + 1) (our.insert db.items[k]) (by omega) (nodup_insert hn _)
    refine ⟨our', h1, fun p => ?_, .one (y := (db, .scan c (k + 1) (our.insert db.items[k]))) (by simp only [ustep, List.getElem?_eq_getElem hk]) h3⟩
    rw [h2, List.drop_eq_getElem_cons hk, List.mem_insert_iff, List.mem_cons]
    constructor
    · rintro ((h | h) | h)
      · exact .inr (.inl h)
      · exact .inl h
      · exact .inr (.inr h)
    · rintro (h | h | h)
      · exact .inl (.inr h)
      · exact .inl (.inl h)
      · exact .inr h

theorem solo_add (c : UCall) (gone : List Nat) (t : Nat) : ∀ (new items : List Nat), UReach (⟨items, false, t⟩, .add c new gone) (⟨items ++ new, false, t⟩, .remove c gone)
  | [], items => by rw [List.append_nil]; exact .one (y := (⟨items, false, t⟩, .remove c gone)) rfl (.refl _)
  | p :: new, items => by
    have := solo_add c gone t new (items ++ [p])
    rw [List.append_assoc] at this
    exact .one (y := (⟨items ++ [p], false, t⟩, .add c new gone)) rfl this

theorem solo_find (c : UCall) (gone : List Nat) (p : Nat) (db : UDb) (l1 l2 : List Nat) (hd : db.items = l1 ++ p :: l2) (hp : p ∉ l1) : ∀ (m k : Nat), k + m = l1.length →
    UReach (db, .find c gone p k) (db, .del c gone l1.length)
  | 0, k, hk => by
    have : k = l1.length := by omega
    subst this
    refine .one (y := (db, .del c gone l1.length)) ?_ (.refl _)
    simp [ustep, hd]
  | m + 1, k, hk => by
    refine .one (y := (db, .find c gone p (k + 1))) ?_ (solo_find c gone p db l1 l2 hd hp m (k + 1) (by omega))
    have hk' : k < l1.length := by omega
    have : db.items[k]? = some l1[k] := by rw [hd, List.getElem?_append_left hk', List.getElem?_eq_getElem hk']
    have hne : l1[k] ≠ p := fun h => hp (h ▸ List.getElem_mem hk')
    simp only [ustep, this, if_neg hne]

theorem solo_remove (c : UCall) (t : Nat) : ∀ (gone items : List Nat), gone.Nodup → items.Nodup → (∀ p ∈ gone, p ∈ items) →
    ∃ items' : List Nat, items'.Nodup ∧ (∀ p, p ∈ items' ↔ p ∈ items ∧ p ∉ gone) ∧ UReach (⟨items, false, t⟩, .remove c gone) (⟨items', false, t⟩, .presort c)
  | [], items, _, hi, _ => ⟨items, hi, fun p => by simp, .one (y := (⟨items, false, t⟩, .presort c)) rfl (.refl _)⟩
  | p :: gone, items, hg, hi, hm => by
    obtain ⟨l1, l2, rfl⟩ := List.append_of_mem (hm p (List.mem_cons_self ..))
    have hn := List.nodup_append.1 hi
    have hn2 := List.nodup_cons.1 hn.2.1
    have hp1 : p ∉ l1 := fun h => hn.2.2 p h p (List.mem_cons_self ..) rfl
    have hg' := List.nodup_cons.1 hg
    have hi' : (l1 ++ l2).Nodup := List.nodup_append.2 ⟨hn.1, hn2.2, fun a ha b hb => hn.2.2 a ha b (List.mem_cons_of_mem _ hb)⟩
    obtain ⟨items', h1, h2, h3⟩ := solo_remove c t gone (l1 ++ l2) hg'.2 hi' (by
      intro q hq
      have hne : q ≠ p := fun h => hg'.1 (h ▸ hq)
      have := hm q (List.mem_cons_of_mem _ hq)
      simp only [List.mem_append, List.mem_cons] at this ⊢
      rcases this with h | h | h
      · exact .inl h
      · exact absurd h hne
      · exact .inr h)
    refine ⟨items', h1, fun q => ?_, ?_⟩
    · rw [h2]
      simp only [List.mem_append, List.mem_cons]
      constructor
      · rintro ⟨h | h, hq⟩
        · exact ⟨.inl h, fun k => k.elim (fun e => hp1 (e ▸ h)) hq⟩
        · exact ⟨.inr (.inr h), fun k => k.elim (fun e => hn2.1 (e ▸ h)) hq⟩
      · rintro ⟨h | h | h, hq⟩
        · exact ⟨.inl h, fun k => hq (.inr k)⟩
        · exact absurd (.inl h) hq
        · exact ⟨.inr h, fun k => hq (.inr k)⟩
    · refine .one (y := (⟨l1 ++ p :: l2, false, t⟩, .find c gone p 0)) rfl ((solo_find c gone p _ l1 l2 rfl hp1 l1.length 0 (by omega)).trans ?_)
      refine .one (y := (⟨l1 ++ l2, false, t⟩, .remove c gone)) ?_ h3
      have : (l1 ++ p :: l2).eraseIdx l1.length = l1 ++ l2 := by rw [List.eraseIdx_append_of_length_le (Nat.le_refl _)]; simp
      simp [ustep, this]

theorem solo_sort (c : UCall) (t : Nat) (items : List Nat) (hc : UCall.Fair c) :
    ∃ items', items'.Perm items ∧ UReach (⟨items, false, t⟩, .presort c) (⟨items', false, t⟩, .done (.ok true)) := by
  by_cases h : items = []
  · subst h
    exact ⟨[], .refl _, .one (y := (⟨[], false, t⟩, .done (.ok true))) rfl (.refl _)⟩
  · have key : ∀ n, UReach (⟨[], true, t⟩, .sort c items false n) (⟨c.sortOrd items, false, t⟩, .done (.ok true)) := by
      intro n
      induction n with
      | zero => exact .one (y := (⟨c.sortOrd items, false, t⟩, .done (.ok true))) rfl (.refl _)
      | succ n ih => exact .one (y := (⟨[], true, t⟩, .sort c items false n)) rfl ih
    exact ⟨_, hc.2 items, .one (y := (⟨[], true, t⟩, .sort c items false items.length)) (by simp only [ustep, if_neg h]) (key _)⟩

/-- From the moment it has compared the list with the files, a call that is alone brings the list up to date with what it has seen. -/
theorem solo_rest (c : UCall) (hc : UCall.Fair c) (hf : c.files.Nodup) (t : Nat) (items our : List Nat) (hi : items.Nodup) (ho : our.Nodup) (hoi : ∀ p, p ∈ our ↔ p ∈ items) :
    ∃ items' : List Nat, items'.Nodup ∧ (∀ p, p ∈ items' ↔ p ∈ c.files) ∧ UReach (⟨items, false, t⟩, afterScan c our) (⟨items', false, t⟩, .done (.ok true)) := by
  have hnew : ∀ p, p ∈ c.setOrd (c.files.filter (fun p => !our.contains p)) ↔ p ∈ c.files ∧ p ∉ items := by
    intro p
    rw [(hc.1 _).mem_iff, List.mem_filter]
    simp [hoi]
  have hgone : ∀ p, p ∈ c.setOrd (our.filter (fun p => !c.files.contains p)) ↔ p ∈ items ∧ p ∉ c.files := by
    intro p
    rw [(hc.1 _).mem_iff, List.mem_filter]
    simp [hoi]
  have hn1 : (c.setOrd (c.files.filter (fun p => !our.contains p))).Nodup := (hc.1 _).nodup_iff.2 (hf.filter _)
  have hn2 : (c.setOrd (our.filter (fun p => !c.files.contains p))).Nodup := (hc.1 _).nodup_iff.2 (ho.filter _)
  have h1 := solo_add c (c.setOrd (our.filter (fun p => !c.files.contains p))) t (c.setOrd (c.files.filter (fun p => !our.contains p))) items
  obtain ⟨l, h2, h3, h4⟩ := solo_remove c t _ (items ++ c.setOrd (c.files.filter (fun p => !our.contains p))) hn2
    (List.nodup_append.2 ⟨hi, hn1, fun a ha b hb e => ((hnew b).1 hb).2 (e ▸ ha)⟩) (fun p hp => List.mem_append_left _ ((hgone p).1 hp).1)
  obtain ⟨l', h5, h6⟩ := solo_sort c t l hc
  refine ⟨l', h5.nodup_iff.2 h2, fun p => ?_, (h1.trans h4).trans h6⟩
  rw [h5.mem_iff, h3, List.mem_append, hnew, hgone]
  constructor
  · rintro ⟨h | h, h'⟩
    · exact Classical.byContradiction fun k => h' ⟨h, k⟩
    · exact h.1
  · intro h
    refine ⟨?_, fun k => k.2 h⟩
    by_cases k : p ∈ items
    · exact .inl k
    · exact .inr ⟨h, k⟩

/-- **C118** a call that is not disturbed (whatever the other threads have done before, as long as no sort is under way and no pack is in the list twice) ends.  If it is not forced and the
time of the directory is not later than that of the last call, it returns False and nothing changes; otherwise it returns True, and in the list are the packs in the directory,
each of them once. -/
theorem C118_alone (s : USys) (i : Nat) (c : UCall) (hs : s.threads[i]? = some (.check c)) (hc : UCall.Fair c) (hf : c.files.Nodup) (hi : s.db.items.Nodup) (hm : s.db.mark = false) :
    ∃ n db' b, s.run (List.replicate n i) = ⟨db', s.threads.set i (.done (.ok b))⟩ ∧ (b = false ↔ c.force = false ∧ c.mtime ≤ s.db.mtime) ∧
      (b = false → db' = s.db) ∧ (b = true → db'.items.Nodup ∧ (∀ p, p ∈ db'.items ↔ p ∈ c.files) ∧ db'.mtime = c.mtime ∧ db'.mark = false) := by
  obtain ⟨⟨items, mark, t⟩, threads⟩ := s
  dsimp only at hs hi hm ⊢
  subst hm
  by_cases hq : c.force = false ∧ c.mtime ≤ t
  · refine ⟨1, ⟨items, false, t⟩, false, ?_, by simpa using hq, fun _ => rfl, nofun⟩
    rw [urun_solo i 1 _ _ hs]
    simp [usolo, ustep, hq]
  · obtain ⟨our, h1, h2, h3⟩ := solo_scan c ⟨items, false, c.mtime⟩ items.length 0 [] rfl .nil
    obtain ⟨l, h4, h5, h6⟩ := solo_rest c hc hf c.mtime items our hi h1 (fun p => by rw [h2]; simp)
    have h7 : UReach (⟨items, false, t⟩, .check c) (⟨l, false, c.mtime⟩, .done (.ok true)) :=
      .one (y := (⟨items, false, t⟩, .setTime c)) (by simp only [ustep, if_neg hq]) (.one (y := (⟨items, false, c.mtime⟩, .scan c 0 [])) rfl (h3.trans h6))
    obtain ⟨n, h7⟩ := h7
    refine ⟨n, ⟨l, false, c.mtime⟩, true, ?_, by simpa using hq, nofun, fun _ => ⟨h4, h5, rfl, rfl⟩⟩
    rw [urun_solo i n _ _ hs]
    dsimp only
    rw [h7]

theorem remove_counts (c : UCall) (t : Nat) : ∀ (gone items : List Nat), gone.Nodup → (∀ p ∈ gone, p ∈ items) →
    ∃ items' : List Nat, (∀ p, items'.count p = items.count p - if p ∈ gone then 1 else 0) ∧ UReach (⟨items, false, t⟩, .remove c gone) (⟨items', false, t⟩, .presort c)
  | [], items, _, _ => ⟨items, fun p => by simp, .one (y := (⟨items, false, t⟩, .presort c)) rfl (.refl _)⟩
  | p :: gone, items, hg, hm => by
    obtain ⟨l1, l2, rfl, hp1⟩ := List.eq_append_cons_of_mem (hm p (List.mem_cons_self ..))
    have hg' := List.nodup_cons.1 hg
    obtain ⟨items', h1, h2⟩ := remove_counts c t gone (l1 ++ l2) hg'.2 (by
      intro q hq
      have hne : q ≠ p := fun h => hg'.1 (h ▸ hq)
      have := hm q (List.mem_cons_of_mem _ hq)
      simp only [List.mem_append, List.mem_cons] at this ⊢
      rcases this with h | h | h
      · exact .inl h
      · exact absurd h hne
      · exact .inr h)
    refine ⟨items', fun q => ?_, ?_⟩
    · rw [h1, List.count_append, List.count_append]
      by_cases hq : q = p
      · subst hq
        rw [if_neg hg'.1, if_pos (List.mem_cons_self ..), List.count_cons_self]
        omega
      · rw [List.count_cons_of_ne (fun h => hq h.symm)]
        simp only [List.mem_cons, hq, false_or]
    · refine .one (y := (⟨l1 ++ p :: l2, false, t⟩, .find c gone p 0)) rfl ((solo_find c gone p _ l1 l2 rfl hp1 l1.length 0 (by omega)).trans ?_)
      refine .one (y := (⟨l1 ++ l2, false, t⟩, .remove c gone)) ?_ h2
      have : (l1 ++ p :: l2).eraseIdx l1.length = l1 ++ l2 := by rw [List.eraseIdx_append_of_length_le (Nat.le_refl _)]; simp
      simp [ustep, this]

/-- **C118** and if packs are in the list several times: an undisturbed call that does not return False adds every new pack once, removes one of the places of every pack that is gone, and leaves
the others as they are.  So a pack that is in the list twice stays there twice, and once after it was removed from the directory. -/
theorem C118_counts (s : USys) (i : Nat) (c : UCall) (hs : s.threads[i]? = some (.check c)) (hc : UCall.Fair c) (hf : c.files.Nodup) (hm : s.db.mark = false)
    (hq : c.force = true ∨ s.db.mtime < c.mtime) :
    ∃ n db', s.run (List.replicate n i) = ⟨db', s.threads.set i (.done (.ok true))⟩ ∧
      ∀ p, db'.items.count p = if p ∈ c.files then (if p ∈ s.db.items then s.db.items.count p else 1) else s.db.items.count p - 1 := by
  obtain ⟨⟨items, mark, t⟩, threads⟩ := s
  dsimp only at hs hm hq ⊢
  subst hm
  have hq' : ¬ (c.force = false ∧ c.mtime ≤ t) := by
    rintro ⟨h1, h2⟩
    rcases hq with h | h
    · rw [h1] at h; cases h
    · omega
  obtain ⟨our, ho, h2, h3⟩ := solo_scan c ⟨items, false, c.mtime⟩ items.length 0 [] rfl .nil
  have hoi : ∀ p, p ∈ our ↔ p ∈ items := fun p => by rw [h2]; simp
  have h4 := solo_add c (c.setOrd (our.filter (fun p => !c.files.contains p))) c.mtime (c.setOrd (c.files.filter (fun p => !our.contains p))) items
  obtain ⟨l, h5, h6⟩ := remove_counts c c.mtime (c.setOrd (our.filter (fun p => !c.files.contains p))) (items ++ c.setOrd (c.files.filter (fun p => !our.contains p)))
    ((hc.1 _).nodup_iff.2 (ho.filter _)) (fun p hp => by
      rw [(hc.1 _).mem_iff, List.mem_filter, hoi] at hp
      exact List.mem_append_left _ hp.1)
  obtain ⟨l', h7, h8⟩ := solo_sort c c.mtime l hc
  obtain ⟨n, h9⟩ : UReach (⟨items, false, t⟩, .check c) (⟨l', false, c.mtime⟩, .done (.ok true)) :=
    .one (y := (⟨items, false, t⟩, .setTime c)) (by simp only [ustep, if_neg hq']) (.one (y := (⟨items, false, c.mtime⟩, .scan c 0 [])) rfl (((h3.trans h4).trans h6).trans h8))
  refine ⟨n, ⟨l', false, c.mtime⟩, ?_, fun p => ?_⟩
  · rw [urun_solo i n _ _ hs]
    dsimp only
    rw [h9]
  · dsimp only
    rw [h7.count_eq, h5, List.count_append, (hc.1 _).count_eq, List.Nodup.count (hf.filter _)]
    simp only [(hc.1 _).mem_iff, List.mem_filter, hoi, List.contains_eq_mem, Bool.not_eq_true', decide_eq_false_iff_not]
    by_cases h1 : p ∈ c.files <;> by_cases h2 : p ∈ items <;> simp [h1, h2]
    · exact List.count_eq_zero_of_not_mem h2
    · rw [List.count_eq_zero_of_not_mem h2]

/-! ### several calls at once -/

theorem urun_append (s : USys) (a b : List Nat) : s.run (a ++ b) = (s.run a).run b := List.foldl_append ..

/-- **C118** two calls at once add packs twice: whatever the list and the files, if both calls compare the list with the files before one of them changes it, both return True, and every new
pack is in the list twice. -/
theorem C118_twice (db : UDb) (hm : db.mark = false) (hi : db.items.Nodup) (c : UCall) (hc : UCall.Fair c) (hforce : c.force = true) (hf : c.files.Nodup)
    (hold : ∀ p ∈ db.items, p ∈ c.files) :
    ∃ sched db', USys.run ⟨db, [.check c, .check c]⟩ sched = ⟨db', [.done (.ok true), .done (.ok true)]⟩ ∧
      ∀ p ∈ c.files, db'.items.count p = if p ∈ db.items then 1 else 2 := by
  obtain ⟨items, mark, t⟩ := db
  dsimp only at hm hi hold ⊢
  subst hm
  have start : ∀ t, ∃ our : List Nat, (∀ p, p ∈ our ↔ p ∈ items) ∧ UReach (⟨items, false, t⟩, .check c) (⟨items, false, c.mtime⟩, afterScan c our) := by
    intro t
    obtain ⟨our, h1, h2, h3⟩ := solo_scan c ⟨items, false, c.mtime⟩ items.length 0 [] rfl .nil
    exact ⟨our, fun p => by rw [h2]; simp, .one (y := (⟨items, false, t⟩, .setTime c)) (by simp [ustep, hforce]) (.one (y := (⟨items, false, c.mtime⟩, .scan c 0 [])) rfl h3)⟩
  have rest : ∀ (our l : List Nat), (∀ p, p ∈ our ↔ p ∈ items) → ∃ l' : List Nat, (∀ p, l'.count p = l.count p + (c.files.filter (fun p => !items.contains p)).count p) ∧
      UReach (⟨l, false, c.mtime⟩, afterScan c our) (⟨l', false, c.mtime⟩, .done (.ok true)) := by
    intro our l ho
    have hg : our.filter (fun p => !c.files.contains p) = [] := by
      rw [List.filter_eq_nil_iff]
      intro p hp
      simp [hold p ((ho p).1 hp)]
    have hg' : c.setOrd (our.filter (fun p => !c.files.contains p)) = [] := by
      rw [hg]; exact (hc.1 []).eq_nil
    have hn : c.files.filter (fun p => !our.contains p) = c.files.filter (fun p => !items.contains p) := by
      apply List.filter_congr
      intro p _
      have := ho p
      by_cases h : p ∈ items <;> simp [h, this]
    have h1 := solo_add c (c.setOrd (our.filter (fun p => !c.files.contains p))) c.mtime (c.setOrd (c.files.filter (fun p => !our.contains p))) l
    rw [show UPc.add c (c.setOrd (c.files.filter (fun p => !our.contains p))) (c.setOrd (our.filter (fun p => !c.files.contains p))) = afterScan c our from rfl, hg', hn] at h1
    obtain ⟨l', h2, h3⟩ := solo_sort c c.mtime (l ++ c.setOrd (c.files.filter (fun p => !items.contains p))) hc
    refine ⟨l', fun p => ?_, h1.trans (.one (y := (_, .presort c)) rfl h3)⟩
    rw [h2.count_eq, List.count_append, (hc.1 _).count_eq]
  obtain ⟨o1, ho1, n1, h1⟩ := start t
  obtain ⟨o2, ho2, n2, h2⟩ := start c.mtime
  obtain ⟨l1, hl1, n3, h3⟩ := rest o1 items ho1
  obtain ⟨l2, hl2, n4, h4⟩ := rest o2 l1 ho2
  refine ⟨((List.replicate n1 0 ++ List.replicate n2 1) ++ List.replicate n3 0) ++ List.replicate n4 1, ⟨l2, false, c.mtime⟩, ?_, ?_⟩
  · rw [urun_append, urun_append, urun_append, urun_solo 0 n1 _ (.check c) rfl, h1, urun_solo 1 n2 _ (.check c) rfl]
    dsimp only
    rw [h2, urun_solo 0 n3 _ (afterScan c o1) rfl]
    dsimp only
    rw [h3, urun_solo 1 n4 _ (afterScan c o2) rfl]
    dsimp only
    rw [h4]
    rfl
  · intro p hp
    rw [hl2, hl1]
    by_cases h : p ∈ items
    · rw [if_pos h, hi.count, if_pos h, List.count_eq_zero_of_not_mem]
      simp [h]
    · rw [if_neg h, List.count_eq_zero_of_not_mem h, List.Nodup.count (hf.filter _), if_pos]
      simp [h, hp]

theorem eq_singleton {l : List Nat} {p : Nat} (hn : l.Nodup) (h : ∀ x, x ∈ l ↔ x = p) : l = [p] := by
  cases l with
  | nil => exact absurd ((h p).2 rfl) nofun
  | cons a l =>
    have ha : a = p := (h a).1 (List.mem_cons_self ..)
    subst ha
    cases l with
    | nil => rfl
    | cons b l =>
      have hb : b = a := (h b).1 (List.mem_cons_of_mem _ (List.mem_cons_self ..))
      subst hb
      exact absurd (List.mem_cons_self ..) (List.nodup_cons.1 hn).1

/-- A call after the pack `p` was removed from the directory: it is going to remove it from the list. -/
theorem start_gone (l1 l2 : List Nat) (p t : Nat) (hp1 : p ∉ l1) (hp2 : p ∉ l2) (c : UCall) (hc : UCall.Fair c) (hforce : c.force = true) (hf : ∀ x, x ∈ c.files ↔ x ∈ l1 ∨ x ∈ l2) :
    UReach (⟨l1 ++ p :: l2, false, t⟩, .check c) (⟨l1 ++ p :: l2, false, c.mtime⟩, .remove c [p]) := by
  have hpf : p ∉ c.files := fun h => ((hf p).1 h).elim hp1 hp2
  obtain ⟨our, h1, h2, h3⟩ := solo_scan c ⟨l1 ++ p :: l2, false, c.mtime⟩ (l1 ++ p :: l2).length 0 [] rfl .nil
  have ho : ∀ x, x ∈ our ↔ x ∈ l1 ∨ x = p ∨ x ∈ l2 := fun x => by rw [h2]; simp
  have e1 : c.setOrd (c.files.filter (fun x => !our.contains x)) = [] := by
    rw [show c.files.filter (fun x => !our.contains x) = [] from ?_]
    · exact (hc.1 []).eq_nil
    · rw [List.filter_eq_nil_iff]
      intro x hx
      have : x ∈ our := by
        rw [ho]
        exact ((hf x).1 hx).elim .inl fun h => .inr (.inr h)
      simp [this]
  have e2 : c.setOrd (our.filter (fun x => !c.files.contains x)) = [p] := by
    refine eq_singleton ((hc.1 _).nodup_iff.2 (h1.filter _)) fun x => ?_
    rw [(hc.1 _).mem_iff, List.mem_filter, ho]
    simp only [List.contains_eq_mem, Bool.not_eq_true', decide_eq_false_iff_not, hf]
    constructor
    · rintro ⟨h | h | h, k⟩
      · exact absurd (.inl h) k
      · exact h
      · exact absurd (.inr h) k
    · rintro rfl
      exact ⟨.inr (.inl rfl), fun k => hpf ((hf _).2 k)⟩
  have h4 : UReach (⟨l1 ++ p :: l2, false, c.mtime⟩, afterScan c our) (⟨l1 ++ p :: l2, false, c.mtime⟩, .remove c [p]) := by
    unfold afterScan
    rw [e1, e2]
    exact .one (y := (_, .remove c [p])) rfl (.refl _)
  exact .one (y := (⟨l1 ++ p :: l2, false, t⟩, .setTime c)) (by simp [ustep, hforce]) (.one (y := (⟨l1 ++ p :: l2, false, c.mtime⟩, .scan c 0 [])) rfl (h3.trans h4))

theorem solo_found (l1 l2 : List Nat) (p t : Nat) (hp1 : p ∉ l1) (c : UCall) : UReach (⟨l1 ++ p :: l2, false, t⟩, .remove c [p]) (⟨l1 ++ p :: l2, false, t⟩, .del c [] l1.length) :=
  .one (y := (_, .find c [] p 0)) rfl (solo_find c [] p _ l1 l2 rfl hp1 l1.length 0 (by omega))

theorem solo_del (l1 l2 : List Nat) (x t : Nat) (c : UCall) : UReach (⟨l1 ++ x :: l2, false, t⟩, .del c [] l1.length) (⟨l1 ++ l2, false, t⟩, .remove c []) := by
  refine .one (y := (⟨l1 ++ l2, false, t⟩, .remove c [])) ?_ (.refl _)
  have : (l1 ++ x :: l2).eraseIdx l1.length = l1 ++ l2 := by rw [List.eraseIdx_append_of_length_le (Nat.le_refl _)]; simp
  simp [ustep, this]

theorem solo_last (c : UCall) (hc : UCall.Fair c) (t : Nat) (l : List Nat) : ∃ l' : List Nat, l'.Perm l ∧ UReach (⟨l, false, t⟩, .remove c []) (⟨l', false, t⟩, .done (.ok true)) := by
  obtain ⟨l', h1, h2⟩ := solo_sort c t l hc
  exact ⟨l', h1, .one (y := (_, .presort c)) rfl h2⟩

theorem solo_not_found (c : UCall) (gone : List Nat) (p : Nat) (db : UDb) (hp : p ∉ db.items) : ∀ (m k : Nat), db.items.length - k = m →
    UReach (db, .find c gone p k) (db, .done (.error .assertionError))
  | 0, k, hm => .one (y := (db, .done (.error .assertionError))) (by simp only [ustep, List.getElem?_eq_none (show db.items.length ≤ k by omega)]) (.refl _)
  | m + 1, k, hm => by
    have hk : k < db.items.length := by omega
    refine .one (y := (db, .find c gone p (k + 1))) ?_ (solo_not_found c gone p db hp m (k + 1) (by omega))
    have hne : db.items[k] ≠ p := fun h => hp (h ▸ List.getElem_mem hk)
    simp only [ustep, List.getElem?_eq_getElem hk, if_neg hne]

/-- **C118** packs are lost: if a pack `p` was removed from the directory and nothing else changed, and two calls find its place in the list before one of them deletes what is
at that place, then both return True, and the pack `q` behind it, which is still in the directory, is not in the list any more. -/
theorem C118_lost (l1 l2 : List Nat) (p q t : Nat) (hi : (l1 ++ p :: q :: l2).Nodup) (c : UCall) (hc : UCall.Fair c) (hforce : c.force = true)
    (hf : ∀ x, x ∈ c.files ↔ x ∈ l1 ∨ x ∈ q :: l2) :
    ∃ sched db', USys.run ⟨⟨l1 ++ p :: q :: l2, false, t⟩, [.check c, .check c]⟩ sched = ⟨db', [.done (.ok true), .done (.ok true)]⟩ ∧ db'.items.Perm (l1 ++ l2) ∧
      q ∈ c.files ∧ q ∉ db'.items := by
  have hn := List.nodup_append.1 hi
  have hn2 := List.nodup_cons.1 hn.2.1
  have hn3 := List.nodup_cons.1 hn2.2
  have hp1 : p ∉ l1 := fun h => hn.2.2 p h p (List.mem_cons_self ..) rfl
  have hq1 : q ∉ l1 := fun h => hn.2.2 q h q (List.mem_cons_of_mem _ (List.mem_cons_self ..)) rfl
  have start : ∀ t, UReach (⟨l1 ++ p :: q :: l2, false, t⟩, .check c) (⟨l1 ++ p :: q :: l2, false, c.mtime⟩, .del c [] l1.length) := fun t =>
    (start_gone l1 (q :: l2) p t hp1 hn2.1 c hc hforce hf).trans (solo_found l1 (q :: l2) p _ hp1 c)
  obtain ⟨n1, h1⟩ := start t
  obtain ⟨n2, h2⟩ := start c.mtime
  obtain ⟨n3, h3⟩ := solo_del l1 (q :: l2) p c.mtime c
  obtain ⟨n4, h4⟩ := solo_del l1 l2 q c.mtime c
  obtain ⟨k1, hk1, n5, h5⟩ := solo_last c hc c.mtime (l1 ++ l2)
  obtain ⟨k2, hk2, n6, h6⟩ := solo_last c hc c.mtime k1
  refine ⟨((((List.replicate n1 0 ++ List.replicate n2 1) ++ List.replicate n3 0) ++ List.replicate n4 1) ++ List.replicate n5 0) ++ List.replicate n6 1, ⟨k2, false, c.mtime⟩, ?_,
    hk2.trans hk1, (hf q).2 (.inr (List.mem_cons_self ..)), ?_⟩
  · rw [urun_append, urun_append, urun_append, urun_append, urun_append, urun_solo 0 n1 _ (.check c) rfl, h1, urun_solo 1 n2 _ (.check c) rfl]
    dsimp only
    rw [h2, urun_solo 0 n3 _ (.del c [] l1.length) rfl]
    dsimp only
    rw [h3, urun_solo 1 n4 _ (.del c [] l1.length) rfl]
    dsimp only
    rw [h4, urun_solo 0 n5 _ (.remove c []) rfl]
    dsimp only
    rw [h5, urun_solo 1 n6 _ (.remove c []) rfl]
    dsimp only
    rw [h6]
    rfl
  · rw [(hk2.trans hk1).mem_iff, List.mem_append]
    exact fun h => h.elim hq1 hn3.1

/-- **C118** if the first call has removed the pack before the second one looks for it, that one raises `AssertionError`; the list is right then. -/
theorem C118_assertion (l1 l2 : List Nat) (p t : Nat) (hi : (l1 ++ p :: l2).Nodup) (c : UCall) (hc : UCall.Fair c) (hforce : c.force = true)
    (hf : ∀ x, x ∈ c.files ↔ x ∈ l1 ∨ x ∈ l2) :
    ∃ sched db', USys.run ⟨⟨l1 ++ p :: l2, false, t⟩, [.check c, .check c]⟩ sched = ⟨db', [.done (.ok true), .done (.error .assertionError)]⟩ ∧ db'.items.Perm (l1 ++ l2) := by
  have hn := List.nodup_append.1 hi
  have hn2 := List.nodup_cons.1 hn.2.1
  have hp1 : p ∉ l1 := fun h => hn.2.2 p h p (List.mem_cons_self ..) rfl
  obtain ⟨n1, h1⟩ := start_gone l1 l2 p t hp1 hn2.1 c hc hforce hf
  obtain ⟨n2, h2⟩ := start_gone l1 l2 p c.mtime hp1 hn2.1 c hc hforce hf
  obtain ⟨k1, hk1, h5⟩ := solo_last c hc c.mtime (l1 ++ l2)
  obtain ⟨n3, h3⟩ := ((solo_found l1 l2 p c.mtime hp1 c).trans (solo_del l1 l2 p c.mtime c)).trans h5
  have hpk : p ∉ k1 := by
    rw [hk1.mem_iff, List.mem_append]
    exact fun h => h.elim hp1 hn2.1
  obtain ⟨n4, h4⟩ : UReach (⟨k1, false, c.mtime⟩, .remove c [p]) (⟨k1, false, c.mtime⟩, .done (.error .assertionError)) :=
    .one (y := (_, .find c [] p 0)) rfl (solo_not_found c [] p ⟨k1, false, c.mtime⟩ hpk _ 0 rfl)
  refine ⟨((List.replicate n1 0 ++ List.replicate n2 1) ++ List.replicate n3 0) ++ List.replicate n4 1, ⟨k1, false, c.mtime⟩, ?_, hk1⟩
  rw [urun_append, urun_append, urun_append, urun_solo 0 n1 _ (.check c) rfl, h1, urun_solo 1 n2 _ (.check c) rfl]
  dsimp only
  rw [h2, urun_solo 0 n3 _ (.remove c [p]) rfl]
  dsimp only
  rw [h3, urun_solo 1 n4 _ (.remove c [p]) rfl]
  dsimp only
  rw [h4]
  rfl

/-- **C118** if both have found the pack and it is the last one in the list, the second one raises `IndexError`. -/
theorem C118_index (l : List Nat) (p t : Nat) (hp : p ∉ l) (c : UCall) (hc : UCall.Fair c) (hforce : c.force = true) (hf : ∀ x, x ∈ c.files ↔ x ∈ l) :
    ∃ sched db', USys.run ⟨⟨l ++ [p], false, t⟩, [.check c, .check c]⟩ sched = ⟨db', [.done (.ok true), .done (.error .indexError)]⟩ ∧ db'.items.Perm l := by
  have start : ∀ t, UReach (⟨l ++ [p], false, t⟩, .check c) (⟨l ++ [p], false, c.mtime⟩, .del c [] l.length) := fun t =>
    (start_gone l [] p t hp nofun c hc hforce (fun x => by rw [hf]; simp)).trans (solo_found l [] p _ hp c)
  obtain ⟨n1, h1⟩ := start t
  obtain ⟨n2, h2⟩ := start c.mtime
  obtain ⟨k1, hk1, h5⟩ := solo_last c hc c.mtime (l ++ [])
  obtain ⟨n3, h3⟩ := (solo_del l [] p c.mtime c).trans h5
  rw [List.append_nil] at hk1
  have h4 : ustep ⟨k1, false, c.mtime⟩ (.del c [] l.length) = (⟨k1, false, c.mtime⟩, .done (.error .indexError)) := by
    simp [ustep, hk1.length_eq]
  refine ⟨((List.replicate n1 0 ++ List.replicate n2 1) ++ List.replicate n3 0) ++ List.replicate 1 1, ⟨k1, false, c.mtime⟩, ?_, hk1⟩
  rw [urun_append, urun_append, urun_append, urun_solo 0 n1 _ (.check c) rfl, h1, urun_solo 1 n2 _ (.check c) rfl]
  dsimp only
  rw [h2, urun_solo 0 n3 _ (.del c [] l.length) rfl]
  dsimp only
  rw [h3, urun_solo 1 1 _ (.del c [] l.length) rfl]
  simp only [usolo, h4]
  rfl

/-- **C118** a pack `p` that one call adds while the list is being sorted by another one is lost: the sort raises `ValueError`, the call that has found the pack returns True. -/
theorem C118_value (l : List Nat) (p t : Nat) (hl : l ≠ []) (hp : p ∉ l) (c c' : UCall) (hc : UCall.Fair c) (hc' : UCall.Fair c') (hforce : c.force = true) (hforce' : c'.force = true)
    (hf : ∀ x, x ∈ c.files ↔ x ∈ l) (hn : c'.files.Nodup) (hf' : ∀ x, x ∈ c'.files ↔ x ∈ l ∨ x = p) :
    ∃ sched db', USys.run ⟨⟨l, false, t⟩, [.check c, .check c']⟩ sched = ⟨db', [.done (.error .valueError), .done (.ok true)]⟩ ∧ db'.items.Perm l := by
  have nothing : ∀ (c : UCall) (_ : UCall.Fair c) (m : List Nat), (∀ x, x ∉ m) → c.setOrd m = [] := by
    intro c hc m hm
    rw [List.eq_nil_iff_forall_not_mem.2 hm]
    exact (hc.1 []).eq_nil
  -- the first one begins to sort
  have a1 : UReach (⟨l, false, t⟩, .check c) (⟨l, false, c.mtime⟩, .presort c) := by
    obtain ⟨our, h1, h2, h3⟩ := solo_scan c ⟨l, false, c.mtime⟩ l.length 0 [] rfl .nil
    have ho : ∀ x, x ∈ our ↔ x ∈ l := fun x => by rw [h2]; simp
    unfold afterScan at h3
    rw [nothing c hc (c.files.filter (fun x => !our.contains x)) (fun x hx => by simp [ho, hf] at hx),
      nothing c hc (our.filter (fun x => !c.files.contains x)) (fun x hx => by simp [ho, hf] at hx)] at h3
    exact .one (y := (⟨l, false, t⟩, .setTime c)) (by simp [ustep, hforce]) (.one (y := (⟨l, false, c.mtime⟩, .scan c 0 [])) rfl
      (h3.trans (.one (y := (_, .remove c [])) rfl (.one (y := (_, .presort c)) rfl (.refl _)))))
  -- the second one has found the new pack
  have a2 : UReach (⟨l, false, c.mtime⟩, .check c') (⟨l, false, c'.mtime⟩, .add c' [p] []) := by
    obtain ⟨our, h1, h2, h3⟩ := solo_scan c' ⟨l, false, c'.mtime⟩ l.length 0 [] rfl .nil
    have ho : ∀ x, x ∈ our ↔ x ∈ l := fun x => by rw [h2]; simp
    unfold afterScan at h3
    rw [nothing c' hc' (our.filter (fun x => !c'.files.contains x)) (fun x hx => by
        rw [List.mem_filter, ho] at hx
        simp [hf', hx.1] at hx),
      eq_singleton (l := c'.setOrd (c'.files.filter (fun x => !our.contains x))) (p := p) ((hc'.1 _).nodup_iff.2 (hn.filter _)) (fun x => by
        rw [(hc'.1 _).mem_iff, List.mem_filter, hf']
        simp only [List.contains_eq_mem, Bool.not_eq_true', decide_eq_false_iff_not, ho]
        constructor
        · rintro ⟨h | h, k⟩
          · exact absurd h k
          · exact h
        · rintro rfl
          exact ⟨.inr rfl, hp⟩)] at h3
    exact .one (y := (⟨l, false, c.mtime⟩, .setTime c')) (by simp [ustep, hforce']) (.one (y := (⟨l, false, c'.mtime⟩, .scan c' 0 [])) rfl h3)
  have a3 : ustep ⟨l, false, c'.mtime⟩ (.presort c) = (⟨[], true, c'.mtime⟩, .sort c l false l.length) := by simp only [ustep, if_neg hl]
  have a4 : ∀ n, UReach (⟨[p], false, c'.mtime⟩, .sort c l false n) (⟨c.sortOrd l, false, c'.mtime⟩, .done (.error .valueError)) := by
    intro n
    induction n with
    | zero => exact .one (y := (⟨c.sortOrd l, false, c'.mtime⟩, .done (.error .valueError))) rfl (.refl _)
    | succ n ih => exact .one (y := (⟨[p], false, c'.mtime⟩, .sort c l false n)) rfl ih
  obtain ⟨n1, h1⟩ := a1
  obtain ⟨n2, h2⟩ := a2
  obtain ⟨n3, h3⟩ := a4 l.length
  obtain ⟨k, hk, h4⟩ := solo_last c' hc' c'.mtime (c.sortOrd l)
  obtain ⟨n4, h4⟩ := UReach.one (x := (⟨c.sortOrd l, false, c'.mtime⟩, .add c' [] [])) rfl h4
  refine ⟨((((List.replicate n1 0 ++ List.replicate n2 1) ++ List.replicate 1 0) ++ List.replicate 1 1) ++ List.replicate n3 0) ++ List.replicate n4 1, ⟨k, false, c'.mtime⟩, ?_,
    hk.trans (hc.2 l)⟩
  rw [urun_append, urun_append, urun_append, urun_append, urun_append, urun_solo 0 n1 _ (.check c) rfl, h1, urun_solo 1 n2 _ (.check c') rfl]
  dsimp only
  rw [h2, urun_solo 0 1 _ (.presort c) rfl]
  simp only [usolo, a3]
  rw [urun_solo 1 1 _ (.add c' [p] []) rfl]
  simp only [usolo]
  rw [show ustep ⟨[], true, c'.mtime⟩ (.add c' [p] []) = (⟨[p], false, c'.mtime⟩, .add c' [] []) from rfl]
  dsimp only
  rw [urun_solo 0 n3 _ (.sort c l false l.length) rfl]
  dsimp only
  rw [h3, urun_solo 1 n4 _ (.add c' [] []) rfl]
  dsimp only
  rw [h4]
  rfl

/-! ### examples -/

/-- What the threads have returned. -/
def uouts (s : USys) : List (Option (Res Bool)) := s.threads.map fun
  | .done r => some r
  | _ => none

/-- A call that finds these files. -/
def ufind (files : List Nat) : UCall := ⟨true, 1, files, id, id⟩

theorem ufind_fair (files : List Nat) : UCall.Fair (ufind files) := ⟨fun _ => .refl _, fun _ => .refl _⟩

/-- Three calls, two of them at the same time. -/
example := C118_sound ⟨[0, 1, 2], false, 0⟩ [ufind [0, 2], ufind [2, 3], ufind []] (by
  intro c hc
  simp only [List.mem_cons, List.not_mem_nil, or_false] at hc
  rcases hc with rfl | rfl | rfl <;> exact ufind_fair _) [0, 1, 0, 0, 1, 0, 0, 1, 2, 2, 2, 2, 1, 1, 0, 0, 0, 0, 0, 0, 0] _ rfl
/-- Pack 1 is gone, pack 3 is new. -/
example := C118_alone ⟨⟨[0, 1, 2], false, 0⟩, [.check (ufind [3, 0, 2])]⟩ 0 _ rfl (ufind_fair _) (by decide) (by decide) rfl
example : (USys.run ⟨⟨[0, 1, 2], false, 0⟩, [.check (ufind [3, 0, 2])]⟩ (List.replicate 25 0)).db = ⟨[0, 2, 3], false, 1⟩ := by decide +kernel
/-- Nothing has changed since the last call. -/
example : uouts (USys.run ⟨⟨[0, 1, 2], false, 1⟩, [.check { ufind [] with force := false }]⟩ [0]) = [some (.ok false)] := by decide +kernel
example := C118_twice ⟨[0], false, 0⟩ rfl (by decide) (ufind [0, 7]) (ufind_fair _) rfl (by decide) (by decide)
/-- Pack 0 is in the list twice; it stays, or one of its places stays. -/
example := C118_counts ⟨⟨[0, 1, 0], false, 0⟩, [.check (ufind [1])]⟩ 0 _ rfl (ufind_fair _) (by decide) rfl (.inl rfl)
example : (USys.run ⟨⟨[0, 1, 0], false, 0⟩, [.check (ufind [1])]⟩ (List.replicate 25 0)).db.items = [1, 0] := by decide +kernel
example := C118_lost [0] [3] 1 2 0 (by decide) (ufind [0, 2, 3]) (ufind_fair _) rfl (by intro x; simp [ufind])
example := C118_assertion [0] [2] 1 0 (by decide) (ufind [0, 2]) (ufind_fair _) rfl (by intro x; simp [ufind])
example := C118_index [0, 2] 1 0 (by decide) (ufind [0, 2]) (ufind_fair _) rfl (by intro x; simp [ufind])
example := C118_value [0, 2] 1 0 (by decide) (by decide) (ufind [0, 2]) (ufind [0, 2, 1]) (ufind_fair _) (ufind_fair _) rfl rfl (by intro x; simp [ufind]) (by decide)
  (by intro x; simp [ufind, or_assoc])
example : uouts (USys.run ⟨⟨[0, 1], false, 0⟩, [.check (ufind [0]), .check (ufind [0])]⟩ (List.replicate 5 1 ++ List.replicate 20 0 ++ List.replicate 9 1)) =
    [some (.ok true), some (.error .assertionError)] := by decide +kernel
example : uouts (USys.run ⟨⟨[0, 1], false, 0⟩, [.check (ufind [0]), .check (ufind [0])]⟩ (List.replicate 9 1 ++ List.replicate 20 0 ++ List.replicate 9 1)) =
    [some (.ok true), some (.error .indexError)] := by decide +kernel
example : let s := USys.run ⟨⟨[0], false, 0⟩, [.check (ufind [0]), .check (ufind [0, 1])]⟩ (List.replicate 4 1 ++ List.replicate 7 0 ++ List.replicate 1 1 ++ List.replicate 3 0 ++ List.replicate 9 1)
    uouts s = [some (.error .valueError), some (.ok true)] ∧ s.db.items = [0] := by decide +kernel

end GitDB.Props
