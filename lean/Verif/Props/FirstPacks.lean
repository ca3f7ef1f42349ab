import Verif.Model.FirstPacks
import Verif.Props.UpdateThreads
/-!
# C119: the first use of a `PackedDB` in several threads
-/
set_option autoImplicit false

namespace GitDB.Props
open GitDB

/-- A thread that runs the call `c`; packs it holds are known, and behind line 53 there is a list. -/
def FFits (K : Nat → Prop) (c : UCall) (cur : Option Nat) : FPc → Prop
  | .look c' | .make c' => c' = c
  | .ours c' | .scan c' _ _ _ | .presort c' => c' = c ∧ cur.isSome
  | .add c' new => c' = c ∧ cur.isSome ∧ ∀ p ∈ new, p ∈ c.files
  | .sort c' _ saved _ _ => c' = c ∧ cur.isSome ∧ ∀ p ∈ saved, K p
  | .done r => cur.isSome ∧ (r = .ok () ∨ r = .error .valueError)

/-- All packs in all lists are known. -/
def FKnown (K : Nat → Prop) (db : FDb) : Prop := ∀ l ∈ db.lists, ∀ p ∈ l.1, K p

theorem FKnown.get {K : Nat → Prop} {db : FDb} (h : FKnown K db) (o : Nat) : ∀ p ∈ (db.get o).1, K p := by
  unfold FDb.get
  rcases ho : db.lists[o]? with _ | x
  · exact nofun
  · exact h x (List.mem_of_getElem? ho)

theorem FKnown.set {K : Nat → Prop} {db : FDb} (h : FKnown K db) (o : Nat) (x : List Nat × Bool) (hx : ∀ p ∈ x.1, K p) : FKnown K { db with lists := db.lists.set o x } := by
  intro l hl
  rcases List.mem_or_eq_of_mem_set hl with hl | rfl
  · exact h l hl
  · exact hx

theorem FFits.mono {K : Nat → Prop} {c : UCall} {a b : Option Nat} (hab : a.isSome → b.isSome) {pc : FPc} (h : FFits K c a pc) : FFits K c b pc := by
  cases pc with
  | look _ => exact h
  | make _ => exact h
  | ours _ => exact ⟨h.1, hab h.2⟩
  | scan _ _ _ _ => exact ⟨h.1, hab h.2⟩
  | presort _ => exact ⟨h.1, hab h.2⟩
  | add _ _ => exact ⟨h.1, hab h.2.1, h.2.2⟩
  | sort _ _ _ _ _ => exact ⟨h.1, hab h.2.1, h.2.2⟩
  | done _ => exact ⟨hab h.1, h.2⟩

theorem fstep_fits {K : Nat → Prop} {c : UCall} (hc : UCall.Fair c) (hK : ∀ p ∈ c.files, K p) (db : FDb) (hdb : FKnown K db) (pc : FPc) (h : FFits K c db.cur pc) :
    FKnown K (fstep db pc).1 ∧ (db.cur.isSome → (fstep db pc).1.cur.isSome) ∧ FFits K c (fstep db pc).1.cur (fstep db pc).2 := by
  cases pc with
  | look c' =>
    cases h
    simp only [fstep]
    split
    · rename_i hh; exact ⟨hdb, id, hh, .inl rfl⟩
    · exact ⟨hdb, id, rfl⟩
  | make c' =>
    cases h
    refine ⟨fun l hl => ?_, fun _ => rfl, rfl, rfl⟩
    rcases List.mem_append.1 hl with hl | hl
    · exact hdb l hl
    · rw [List.mem_singleton.1 hl]; exact nofun
  | ours c' =>
    obtain ⟨rfl, h⟩ := h
    obtain ⟨o, ho⟩ := Option.isSome_iff_exists.1 h
    simp only [fstep, ho]
    exact ⟨hdb, id, rfl, rfl⟩
  | scan c' o k our =>
    obtain ⟨rfl, h⟩ := h
    simp only [fstep]
    split
    · exact ⟨hdb, id, rfl, h⟩
    · exact ⟨hdb, id, rfl, h, fun p hp => (List.mem_filter.1 ((hc.1 _).mem_iff.1 hp)).1⟩
  | add c' new =>
    obtain ⟨rfl, h, h2⟩ := h
    obtain ⟨o, ho⟩ := Option.isSome_iff_exists.1 h
    cases new with
    | nil => exact ⟨hdb, id, rfl, h⟩
    | cons p new =>
      simp only [fstep, ho]
      refine ⟨hdb.set _ _ fun q hq => ?_, fun _ => rfl, rfl, rfl, fun q hq => h2 q (List.mem_cons_of_mem _ hq)⟩
      rcases List.mem_append.1 hq with hq | hq
      · exact hdb.get o q hq
      · rw [List.mem_singleton.1 hq]; exact hK p (h2 p (List.mem_cons_self ..))
  | presort c' =>
    obtain ⟨rfl, h⟩ := h
    obtain ⟨o, ho⟩ := Option.isSome_iff_exists.1 h
    simp only [fstep, ho]
    split
    · exact ⟨hdb, fun _ => h, h, .inl rfl⟩
    · exact ⟨hdb.set _ _ nofun, fun _ => rfl, rfl, rfl, hdb.get o⟩
  | sort c' o saved mark n =>
    obtain ⟨rfl, h, h2⟩ := h
    cases n with
    | succ n => exact ⟨hdb, id, rfl, h, h2⟩
    | zero =>
      simp only [fstep]
      refine ⟨hdb.set _ _ fun p hp => h2 p ((hc.2 _).mem_iff.1 hp), id, ?_⟩
      split
      · exact ⟨h, .inl rfl⟩
      · exact ⟨h, .inr rfl⟩
  | done r => exact ⟨hdb, id, h⟩

/-- **C119** whatever the threads do: in the list are only packs that `glob` has found; a thread that is done finds a list, and gets the attribute or `ValueError`. -/
theorem C119_sound (calls : List UCall) (hc : ∀ c ∈ calls, UCall.Fair c) (sched : List Nat) (s : FSys) (hs : s = FSys.run ⟨{}, calls.map FPc.look⟩ sched) :
    (∀ l, s.db.entities = some l → ∀ p ∈ l, ∃ c ∈ calls, p ∈ c.files) ∧
    ∀ (i : Nat) (r : Res Unit), s.threads[i]? = some (.done r) → s.db.entities.isSome ∧ (r = .ok () ∨ r = .error .valueError) := by
  let K : Nat → Prop := fun p => ∃ c ∈ calls, p ∈ c.files
  have key : ∀ (sched : List Nat) (t : FSys), t.threads.length = calls.length → FKnown K t.db →
      (∀ (i : Nat) (c : UCall) (pc : FPc), calls[i]? = some c → t.threads[i]? = some pc → FFits K c t.db.cur pc) →
      (t.run sched).threads.length = calls.length ∧ FKnown K (t.run sched).db ∧
        ∀ (i : Nat) (c : UCall) (pc : FPc), calls[i]? = some c → (t.run sched).threads[i]? = some pc → FFits K c (t.run sched).db.cur pc := by
    intro sched
    induction sched with
    | nil => exact fun t h0 h1 h2 => ⟨h0, h1, h2⟩
    | cons i sched ih =>
      intro t hl h1 h2
      show ((t.step i).run sched).threads.length = _ ∧ _
      refine ih (t.step i) ?_ ?_ ?_ <;> unfold FSys.step <;> rcases hpc : t.threads[i]? with _ | pc
      · exact hl
      · dsimp only; rw [List.length_set]; exact hl
      · exact h1
      · have hi : i < calls.length := by rw [← hl]; exact (List.getElem?_eq_some_iff.mp hpc).1
        exact (fstep_fits (hc _ (List.getElem_mem hi)) (fun p hp => ⟨_, List.getElem_mem hi, hp⟩) t.db h1 pc (h2 i _ pc (List.getElem?_eq_getElem hi) hpc)).1
      · exact h2
      · intro j c pc' hj hpc'
        have hi : i < calls.length := by rw [← hl]; exact (List.getElem?_eq_some_iff.mp hpc).1
        have hstep := fstep_fits (hc _ (List.getElem_mem hi)) (fun p hp => ⟨_, List.getElem_mem hi, hp⟩) t.db h1 pc (h2 i _ pc (List.getElem?_eq_getElem hi) hpc)
        dsimp only at hpc' ⊢
        by_cases hji : i = j
        · subst hji
          rw [List.getElem?_set_self (List.getElem?_eq_some_iff.mp hpc).1] at hpc'
          cases hpc'
          rw [List.getElem?_eq_getElem hi] at hj
          cases hj
          exact hstep.2.2
        · rw [List.getElem?_set_ne hji] at hpc'
          exact (h2 j c pc' hj hpc').mono hstep.2.1
  obtain ⟨k0, k1, k2⟩ := key sched ⟨{}, calls.map FPc.look⟩ (by simp) nofun (by
    intro i c pc h1 h2
    simp only [List.getElem?_map, h1, Option.map_some, Option.some.injEq] at h2
    subst h2
    rfl)
  rw [← hs] at k0 k1 k2
  refine ⟨fun l hl => ?_, fun i r h => ?_⟩
  · unfold FDb.entities at hl
    rcases hcur : s.db.cur with _ | o
    · rw [hcur] at hl; cases hl
    · rw [hcur] at hl; cases hl; exact k1.get o
  · have hi : i < calls.length := by rw [← k0]; exact (List.getElem?_eq_some_iff.mp h).1
    have := k2 i _ _ (List.getElem?_eq_getElem hi) h
    refine ⟨?_, this.2⟩
    unfold FDb.entities
    rw [Option.isSome_map]
    exact this.1

/-! ### one thread at a time -/

/-- Some steps of one thread. -/
def fsolo : Nat → FDb × FPc → FDb × FPc
  | 0, x => x
  | n + 1, x => fsolo n (fstep x.1 x.2)

theorem fsolo_add (a b : Nat) (x : FDb × FPc) : fsolo (a + b) x = fsolo b (fsolo a x) := by
  induction a generalizing x with
  | zero => rw [Nat.zero_add]; rfl
  | succ a ih => rw [show a + 1 + b = (a + b) + 1 by omega]; exact ih _

/-- One state comes after the other. -/
def FReach (x y : FDb × FPc) : Prop := ∃ n, fsolo n x = y

theorem FReach.refl (x : FDb × FPc) : FReach x x := ⟨0, rfl⟩
theorem FReach.one {x y z : FDb × FPc} (h : fstep x.1 x.2 = y) (h2 : FReach y z) : FReach x z := by
  obtain ⟨n, h2⟩ := h2
  exact ⟨n + 1, by rw [← h2, ← h]; rfl⟩
theorem FReach.trans {x y z : FDb × FPc} (h : FReach x y) (h2 : FReach y z) : FReach x z := by
  obtain ⟨n, rfl⟩ := h
  obtain ⟨m, rfl⟩ := h2
  exact ⟨n + m, fsolo_add ..⟩

theorem frun_solo (i : Nat) : ∀ (n : Nat) (s : FSys) (pc : FPc), s.threads[i]? = some pc →
    s.run (List.replicate n i) = ⟨(fsolo n (s.db, pc)).1, s.threads.set i (fsolo n (s.db, pc)).2⟩
  | 0, s, pc, h => by
    have hl := (List.getElem?_eq_some_iff.mp h).1
    have : s.threads.set i pc = s.threads := by
      apply List.ext_getElem?
      intro j
      by_cases hj : i = j
      · subst hj; rw [List.getElem?_set_self hl, h]
      · rw [List.getElem?_set_ne hj]
    simp only [fsolo, this]
    rfl
  | n + 1, s, pc, h => by
    have hl := (List.getElem?_eq_some_iff.mp h).1
    have e : s.step i = ⟨(fstep s.db pc).1, s.threads.set i (fstep s.db pc).2⟩ := by unfold FSys.step; rw [h]
    rw [List.replicate_succ]
    show (s.step i).run (List.replicate n i) = _
    rw [e, frun_solo i n _ _ (List.getElem?_set_self hl)]
    simp only [List.set_set]
    rfl

theorem frun_append (s : FSys) (a b : List Nat) : s.run (a ++ b) = (s.run a).run b := List.foldl_append ..

/-- The last list that was made is `_entities`. -/
def flast (pre : List (List Nat × Bool)) (l : List Nat) (m : Bool) : FDb := ⟨pre ++ [(l, m)], some pre.length⟩

theorem flast_get (pre : List (List Nat × Bool)) (l : List Nat) (m : Bool) : (flast pre l m).get pre.length = (l, m) := by simp [flast, FDb.get]
theorem flast_set (pre : List (List Nat × Bool)) (l l' : List Nat) (m m' : Bool) :
    (⟨(flast pre l m).lists.set pre.length (l', m'), some pre.length⟩ : FDb) = flast pre l' m' := by simp [flast]
theorem flast_cur (pre : List (List Nat × Bool)) (l : List Nat) (m : Bool) : (flast pre l m).cur = some pre.length := rfl
theorem flast_entities (pre : List (List Nat × Bool)) (l : List Nat) (m : Bool) : (flast pre l m).entities = some l := by
  unfold FDb.entities; rw [flast_cur, Option.map_some, flast_get]

/-- A thread that has found no attribute makes a list, sees that it is empty, and is going to add all packs. -/
theorem solo_make (c : UCall) (pre : List (List Nat × Bool)) (cur : Option Nat) : FReach (⟨pre, cur⟩, .make c) (flast pre [] false, .add c (c.setOrd c.files)) := by
  refine .one (y := (flast pre [] false, .ours c)) rfl (.one (y := (flast pre [] false, .scan c pre.length 0 [])) rfl (.one ?_ (.refl _)))
  have : c.files.filter (fun p => !([] : List Nat).contains p) = c.files := List.filter_eq_self.2 fun _ _ => rfl
  simp only [fstep, flast_get, List.getElem?_nil, this]

theorem fstep_add (c : UCall) (pre : List (List Nat × Bool)) (l : List Nat) (m : Bool) (p : Nat) (new : List Nat) :
    fstep (flast pre l m) (.add c (p :: new)) = (flast pre (l ++ [p]) false, .add c new) := by
  simp only [fstep, flast_cur, flast_get, flast_set]

theorem solo_fill (c : UCall) (pre : List (List Nat × Bool)) : ∀ (new l : List Nat), FReach (flast pre l false, .add c new) (flast pre (l ++ new) false, .presort c)
  | [], l => by rw [List.append_nil]; exact .one (y := (flast pre l false, .presort c)) rfl (.refl _)
  | p :: new, l => by
    have := solo_fill c pre new (l ++ [p])
    rw [List.append_assoc] at this
    exact .one (fstep_add ..) this

theorem fstep_presort (c : UCall) (pre : List (List Nat × Bool)) (l : List Nat) (m : Bool) (hl : l ≠ []) :
    fstep (flast pre l m) (.presort c) = (flast pre [] true, .sort c pre.length l m l.length) := by
  simp only [fstep, flast_cur, flast_get, flast_set, if_neg hl]

theorem solo_sorting (c : UCall) (pre : List (List Nat × Bool)) (l l' : List Nat) (m m' : Bool) : ∀ n, FReach (flast pre l' m', .sort c pre.length l m n)
    (flast pre (c.sortOrd l) m, if m' then .done (.ok ()) else .done (.error .valueError))
  | 0 => .one (by simp only [fstep, flast_get, flast_cur, flast_set]) (.refl _)
  | n + 1 => .one (y := (flast pre l' m', .sort c pre.length l m n)) rfl (solo_sorting c pre l l' m m' n)

theorem solo_sorted (c : UCall) (hc : UCall.Fair c) (pre : List (List Nat × Bool)) (l : List Nat) :
    ∃ l' : List Nat, l'.Perm l ∧ FReach (flast pre l false, .presort c) (flast pre l' false, .done (.ok ())) := by
  by_cases h : l = []
  · subst h
    exact ⟨[], .refl _, .one (by simp only [fstep, flast_cur, flast_get, if_pos]) (.refl _)⟩
  · exact ⟨_, hc.2 l, .one (fstep_presort c pre l false h) (solo_sorting c pre l [] false true _)⟩

/-- **C119** a thread that is not disturbed gets the attribute, and in the list are the packs in the directory, each of them as often as `glob` has found it. -/
theorem C119_alone (s : FSys) (i : Nat) (c : UCall) (hs : s.threads[i]? = some (.look c)) (hn : s.db.cur = none) (hc : UCall.Fair c) :
    ∃ n db' l, s.run (List.replicate n i) = ⟨db', s.threads.set i (.done (.ok ()))⟩ ∧ db'.entities = some l ∧ l.Perm c.files := by
  obtain ⟨⟨lists, cur⟩, threads⟩ := s
  dsimp only at hs hn ⊢
  subst hn
  obtain ⟨l, h1, h2⟩ := solo_sorted c hc lists ([] ++ c.setOrd c.files)
  obtain ⟨n, h3⟩ : FReach (⟨lists, none⟩, .look c) (flast lists l false, .done (.ok ())) :=
    .one (y := (⟨lists, none⟩, .make c)) rfl (((solo_make c lists none).trans (solo_fill c lists _ _)).trans h2)
  refine ⟨n, flast lists l false, l, ?_, flast_entities .., h1.trans (hc.1 _)⟩
  rw [frun_solo i n _ _ hs]
  dsimp only
  rw [h3]

/-! ### several threads at once -/

/-- **C119** the list is there before the packs are in it: a thread that asks for the attribute while another one is making it gets an empty list, whatever is in the directory. -/
theorem C119_early (c c' : UCall) : ∃ sched db' pc, FSys.run ⟨{}, [.look c, .look c']⟩ sched = ⟨db', [pc, .done (.ok ())]⟩ ∧ db'.entities = some [] :=
  ⟨[0, 0, 1], flast [] [] false, .ours c, rfl, rfl⟩

/-- **C119** two threads add packs twice: if both have found no attribute, and each of them has looked at its own list before packs are added, both succeed, and every pack is in the list twice. -/
theorem C119_twice (c : UCall) (hc : UCall.Fair c) :
    ∃ sched db' l, FSys.run ⟨{}, [.look c, .look c]⟩ sched = ⟨db', [.done (.ok ()), .done (.ok ())]⟩ ∧ db'.entities = some l ∧ l.Perm (c.files ++ c.files) := by
  obtain ⟨n1, h1⟩ := solo_make c [] none
  obtain ⟨n2, h2⟩ := solo_make c [([], false)] (some 0)
  obtain ⟨n3, h3⟩ := solo_fill c [([], false)] (c.setOrd c.files) []
  obtain ⟨l1, hl1, k4⟩ := solo_sorted c hc [([], false)] ([] ++ c.setOrd c.files ++ c.setOrd c.files)
  obtain ⟨n4, h4⟩ := (solo_fill c [([], false)] (c.setOrd c.files) ([] ++ c.setOrd c.files)).trans k4
  obtain ⟨l2, hl2, n5, h5⟩ := solo_sorted c hc [([], false)] l1
  refine ⟨(((([0, 1] ++ List.replicate n1 0) ++ List.replicate n2 1) ++ List.replicate n3 0) ++ List.replicate n4 1) ++ List.replicate n5 0, flast [([], false)] l2 false, l2, ?_,
    flast_entities .., (hl2.trans hl1).trans ((hc.1 _).append (hc.1 _))⟩
  rw [frun_append, frun_append, frun_append, frun_append, frun_append,
    show FSys.run ⟨{}, [.look c, .look c]⟩ [0, 1] = ⟨⟨[], none⟩, [.make c, .make c]⟩ from rfl, frun_solo 0 n1 _ (.make c) rfl]
  dsimp only
  rw [h1, frun_solo 1 n2 _ (.make c) rfl]
  dsimp only
  rw [show flast [] [] false = ⟨[([], false)], some 0⟩ from rfl, h2, frun_solo 0 n3 _ (.add c (c.setOrd c.files)) rfl]
  dsimp only
  rw [h3, frun_solo 1 n4 _ (.add c (c.setOrd c.files)) rfl]
  dsimp only
  rw [h4, frun_solo 0 n5 _ (.presort c) rfl]
  dsimp only
  rw [h5]
  rfl

theorem solo_seen (c : UCall) (pre : List (List Nat × Bool)) (l : List Nat) (m : Bool) : ∀ (j k : Nat) (our : List Nat), l.length - k = j →
    ∃ our' : List Nat, (∀ p, p ∈ our' ↔ p ∈ our ∨ p ∈ l.drop k) ∧
      FReach (flast pre l m, .scan c pre.length k our) (flast pre l m, .add c (c.setOrd (c.files.filter (fun p => !our'.contains p))))
  | 0, k, our, hj => by
    have hk : l[k]? = none := List.getElem?_eq_none (by omega)
    refine ⟨our, fun p => ?_, .one (by simp only [fstep, flast_get, hk]) (.refl _)⟩
    rw [List.drop_eq_nil_of_le (by omega)]
    simp
  | j + 1, k, our, hj => by
    have hk : k < l.length := by omega
    obtain ⟨our', h2, h3⟩ := solo_seen c pre l m j (k + 1) (our.insert l[k]) (by omega)
    refine ⟨our', fun p => ?_, .one (by simp only [fstep, flast_get, List.getElem?_eq_getElem hk]) h3⟩
    rw [h2, List.drop_eq_getElem_cons hk, List.mem_insert_iff, List.mem_cons]
    constructor
    · rintro ((h | h) | h)
      · exact .inr (.inl h)
      · exact .inl h
      · exact .inr (.inr h)
    · rintro (h | h | h)
      · exact .inl (.inr h)
      · exact .inl (.inl h)
      · exact .inr h

/-- **C119** packs that another thread has added before are not added again: if both have found no attribute, and the first one has added packs to the list of the second one before that one looks
at it, both succeed, and every pack is in the list as often as `glob` has found it. -/
theorem C119_seen (c : UCall) (hc : UCall.Fair c) :
    ∃ n m, ∀ a ≥ n, ∀ b ≥ m, ∃ db' l, FSys.run ⟨{}, [.look c, .look c]⟩ ([0, 1, 0, 0, 0, 1] ++ List.replicate a 0 ++ List.replicate b 1) = ⟨db', [.done (.ok ()), .done (.ok ())]⟩ ∧
      db'.entities = some l ∧ l.Perm c.files := by
  have stays : ∀ (k n : Nat) (x : FDb × FPc) (db : FDb) (r : Res Unit), fsolo n x = (db, .done r) → n ≤ k → fsolo k x = (db, .done r) := by
    intro k n x db r h hk
    obtain ⟨d, rfl⟩ := Nat.exists_eq_add_of_le hk
    rw [fsolo_add, h]
    induction d with
    | zero => rfl
    | succ d ih => exact ih (by omega)
  obtain ⟨l1, hl1, k1⟩ := solo_sorted c hc [([], false)] ([] ++ c.setOrd c.files)
  obtain ⟨n1, h1⟩ := (solo_fill c [([], false)] (c.setOrd c.files) []).trans k1
  have hp1 : l1.Perm c.files := hl1.trans (hc.1 _)
  obtain ⟨our, ho, k2⟩ := solo_seen c [([], false)] l1 false l1.length 0 [] rfl
  have hnone : c.setOrd (c.files.filter (fun p => !our.contains p)) = [] := by
    rw [show c.files.filter (fun p => !our.contains p) = [] from ?_]
    · exact (hc.1 []).eq_nil
    · rw [List.filter_eq_nil_iff]
      intro p hp
      have : p ∈ our := (ho p).2 (.inr (hp1.mem_iff.2 hp))
      simp [this]
  rw [hnone] at k2
  obtain ⟨l2, hl2, k3⟩ := solo_sorted c hc [([], false)] l1
  obtain ⟨n2, h2⟩ : FReach (flast [([], false)] l1 false, .ours c) (flast [([], false)] l2 false, .done (.ok ())) :=
    .one (y := (_, .scan c 1 0 [])) rfl (k2.trans (.one (y := (_, .presort c)) rfl k3))
  refine ⟨n1, n2, fun a ha b hb => ⟨flast [([], false)] l2 false, l2, ?_, flast_entities .., hl2.trans hp1⟩⟩
  have e : c.files.filter (fun p => !([] : List Nat).contains p) = c.files := List.filter_eq_self.2 fun _ _ => rfl
  rw [frun_append, frun_append, show FSys.run ⟨{}, [.look c, .look c]⟩ [0, 1, 0, 0, 0, 1] =
    ⟨flast [([], false)] [] false, [.add c (c.setOrd (c.files.filter (fun p => !([] : List Nat).contains p))), .ours c]⟩ from rfl, e, frun_solo 0 a _ (.add c (c.setOrd c.files)) rfl]
  dsimp only
  rw [stays a n1 _ _ _ h1 ha, frun_solo 1 b _ (.ours c) rfl]
  dsimp only
  rw [stays b n2 _ _ _ h2 hb]
  rfl

/-- **C119** packs are lost: if there are several packs, it may be that one of two threads gets `ValueError`, the other one the attribute, and in the list there is only one pack. -/
theorem C119_lost (c : UCall) (hc : UCall.Fair c) (h2 : 2 ≤ c.files.length) :
    ∃ sched db' p, FSys.run ⟨{}, [.look c, .look c]⟩ sched = ⟨db', [.done (.error .valueError), .done (.ok ())]⟩ ∧ db'.entities = some [p] ∧ p ∈ c.files := by
  have hlen := (hc.1 c.files).length_eq
  have hmem := fun p => (hc.1 c.files).mem_iff (a := p)
  rcases ho : c.setOrd c.files with _ | ⟨p, _ | ⟨q, rest⟩⟩
  · rw [ho] at hlen; simp at hlen; omega
  · rw [ho] at hlen; simp at hlen; omega
  · have hs : c.sortOrd [p] = [p] := List.perm_singleton.1 (hc.2 [p])
    obtain ⟨n1, h1⟩ := (solo_make c [] none).trans (solo_fill c [] (c.setOrd c.files) [])
    let pre : List (List Nat × Bool) := [(c.setOrd c.files, false)]
    obtain ⟨n2, h2⟩ : FReach (⟨pre, some 0⟩, .make c) (flast pre [p] false, .add c (q :: rest)) := by
      have := solo_make c pre (some 0)
      rw [ho] at this
      exact this.trans (.one (fstep_add c pre [] false p (q :: rest)) (.refl _))
    have h3 : fstep (flast pre [p] false) (.presort c) = (flast pre [] true, .sort c pre.length [p] false 1) := fstep_presort c pre [p] false (by simp)
    obtain ⟨n4, h4⟩ : FReach (flast pre [] true, .add c (q :: rest)) (flast pre ([q] ++ rest) false, .presort c) :=
      .one (fstep_add c pre [] true q rest) (solo_fill c pre rest [q])
    obtain ⟨n5, h5⟩ := solo_sorting c pre [p] ([q] ++ rest) false false 1
    obtain ⟨n6, h6⟩ : FReach (flast pre [p] false, .presort c) (flast pre [p] false, .done (.ok ())) := by
      have := solo_sorting c pre [p] [] false true 1
      rw [hs] at this
      exact .one h3 this
    rw [hs] at h5
    refine ⟨((((([0, 1] ++ List.replicate n1 0) ++ List.replicate n2 1) ++ List.replicate 1 0) ++ List.replicate n4 1) ++ List.replicate n5 0) ++ List.replicate n6 1,
      flast pre [p] false, p, ?_, flast_entities .., (hmem p).1 (by rw [ho]; exact List.mem_cons_self ..)⟩
    rw [frun_append, frun_append, frun_append, frun_append, frun_append, frun_append,
      show FSys.run ⟨{}, [.look c, .look c]⟩ [0, 1] = ⟨⟨[], none⟩, [.make c, .make c]⟩ from rfl, frun_solo 0 n1 _ (.make c) rfl]
    dsimp only
    rw [h1, frun_solo 1 n2 _ (.make c) rfl]
    dsimp only
    rw [show flast [] ([] ++ c.setOrd c.files) false = ⟨pre, some 0⟩ from rfl, h2, frun_solo 0 1 _ (.presort c) rfl]
    simp only [fsolo, h3]
    rw [frun_solo 1 n4 _ (.add c (q :: rest)) rfl]
    dsimp only
    rw [h4, frun_solo 0 n5 _ (.sort c pre.length [p] false 1) rfl]
    dsimp only
    rw [h5, frun_solo 1 n6 _ (.presort c) rfl]
    dsimp only
    rw [h6]
    rfl

/-! ### nothing is lost unless a thread gets `ValueError` -/

theorem get_set (db : FDb) (o o' : Nat) (x : List Nat × Bool) (ho : o < db.lists.length) :
    FDb.get { db with lists := db.lists.set o x } o' = if o = o' then x else db.get o' := by
  unfold FDb.get
  dsimp only
  split
  · rename_i h; subst h; rw [List.getElem?_set_self ho]; rfl
  · rename_i h; rw [List.getElem?_set_ne h]

/-- A list that is not empty is not being sorted. -/
def FMarks (db : FDb) : Prop := ∀ o, (db.get o).1 ≠ [] → (db.get o).2 = false

/-- A thread that sees the packs `F`. -/
def FOk (F : List Nat) (db : FDb) : FPc → Prop
  | .look c | .make c | .ours c | .scan c _ _ _ | .presort c | .add c _ => UCall.Fair c ∧ ∀ p, p ∈ c.files ↔ p ∈ F
  | .sort c o _ m _ => (UCall.Fair c ∧ ∀ p, p ∈ c.files ↔ p ∈ F) ∧ m = false ∧ o < db.lists.length
  | .done _ => True

/-- The thread sorts list `o` and holds the pack. -/
def FHolds (o p : Nat) : FPc → Prop
  | .sort _ o' saved _ _ => o' = o ∧ p ∈ saved
  | _ => False

/-- Every pack is there, or the thread is going to add it to list `o`. -/
def FCover (F : List Nat) (H : Nat → Prop) (o : Nat) : FPc → Prop
  | .look _ | .make _ => False
  | .ours _ => True
  | .scan _ o' _ our => o' = o ∧ ∀ p ∈ our, H p
  | .add _ new => ∀ p ∈ F, H p ∨ p ∈ new
  | .presort _ | .sort _ _ _ _ _ | .done _ => ∀ p ∈ F, H p

theorem FCover.mono {F : List Nat} {H H' : Nat → Prop} {o : Nat} (hh : ∀ p, H p → H' p) {pc : FPc} (h : FCover F H o pc) : FCover F H' o pc := by
  cases pc with
  | look _ => exact h
  | make _ => exact h
  | ours _ => exact h
  | scan _ _ _ _ => exact ⟨h.1, fun p hp => hh p (h.2 p hp)⟩
  | add _ _ => exact fun p hp => (h p hp).imp (hh p) id
  | presort _ => exact fun p hp => hh p (h p hp)
  | sort _ _ _ _ _ => exact fun p hp => hh p (h p hp)
  | done _ => exact fun p hp => hh p (h p hp)

theorem fstep_length (db : FDb) (pc : FPc) : db.lists.length ≤ (fstep db pc).1.lists.length := by
  unfold fstep
  split <;> (try split) <;> (try split) <;> simp

theorem FOk.mono {F : List Nat} {db db' : FDb} (h : db.lists.length ≤ db'.lists.length) {pc : FPc} (hp : FOk F db pc) : FOk F db' pc := by
  cases pc with
  | sort _ _ _ _ _ => exact ⟨hp.1, hp.2.1, Nat.lt_of_lt_of_le hp.2.2 h⟩
  | _ => exact hp

theorem FMarks.set {db : FDb} (h : FMarks db) (o : Nat) (ho : o < db.lists.length) (x : List Nat × Bool) (hx : x.1 ≠ [] → x.2 = false) : FMarks { db with lists := db.lists.set o x } := by
  intro o'
  rw [get_set db o o' x ho]
  split
  · exact hx
  · exact h o'

theorem fstep_ok {F : List Nat} {db : FDb} (hm : FMarks db) (hcur : ∀ o, db.cur = some o → o < db.lists.length) {pc : FPc} (h : FOk F db pc) :
    FMarks (fstep db pc).1 ∧ FOk F (fstep db pc).1 (fstep db pc).2 ∧ (∀ o, (fstep db pc).1.cur = some o → o < (fstep db pc).1.lists.length) := by
  cases pc with
  | look c =>
    simp only [fstep]
    split
    · exact ⟨hm, trivial, hcur⟩
    · exact ⟨hm, h, hcur⟩
  | make c =>
    refine ⟨fun o => ?_, h, fun o ho => ?_⟩
    · have := hm o
      simp only [fstep, FDb.get] at this ⊢
      by_cases ho : o < db.lists.length
      · rw [List.getElem?_append_left ho]; exact this
      · rw [List.getElem?_append_right (by omega)]
        rcases o - db.lists.length with _ | k
        · exact fun k => absurd rfl k
        · exact fun k => absurd rfl k
    · simp only [fstep] at ho ⊢
      cases ho
      simp
  | ours c =>
    simp only [fstep]
    split
    · exact ⟨hm, trivial, hcur⟩
    · exact ⟨hm, h, hcur⟩
  | scan c o k our =>
    simp only [fstep]
    split <;> exact ⟨hm, h, hcur⟩
  | add c new =>
    cases new with
    | nil => exact ⟨hm, h, hcur⟩
    | cons p new =>
      simp only [fstep]
      split
      · exact ⟨hm, trivial, hcur⟩
      · rename_i o ho
        refine ⟨hm.set o (hcur o ho) _ fun _ => rfl, h, fun o' ho' => ?_⟩
        dsimp only at ho' ⊢
        rw [List.length_set]
        exact hcur o' ho'
  | presort c =>
    simp only [fstep]
    split
    · exact ⟨hm, trivial, hcur⟩
    · rename_i o ho
      split
      · exact ⟨hm, trivial, hcur⟩
      · rename_i hne
        refine ⟨hm.set o (hcur o ho) _ fun k => absurd rfl k, ⟨h, hm o hne, by dsimp only; rw [List.length_set]; exact hcur o ho⟩, fun o' ho' => ?_⟩
        dsimp only at ho' ⊢
        rw [List.length_set]
        exact hcur o' ho'
  | sort c o saved m n =>
    obtain ⟨h1, rfl, h3⟩ := h
    cases n with
    | succ n => exact ⟨hm, ⟨h1, rfl, h3⟩, hcur⟩
    | zero =>
      simp only [fstep]
      refine ⟨hm.set o h3 _ fun _ => rfl, by split <;> trivial, fun o' ho' => ?_⟩
      rw [List.length_set]
      exact hcur o' ho'
  | done r => exact ⟨hm, trivial, hcur⟩

/-- A step keeps a pack, or ends with `ValueError`. -/
theorem fstep_keeps {F : List Nat} {db : FDb} (hm : FMarks db) (hcur : ∀ o, db.cur = some o → o < db.lists.length) {pc : FPc} (h : FOk F db pc) (o p : Nat) (ho : o < db.lists.length)
    (hp : p ∈ (db.get o).1 ∨ FHolds o p pc) :
    (p ∈ ((fstep db pc).1.get o).1 ∨ FHolds o p (fstep db pc).2) ∨ (fstep db pc).2 = .done (.error .valueError) := by
  cases pc with
  | look c =>
    have hp := hp.resolve_right id
    simp only [fstep]
    split <;> exact .inl (.inl hp)
  | make c =>
    have hp := hp.resolve_right id
    refine .inl (.inl ?_)
    simp only [fstep, FDb.get] at hp ⊢
    rw [List.getElem?_append_left ho]
    exact hp
  | ours c =>
    have hp := hp.resolve_right id
    simp only [fstep]
    split <;> exact .inl (.inl hp)
  | scan c o k our =>
    have hp := hp.resolve_right id
    simp only [fstep]
    split <;> exact .inl (.inl hp)
  | add c new =>
    replace hp : p ∈ (db.get o).1 := hp.resolve_right id
    cases new with
    | nil => exact .inl (.inl hp)
    | cons q new =>
      simp only [fstep]
      split
      · exact .inl (.inl hp)
      · rename_i o' ho'
        refine .inl (.inl ?_)
        dsimp only
        rw [get_set db o' o _ (hcur o' ho')]
        split
        · rename_i e; subst e; exact List.mem_append_left _ hp
        · exact hp
  | presort c =>
    have hp := hp.resolve_right id
    simp only [fstep]
    split
    · exact .inl (.inl hp)
    · rename_i o' ho'
      split
      · exact .inl (.inl hp)
      · dsimp only
        rw [get_set db o' o _ (hcur o' ho')]
        split
        · rename_i e; subst e; exact .inl (.inr ⟨rfl, hp⟩)
        · exact .inl (.inl hp)
  | sort c o' saved m n =>
    obtain ⟨h1, h2, h3⟩ := h
    cases n with
    | succ n => exact .inl hp
    | zero =>
      simp only [fstep]
      rw [get_set db o' o _ h3]
      rcases hp with hp | ⟨rfl, hp⟩
      · by_cases e : o' = o
        · subst e
          have := hm o' (List.ne_nil_of_mem hp)
          rw [this]
          exact .inr rfl
        · rw [if_neg e]; exact .inl (.inl hp)
      · rw [if_pos rfl]
        exact .inl (.inl ((h1.1.2 saved).mem_iff.2 hp))
  | done r => exact .inl (.inl (hp.resolve_right id))

/-- A thread that sees to it that every pack is there goes on to do so. -/
theorem fstep_cover {F : List Nat} {db : FDb} {pc : FPc} (hcur : ∀ o, db.cur = some o → o < db.lists.length) (h : FOk F db pc) {H H' : Nat → Prop} {o : Nat} (ho : db.cur = some o) (hh : ∀ p, H p → H' p)
    (hdb : ∀ p ∈ (db.get o).1, H p) (hdb' : ∀ p ∈ ((fstep db pc).1.get o).1, H' p) (hc : FCover F H o pc) : FCover F H' o (fstep db pc).2 := by
  cases pc with
  | look c => exact hc.elim
  | make c => exact hc.elim
  | ours c =>
    simp only [fstep, ho]
    exact ⟨rfl, nofun⟩
  | scan c o' k our =>
    obtain ⟨rfl, hc⟩ := hc
    simp only [fstep]
    split
    · rename_i q hq
      refine ⟨rfl, fun p hp => ?_⟩
      rcases List.mem_insert_iff.1 hp with rfl | hp
      · exact hh _ (hdb _ (List.mem_of_getElem? hq))
      · exact hh _ (hc p hp)
    · intro p hp
      by_cases hpo : p ∈ our
      · exact .inl (hh _ (hc p hpo))
      · refine .inr ((h.1.1 _).mem_iff.2 (List.mem_filter.2 ⟨(h.2 p).2 hp, ?_⟩))
        simp [hpo]
  | add c new =>
    cases new with
    | nil => exact fun p hp => hh p ((hc p hp).resolve_right nofun)
    | cons q new =>
      simp only [fstep, ho] at hdb' ⊢
      intro p hp
      rcases hc p hp with k | k
      · exact .inl (hh p k)
      · rcases List.mem_cons.1 k with rfl | k
        · refine .inl (hdb' p ?_)
          have := get_set db o o ((db.get o).1 ++ [p], false) (hcur o ho)
          rw [ho] at this
          rw [this, if_pos rfl]
          simp
        · exact .inr k
  | presort c =>
    simp only [fstep, ho]
    split <;> exact fun p hp => hh p (hc p hp)
  | sort c o' saved m n =>
    cases n with
    | succ n => exact fun p hp => hh p (hc p hp)
    | zero =>
      simp only [fstep]
      split <;> exact fun p hp => hh p (hc p hp)
  | done r => exact fun p hp => hh p (hc p hp)

theorem fstep_cur (db : FDb) (pc : FPc) : (fstep db pc).1.cur = db.cur ∨ ∃ c, pc = .make c := by
  cases pc with
  | make c => exact .inr ⟨c, rfl⟩
  | add c new =>
    cases new with
    | nil => exact .inl rfl
    | cons p new => simp only [fstep]; split <;> exact .inl rfl
  | sort c o saved m n => cases n <;> exact .inl rfl
  | look c => simp only [fstep]; split <;> exact .inl rfl
  | ours c => simp only [fstep]; split <;> exact .inl rfl
  | scan c o k our => simp only [fstep]; split <;> exact .inl rfl
  | presort c =>
    simp only [fstep]
    split
    · exact .inl rfl
    · split <;> exact .inl rfl
  | done r => exact .inl rfl

/-- The pack is in list `o`, or held by a thread that sorts it. -/
def FHas (s : FSys) (o p : Nat) : Prop := p ∈ (s.db.get o).1 ∨ ∃ (j : Nat) (pc : FPc), s.threads[j]? = some pc ∧ FHolds o p pc

/-- What is true at every moment. -/
def FInv (F : List Nat) (s : FSys) : Prop :=
  FMarks s.db ∧ (∀ o, s.db.cur = some o → o < s.db.lists.length) ∧ (∀ (i : Nat) (pc : FPc), s.threads[i]? = some pc → FOk F s.db pc) ∧
  ∀ o, s.db.cur = some o → (∃ i : Nat, s.threads[i]? = some (FPc.done (.error .valueError))) ∨ ∃ (i : Nat) (pc : FPc), s.threads[i]? = some pc ∧ FCover F (FHas s o) o pc

theorem finv_step {F : List Nat} {s : FSys} (h : FInv F s) (i : Nat) : FInv F (s.step i) := by
  unfold FSys.step
  rcases hpc : s.threads[i]? with _ | pc
  · exact h
  obtain ⟨h1, h2, h3, h4⟩ := h
  have hi := (List.getElem?_eq_some_iff.mp hpc).1
  have hok := h3 i pc hpc
  obtain ⟨k1, k2, k3⟩ := fstep_ok h1 h2 hok
  refine ⟨k1, k3, fun j pc' hj => ?_, fun o ho => ?_⟩
  · dsimp only at hj ⊢
    by_cases e : i = j
    · subst e
      rw [List.getElem?_set_self hi] at hj
      cases hj
      exact k2
    · rw [List.getElem?_set_ne e] at hj
      exact (h3 j pc' hj).mono (fstep_length ..)
  · dsimp only at ho ⊢
    rcases fstep_cur s.db pc with hc | ⟨c, rfl⟩
    · rw [hc] at ho
      rcases h4 o ho with ⟨j, hj⟩ | ⟨j, pc', hj, hcov⟩
      · refine .inl ⟨j, ?_⟩
        by_cases e : i = j
        · subst e
          rw [hpc] at hj
          cases hj
          rw [List.getElem?_set_self hi]
          rfl
        · rw [List.getElem?_set_ne e]; exact hj
      · by_cases herr : (fstep s.db pc).2 = .done (.error .valueError)
        · exact .inl ⟨i, by rw [List.getElem?_set_self hi, herr]⟩
        · have keep : ∀ p, FHas s o p → FHas ⟨(fstep s.db pc).1, s.threads.set i (fstep s.db pc).2⟩ o p := by
            intro p hp
            have mine : p ∈ (s.db.get o).1 ∨ FHolds o p pc → FHas ⟨(fstep s.db pc).1, s.threads.set i (fstep s.db pc).2⟩ o p := by
              intro k
              rcases (fstep_keeps h1 h2 hok o p (h2 o ho) k).resolve_right herr with k | k
              · exact .inl k
              · exact .inr ⟨i, _, List.getElem?_set_self hi, k⟩
            rcases hp with hp | ⟨m, pm, hm, hp⟩
            · exact mine (.inl hp)
            · by_cases e : i = m
              · subst e
                rw [hpc] at hm
                cases hm
                exact mine (.inr hp)
              · exact .inr ⟨m, pm, by dsimp only; rw [List.getElem?_set_ne e]; exact hm, hp⟩
          refine .inr ?_
          by_cases e : i = j
          · subst e
            rw [hpc] at hj
            cases hj
            exact ⟨i, _, List.getElem?_set_self hi, fstep_cover h2 hok ho keep (fun p hp => .inl hp) (fun p hp => .inl hp) hcov⟩
          · exact ⟨j, pc', by rw [List.getElem?_set_ne e]; exact hj, hcov.mono keep⟩
    · exact .inr ⟨i, .ours c, by rw [List.getElem?_set_self hi]; rfl, trivial⟩

/-- **C119** whatever the threads do: once all have got the attribute and none of them `ValueError`, in the list are the packs in the directory (some of them perhaps several times). -/
theorem C119_complete (calls : List UCall) (F : List Nat) (hc : ∀ c ∈ calls, UCall.Fair c ∧ ∀ p, p ∈ c.files ↔ p ∈ F) (sched : List Nat) (s : FSys)
    (hs : s = FSys.run ⟨{}, calls.map FPc.look⟩ sched) (hd : ∀ pc ∈ s.threads, pc = .done (.ok ())) (l : List Nat) (hl : s.db.entities = some l) (p : Nat) : p ∈ l ↔ p ∈ F := by
  constructor
  · intro hp
    obtain ⟨c, h1, h2⟩ := (C119_sound calls (fun c h => (hc c h).1) sched s hs).1 l hl p hp
    exact ((hc c h1).2 p).1 h2
  · have key : ∀ (sched : List Nat) (t : FSys), FInv F t → FInv F (t.run sched) := by
      intro sched
      induction sched with
      | nil => exact fun _ h => h
      | cons i sched ih => exact fun t h => ih (t.step i) (finv_step h i)
    have inv := key sched ⟨{}, calls.map FPc.look⟩ ⟨fun _ h => absurd rfl h, nofun, fun i pc h => by
      obtain ⟨c, hcm, rfl⟩ := List.mem_map.1 (List.mem_of_getElem? h)
      exact hc c hcm, nofun⟩
    rw [← hs] at inv
    intro hp
    unfold FDb.entities at hl
    rcases hcur : s.db.cur with _ | o
    · rw [hcur] at hl; cases hl
    · rw [hcur] at hl; cases hl
      rcases inv.2.2.2 o hcur with ⟨i, h⟩ | ⟨i, pc, h, hcov⟩
      · have := hd _ (List.mem_of_getElem? h)
        cases this
      · have := hd _ (List.mem_of_getElem? h)
        subst this
        rcases hcov p hp with k | ⟨j, pj, hj, k⟩
        · exact k
        · rw [hd _ (List.mem_of_getElem? hj)] at k
          exact k.elim

/-! ### how often a pack may be in the list -/

/-- How often the thread may still put the pack into list `o`. -/
def FWeight (o p : Nat) : FPc → Nat
  | .look _ | .make _ | .ours _ | .scan _ _ _ _ => 1
  | .add _ new => new.count p
  | .sort _ o' saved _ _ => if o' = o then saved.count p else 0
  | .presort _ | .done _ => 0

/-- `glob` finds every pack once. -/
def FOnce : FPc → Prop
  | .look c | .make c | .ours c | .scan c _ _ _ | .presort c | .add c _ | .sort c _ _ _ _ => UCall.Fair c ∧ c.files.Nodup
  | .done _ => True

theorem fstep_once (db : FDb) {pc : FPc} (h : FOnce pc) : FOnce (fstep db pc).2 := by
  cases pc with
  | look c => simp only [fstep]; split <;> first | exact h | trivial
  | make c => exact h
  | ours c => simp only [fstep]; split <;> first | exact h | trivial
  | scan c o k our => simp only [fstep]; split <;> exact h
  | add c new =>
    cases new with
    | nil => exact h
    | cons p new => simp only [fstep]; split <;> first | exact h | trivial
  | presort c =>
    simp only [fstep]
    split
    · trivial
    · split <;> first | exact h | trivial
  | sort c o saved m n =>
    cases n with
    | succ n => exact h
    | zero => simp only [fstep]; split <;> trivial
  | done r => trivial

theorem count_get_set (db : FDb) (o o' : Nat) (x : List Nat × Bool) (p : Nat) :
    (FDb.get { db with lists := db.lists.set o' x } o).1.count p ≤ if o' = o then x.1.count p else (db.get o).1.count p := by
  unfold FDb.get
  dsimp only
  split
  · rename_i h
    subst h
    by_cases ho : o' < db.lists.length
    · rw [List.getElem?_set_self ho]; exact Nat.le_refl _
    · rw [List.getElem?_eq_none (by rw [List.length_set]; omega)]; exact Nat.zero_le _
  · rename_i h; rw [List.getElem?_set_ne h]; exact Nat.le_refl _

theorem fstep_weight (db : FDb) (o p : Nat) {pc : FPc} (h : FOnce pc) :
    ((fstep db pc).1.get o).1.count p + FWeight o p (fstep db pc).2 ≤ (db.get o).1.count p + FWeight o p pc := by
  cases pc with
  | look c => simp only [fstep]; split <;> simp [FWeight]
  | make c =>
    refine Nat.add_le_add ?_ (Nat.le_refl _)
    simp only [fstep, FDb.get]
    by_cases ho : o < db.lists.length
    · rw [List.getElem?_append_left ho]; exact Nat.le_refl _
    · rw [List.getElem?_append_right (by omega)]
      rcases o - db.lists.length with _ | k <;> exact Nat.zero_le _
  | ours c => simp only [fstep]; split <;> simp [FWeight]
  | scan c o' k our =>
    simp only [fstep]
    split
    · exact Nat.le_refl _
    · refine Nat.add_le_add (Nat.le_refl _) ?_
      simp only [FWeight]
      rw [(h.1.1 _).count_eq]
      exact List.nodup_iff_count.1 (h.2.filter _) p
  | add c new =>
    cases new with
    | nil => exact Nat.le_refl _
    | cons q new =>
      simp only [fstep]
      split
      · simp [FWeight]
      · rename_i o' ho'
        have := count_get_set db o o' ((db.get o').1 ++ [q], false) p
        simp only [FWeight, List.count_append, List.count_cons, List.count_nil] at this ⊢
        by_cases e : o' = o
        · subst e
          rw [if_pos rfl] at this
          omega
        · rw [if_neg e] at this
          omega
  | presort c =>
    simp only [fstep]
    split
    · exact Nat.le_refl _
    · rename_i o' ho'
      split
      · exact Nat.le_refl _
      · have := count_get_set db o o' ([], true) p
        simp only [FWeight, List.count_nil] at this ⊢
        by_cases e : o' = o
        · subst e
          simp only [if_pos] at this ⊢
          omega
        · simp only [if_neg e] at this ⊢
          omega
  | sort c o' saved m n =>
    cases n with
    | succ n => exact Nat.le_refl _
    | zero =>
      simp only [fstep]
      have := count_get_set db o o' (c.sortOrd saved, m) p
      have e0 : FWeight o p (if (db.get o').2 = true then FPc.done (.ok ()) else .done (.error .valueError)) = 0 := by split <;> rfl
      rw [e0]
      simp only [FWeight, (h.1.2 saved).count_eq] at this ⊢
      by_cases e : o' = o
      · subst e
        simp only [if_pos] at this ⊢
        omega
      · simp only [if_neg e] at this ⊢
        omega
  | done r => exact Nat.le_refl _

theorem sum_set (w : FPc → Nat) : ∀ (l : List FPc) (i : Nat) (a b : FPc), l[i]? = some a → ((l.set i b).map w).sum + w a = (l.map w).sum + w b
  | [], _, _, _, h => by simp at h
  | x :: l, 0, a, b, h => by
    simp only [List.getElem?_cons_zero, Option.some.injEq] at h
    subst h
    simp only [List.set_cons_zero, List.map_cons, List.sum_cons]
    omega
  | x :: l, i + 1, a, b, h => by
    have := sum_set w l i a b (by simpa using h)
    simp only [List.set_cons_succ, List.map_cons, List.sum_cons]
    omega

/-- **C119** whatever the threads do: no pack is in the list more often than there are threads. -/
theorem C119_at_most (calls : List UCall) (hc : ∀ c ∈ calls, UCall.Fair c ∧ c.files.Nodup) (sched : List Nat) (s : FSys) (hs : s = FSys.run ⟨{}, calls.map FPc.look⟩ sched)
    (l : List Nat) (hl : s.db.entities = some l) (p : Nat) : l.count p ≤ calls.length := by
  unfold FDb.entities at hl
  rcases hcur : s.db.cur with _ | o
  · rw [hcur] at hl; cases hl
  rw [hcur] at hl; cases hl
  have key : ∀ (sched : List Nat) (t : FSys), (∀ pc ∈ t.threads, FOnce pc) →
      ((t.run sched).db.get o).1.count p + ((t.run sched).threads.map (FWeight o p)).sum ≤ (t.db.get o).1.count p + (t.threads.map (FWeight o p)).sum := by
    intro sched
    induction sched with
    | nil => exact fun _ _ => Nat.le_refl _
    | cons i sched ih =>
      intro t ht
      show (((t.step i).run sched).db.get o).1.count p + _ ≤ _
      rcases hpc : t.threads[i]? with _ | pc
      · have e : t.step i = t := by unfold FSys.step; rw [hpc]
        rw [show t.run (i :: sched) = (t.step i).run sched from rfl, e]
        exact ih t ht
      · have e : t.step i = ⟨(fstep t.db pc).1, t.threads.set i (fstep t.db pc).2⟩ := by unfold FSys.step; rw [hpc]
        have hpo := ht pc (List.mem_of_getElem? hpc)
        refine Nat.le_trans (ih (t.step i) ?_) ?_
        · rw [e]
          intro pc' hm
          rcases List.mem_or_eq_of_mem_set hm with hm | rfl
          · exact ht pc' hm
          · exact fstep_once t.db hpo
        · rw [e]
          have h1 := fstep_weight t.db o p hpo
          have h2 := sum_set (FWeight o p) t.threads i pc (fstep t.db pc).2 hpc
          dsimp only
          omega
  have h := key sched ⟨{}, calls.map FPc.look⟩ (by
    intro pc hm
    obtain ⟨c, hcm, rfl⟩ := List.mem_map.1 hm
    exact hc c hcm)
  rw [← hs] at h
  have h0 : ((calls.map FPc.look).map (FWeight o p)).sum = calls.length := by
    clear hc hs h key
    induction calls with
    | nil => rfl
    | cons c calls ih =>
      simp only [List.map_cons, List.sum_cons, List.length_cons] at ih ⊢
      rw [ih]
      simp only [FWeight]
      omega
  have h1 : ((({} : FDb).get o).1).count p = 0 := rfl
  dsimp only at h
  rw [h0, h1] at h
  show (s.db.get o).1.count p ≤ _
  omega

/-! ### examples -/

/-- What the threads have got. -/
def fouts (s : FSys) : List (Option (Res Unit)) := s.threads.map fun
  | .done r => some r
  | _ => none

example := C119_sound [ufind [0, 2], ufind [0, 2], ufind [0, 2]] (by
  intro c hc
  simp only [List.mem_cons, List.not_mem_nil, or_false] at hc
  rcases hc with rfl | rfl | rfl <;> exact ufind_fair _) [0, 1, 0, 0, 1, 2, 0, 1, 1, 0, 0, 1, 0, 0, 1, 1, 1] _ rfl
example := C119_alone ⟨{}, [.look (ufind [3, 0, 2])]⟩ 0 _ rfl rfl (ufind_fair _)
example : (FSys.run ⟨{}, [.look (ufind [3, 0, 2])]⟩ (List.replicate 20 0)).db.entities = some [3, 0, 2] := by decide +kernel
example := C119_early (ufind [3, 0, 2]) (ufind [3, 0, 2])
example := C119_twice (ufind [3, 0, 2]) (ufind_fair _)
example : let s := FSys.run ⟨{}, [.look (ufind [7]), .look (ufind [7])]⟩ ([0, 1] ++ List.replicate 3 0 ++ List.replicate 9 1 ++ List.replicate 9 0)
    fouts s = [some (.ok ()), some (.ok ())] ∧ s.db.entities = some [7, 7] := by decide +kernel
example := C119_seen (ufind [3, 0, 2]) (ufind_fair _)
/-- Three threads; the third one makes a third list while the others are adding packs. -/
example := C119_complete [ufind [5, 6], ufind [6, 5], ufind [5, 6]] [5, 6] (by
  intro c hc
  simp only [List.mem_cons, List.not_mem_nil, or_false] at hc
  rcases hc with rfl | rfl | rfl <;> exact ⟨ufind_fair _, fun p => by simp [ufind, or_comm]⟩)
  ([0, 1, 2] ++ List.replicate 4 0 ++ List.replicate 4 1 ++ List.replicate 3 2 ++ List.replicate 9 0 ++ List.replicate 9 1 ++ List.replicate 12 2) _ rfl (by
    intro pc h
    rw [show FSys.threads _ = [.done (.ok ()), .done (.ok ()), .done (.ok ())] from rfl] at h
    simpa using h) [6, 5, 5, 6] rfl
/-- Two of the threads have added pack 5 to the list. -/
example := C119_at_most [ufind [5, 6], ufind [6, 5], ufind [5, 6]] (by
  intro c hc
  simp only [List.mem_cons, List.not_mem_nil, or_false] at hc
  rcases hc with rfl | rfl | rfl <;> exact ⟨ufind_fair _, by decide⟩)
  ([0, 1, 2] ++ List.replicate 4 0 ++ List.replicate 4 1 ++ List.replicate 3 2 ++ List.replicate 9 0 ++ List.replicate 9 1 ++ List.replicate 12 2) _ rfl [6, 5, 5, 6] rfl 5
example := C119_lost (ufind [3, 0, 2]) (ufind_fair _) (by decide)
example : let s := FSys.run ⟨{}, [.look (ufind [5, 6]), .look (ufind [5, 6])]⟩ ([0, 1] ++ List.replicate 6 0 ++ List.replicate 4 1 ++ [0] ++ [1] ++ List.replicate 3 0 ++ List.replicate 9 1)
    fouts s = [some (.error .valueError), some (.ok ())] ∧ s.db.entities = some [5] := by decide +kernel

end GitDB.Props
