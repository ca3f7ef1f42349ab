import Verif.Model.GitThreads
/-!
# C108: several threads and a new `GitDB`
-/
set_option autoImplicit false

namespace GitDB.Props
open GitDB

variable {present : Sub → Bool} {ask : Sub → Bytes → Res Bool}

/-! ## Specification -/

/-- The exceptions that making the databases can raise in a thread. -/
def LoadErr (e : Err) : Prop := e = .indexError ∨ e = .invalidDBRoot ∨ e = .assertionError

/-- What a call may return or raise: a database that exists and has the object; databases that exist. -/
def GRight (present : Sub → Bool) (ask : Sub → Bytes → Res Bool) : GCall → Res GOut → Prop
  | .query sha, .ok (.found k) => present k = true ∧ ask k sha = .ok true
  | .databases, .ok (.all l) => ∀ k ∈ l, present k = true
  | .store, .ok (.stored k) => present k = true ∧ k ≠ .ref
  | _, .ok _ => False
  | .query sha, .error e => LoadErr e ∨ e = .badObject ∨ ∃ k, present k = true ∧ ask k sha = .error e
  | _, .error e => LoadErr e

/-- The databases there should be, `gitdb/db/git.py` 48-50. -/
def allDbs (present : Sub → Bool) : List Sub := [.pack, .loose, .ref].filter present

/-! ## What is returned is right -/

/-- What is shared is right. -/
structure GOk (present : Sub → Bool) (ask : Sub → Bytes → Res Bool) (s : GShared) : Prop where
  lists : ∀ l ∈ s.lists, ∀ k ∈ l, present k = true
  loose : ∀ k, s.loose = some k → present k = true ∧ k ≠ .ref
  dicts : ∀ d ∈ s.dicts, ∀ e ∈ d, present e.2 = true ∧ ask e.2 e.1 = .ok true

/-- A thread with the call `c` is on the right way. -/
def PcOk (present : Sub → Bool) (ask : Sub → Bytes → Res Bool) (s : GShared) (c : GCall) : GPc → Prop
  | .start c' => c' = c
  | .mkCache sha => c = .query sha
  | .getCache sha => c = .query sha ∧ s.cache.isSome
  | .probe sha _ => c = .query sha ∧ s.cache.isSome
  | .needDbs sha => c = .query sha ∧ s.cache.isSome
  | .fresh c' => c' = c ∧ (∀ sha, c = .query sha → s.cache.isSome)
  | .each c' _ o => c' = c ∧ (∀ sha, c = .query sha → s.cache.isSome) ∧ s.dbs.isSome ∧ ∀ k, o = some k → present k = true
  | .grab c' k _ o => c' = c ∧ (∀ sha, c = .query sha → s.cache.isSome) ∧ s.dbs.isSome ∧ present k = true ∧ ∀ k, o = some k → present k = true
  | .append c' k _ o _ => c' = c ∧ (∀ sha, c = .query sha → s.cache.isSome) ∧ s.dbs.isSome ∧ present k = true ∧ ∀ k, o = some k → present k = true
  | .grabLast c' _ => c' = c ∧ (∀ sha, c = .query sha → s.cache.isSome) ∧ s.dbs.isSome
  | .last c' _ _ => c' = c ∧ (∀ sha, c = .query sha → s.cache.isSome) ∧ s.dbs.isSome
  | .check c' o => c' = c ∧ (∀ sha, c = .query sha → s.cache.isSome) ∧ s.dbs.isSome ∧ ∀ k, o = some k → present k = true
  | .empty c' o _ => c' = c ∧ (∀ sha, c = .query sha → s.cache.isSome) ∧ s.dbs.isSome ∧ ∀ k, o = some k → present k = true
  | .keep c' o => c' = c ∧ (∀ sha, c = .query sha → s.cache.isSome) ∧ s.dbs.isSome ∧ ∀ k, o = some k → present k = true
  | .loaded c' => c' = c ∧ (∀ sha, c = .query sha → s.cache.isSome) ∧ s.dbs.isSome ∧ s.loose.isSome
  | .next sha _ _ => c = .query sha ∧ s.cache.isSome
  | .ask sha _ _ k => c = .query sha ∧ s.cache.isSome ∧ present k = true
  | .note sha k => c = .query sha ∧ s.cache.isSome ∧ present k = true ∧ ask k sha = .ok true
  | .enter sha k _ => c = .query sha ∧ s.cache.isSome ∧ present k = true ∧ ask k sha = .ok true
  | .tuple _ => c = .databases
  | .done r => GRight present ask c r

/-- What was set stays set. -/
structure Mono (s s' : GShared) : Prop where
  dbs : s.dbs.isSome → s'.dbs.isSome
  loose : s.loose.isSome → s'.loose.isSome
  cache : s.cache.isSome → s'.cache.isSome

theorem mono_refl (s : GShared) : Mono s s := ⟨id, id, id⟩

theorem pcOk_mono {s s' : GShared} (m : Mono s s') (c : GCall) (pc : GPc) (h : PcOk present ask s c pc) : PcOk present ask s' c pc := by
  have h1 := m.dbs
  have h2 := m.loose
  have h3 := m.cache
  cases pc <;> simp only [PcOk] at h ⊢ <;> first
    | exact h
    | exact ⟨h.1, h3 h.2⟩
    | exact ⟨h.1, fun sha e => h3 (h.2 sha e)⟩
    | exact ⟨h.1, fun sha e => h3 (h.2.1 sha e), h1 h.2.2⟩
    | exact ⟨h.1, fun sha e => h3 (h.2.1 sha e), h1 h.2.2.1, h2 h.2.2.2⟩
    | exact ⟨h.1, fun sha e => h3 (h.2.1 sha e), h1 h.2.2.1, h.2.2.2⟩
    | exact ⟨h.1, h3 h.2.1, h.2.2⟩

theorem mem_getD {α : Type} {ls : List (List α)} {l : Nat} {x : α} (h : x ∈ ls.getD l []) : ∃ m ∈ ls, x ∈ m := by
  rw [List.getD_eq_getElem?_getD] at h
  rcases hl : ls[l]? with _ | m
  · rw [hl] at h; simp at h
  · rw [hl] at h
    exact ⟨m, List.mem_of_getElem? hl, h⟩

theorem isSome_of {α : Type} {o : Option α} {x : α} (h : o = some x) : o.isSome = true := by rw [h]; rfl

theorem gstep_ok (s : GShared) (hs : GOk present ask s) (c : GCall) (pc : GPc) (h : PcOk present ask s c pc) :
    GOk present ask (gstep present ask s pc).1 ∧ PcOk present ask (gstep present ask s pc).1 c (gstep present ask s pc).2 ∧
    Mono s (gstep present ask s pc).1 := by
  have keep : ∀ pc', PcOk present ask s c pc' → GOk present ask s ∧ PcOk present ask s c pc' ∧ Mono s s := fun pc' h => ⟨hs, h, mono_refl s⟩
  cases pc with
  | start c' =>
    simp only [PcOk] at h
    subst h
    cases c' with
    | query sha =>
      simp only [gstep]
      rcases hc : s.cache with _ | d
      · exact keep _ rfl
      · exact keep _ ⟨rfl, isSome_of hc⟩
    | databases =>
      simp only [gstep]
      rcases hc : s.dbs with _ | d
      · exact keep _ ⟨rfl, nofun⟩
      · exact keep _ rfl
    | store =>
      simp only [gstep]
      rcases hc : s.loose with _ | k
      · exact keep _ ⟨rfl, nofun⟩
      · exact keep _ (hs.loose k hc)
  | mkCache sha =>
    refine ⟨⟨hs.lists, hs.loose, ?_⟩, ⟨h, rfl⟩, ⟨id, id, fun _ => rfl⟩⟩
    intro d hd e he
    rcases List.mem_append.mp hd with hd | hd
    · exact hs.dicts d hd e he
    · rw [List.mem_singleton.mp hd] at he
      cases he
  | getCache sha =>
    simp only [gstep]
    rcases hc : s.cache with _ | d
    · have := h.2; rw [hc] at this; cases this
    · exact keep _ h
  | probe sha d =>
    simp only [gstep]
    rcases hd : cacheEntry (s.dicts.getD d []) sha with _ | k
    · exact keep _ h
    · refine keep _ ?_
      unfold cacheEntry at hd
      rcases hf : (s.dicts.getD d []).find? fun e => e.1 == sha with _ | e
      · rw [hf] at hd; cases hd
      · rw [hf] at hd
        cases hd
        have h1 := List.mem_of_find?_eq_some hf
        have h2 := List.find?_some hf
        obtain ⟨m, hm, hx⟩ := mem_getD h1
        have := hs.dicts m hm e hx
        rw [show e.1 = sha by simpa using h2] at this
        rw [h.1]
        exact this
  | needDbs sha =>
    simp only [gstep]
    rcases hc : s.dbs with _ | l
    · exact keep _ ⟨h.1.symm, fun _ _ => h.2⟩
    · exact keep _ h
  | fresh c' =>
    refine ⟨⟨?_, hs.loose, hs.dicts⟩, ⟨h.1, h.2, rfl, nofun⟩, ⟨fun _ => rfl, id, id⟩⟩
    intro l hl k hk
    rcases List.mem_append.mp hl with hl | hl
    · exact hs.lists l hl k hk
    · rw [List.mem_singleton.mp hl] at hk
      cases hk
  | each c' rest o =>
    cases rest with
    | nil => exact keep _ h
    | cons k rest =>
      simp only [gstep]
      split
      · rename_i hp
        exact keep _ ⟨h.1, h.2.1, h.2.2.1, hp, h.2.2.2⟩
      · exact keep _ h
  | grab c' k rest o =>
    simp only [gstep]
    rcases hc : s.dbs with _ | l
    · have := h.2.2.1; rw [hc] at this; cases this
    · exact keep _ h
  | append c' k rest o l =>
    simp only [gstep]
    refine ⟨⟨?_, hs.loose, hs.dicts⟩, ?_, ⟨id, id, id⟩⟩
    · intro m hm x hx
      rcases List.mem_or_eq_of_mem_set hm with hm | rfl
      · exact hs.lists m hm x hx
      · rcases List.mem_append.mp hx with hx | hx
        · obtain ⟨m', hm', hx'⟩ := mem_getD hx
          exact hs.lists m' hm' x hx'
        · rw [List.mem_singleton.mp hx]; exact h.2.2.2.1
    · split
      · exact ⟨h.1, h.2.1, h.2.2.1⟩
      · exact ⟨h.1, h.2.1, h.2.2.1, h.2.2.2.2⟩
  | grabLast c' rest =>
    simp only [gstep]
    rcases hc : s.dbs with _ | l
    · have := h.2.2; rw [hc] at this; cases this
    · exact keep _ h
  | last c' rest l =>
    simp only [gstep]
    rcases hl : (s.lists.getD l []).getLast? with _ | k
    · refine keep _ ?_
      have : LoadErr .indexError := .inl rfl
      cases c
      · exact .inl this
      · exact this
      · exact this
    · refine keep _ ⟨h.1, h.2.1, h.2.2, ?_⟩
      intro k' hk'
      cases hk'
      obtain ⟨m, hm, hx⟩ := mem_getD (List.mem_of_getLast? hl)
      exact hs.lists m hm k hx
  | check c' o =>
    simp only [gstep]
    rcases hc : s.dbs with _ | l
    · have := h.2.2.1; rw [hc] at this; cases this
    · exact keep _ h
  | empty c' o l =>
    simp only [gstep]
    split
    · refine keep _ ?_
      have : LoadErr .invalidDBRoot := .inr (.inl rfl)
      cases c
      · exact .inl this
      · exact this
      · exact this
    · exact keep _ h
  | keep c' o =>
    have he : PcOk present ask s c (.done (.error .assertionError)) := by
      have : LoadErr .assertionError := .inr (.inr rfl)
      cases c
      · exact .inl this
      · exact this
      · exact this
    cases o with
    | none => exact keep _ he
    | some k =>
      simp only [gstep]
      split
      · rename_i hk
        refine ⟨⟨hs.lists, ?_, hs.dicts⟩, ⟨h.1, h.2.1, h.2.2.1, rfl⟩, ⟨id, fun _ => rfl, id⟩⟩
        intro k' hk'
        cases hk'
        refine ⟨h.2.2.2 k rfl, ?_⟩
        rintro rfl
        cases hk
      · exact keep _ he
  | loaded c' =>
    obtain ⟨rfl, h1, h2, h3⟩ := h
    cases c' with
    | store =>
      simp only [gstep]
      rcases hc : s.loose with _ | k
      · rw [hc] at h3; cases h3
      · exact keep _ (hs.loose k hc)
    | databases =>
      simp only [gstep]
      rcases hc : s.dbs with _ | l
      · rw [hc] at h2; cases h2
      · exact keep _ rfl
    | query sha =>
      simp only [gstep]
      rcases hc : s.dbs with _ | l
      · rw [hc] at h2; cases h2
      · exact keep _ ⟨rfl, h1 sha rfl⟩
  | next sha l i =>
    simp only [gstep]
    rcases hl : (s.lists.getD l [])[i]? with _ | k
    · refine keep _ ?_
      rw [h.1]
      exact .inr (.inl rfl)
    · obtain ⟨m, hm, hx⟩ := mem_getD (List.mem_of_getElem? hl)
      exact keep _ ⟨h.1, h.2, hs.lists m hm k hx⟩
  | ask sha l i k =>
    simp only [gstep]
    rcases ha : ask k sha with e | b
    · refine keep _ ?_
      rw [h.1]
      exact .inr (.inr ⟨k, h.2.2, ha⟩)
    · cases b
      · exact keep _ ⟨h.1, h.2.1⟩
      · exact keep _ ⟨h.1, h.2.1, h.2.2, ha⟩
  | note sha k =>
    simp only [gstep]
    rcases hc : s.cache with _ | d
    · have := h.2.1; rw [hc] at this; cases this
    · exact keep _ h
  | enter sha k d =>
    simp only [gstep]
    refine ⟨⟨hs.lists, hs.loose, ?_⟩, ?_, ⟨id, id, id⟩⟩
    · intro m hm e he
      rcases List.mem_or_eq_of_mem_set hm with hm | rfl
      · exact hs.dicts m hm e he
      · rcases List.mem_cons.mp he with rfl | he
        · exact h.2.2
        · obtain ⟨m', hm', hx'⟩ := mem_getD he
          exact hs.dicts m' hm' e hx'
    · rw [h.1]
      exact h.2.2
  | tuple l =>
    refine keep _ ?_
    rw [show c = .databases from h]
    intro k hk
    obtain ⟨m, hm, hx⟩ := mem_getD hk
    exact hs.lists m hm k hx
  | done r => exact keep _ h

/-- Every thread is on the right way with its call. -/
def AllOk (present : Sub → Bool) (ask : Sub → Bytes → Res Bool) (calls : List GCall) (s : GSys) : Prop :=
  GOk present ask s.db ∧ s.threads.length = calls.length ∧
    ∀ (i : Nat) c pc, calls[i]? = some c → s.threads[i]? = some pc → PcOk present ask s.db c pc

theorem allOk_run (calls : List GCall) (sched : List Nat) (s : GSys) (h : AllOk present ask calls s) :
    AllOk present ask calls (s.run present ask sched) := by
  induction sched generalizing s with
  | nil => exact h
  | cons j sched ih =>
    apply ih
    unfold GSys.step
    rcases hj : s.threads[j]? with _ | pc
    · exact h
    · obtain ⟨h1, h2, h3⟩ := h
      have hlt : j < s.threads.length := (List.getElem?_eq_some_iff.mp hj).1
      obtain ⟨c, hc⟩ : ∃ c, calls[j]? = some c := ⟨calls[j]'(by omega), List.getElem?_eq_getElem _⟩
      obtain ⟨k1, k2, k3⟩ := gstep_ok s.db h1 c pc (h3 j c pc hc hj)
      refine ⟨k1, by rw [List.length_set]; exact h2, ?_⟩
      intro i c' pc' hc' hi
      rw [List.getElem?_set] at hi
      split at hi
      · rename_i e
        subst e
        cases hi
        rw [hc] at hc'
        cases hc'
        exact k2
      · exact pcOk_mono k3 c' pc' (h3 i c' pc' hc' hi)

/-- A new `GitDB`, and threads about to make these calls. -/
def newGit (calls : List GCall) : GSys := ⟨{}, calls.map .start⟩

theorem newGit_ok (calls : List GCall) : AllOk present ask calls (newGit calls) := by
  refine ⟨⟨nofun, nofun, nofun⟩, List.length_map _, ?_⟩
  intro i c pc hc hi
  have : (calls.map GPc.start)[i]? = some pc := hi
  rw [List.getElem?_map, hc] at this
  cases this
  rfl

/-- **C108** Whatever the threads do: an object that is found is in a database that exists, stores go to no other databases, and the
exceptions are those of the databases, `BadObject`, and those of making the databases (each of which occurs). -/
theorem C108_sound (calls : List GCall) (sched : List Nat) (i : Nat) (c : GCall) (r : Res GOut) (hc : calls[i]? = some c)
    (h : ((newGit calls).run present ask sched).threads[i]? = some (.done r)) : GRight present ask c r :=
  (allOk_run calls sched _ (newGit_ok calls)).2.2 i c _ hc h

/-! ## The list is complete in the end -/

/-- The thread still has to add `r` to the list `cur`, after `dn`. -/
def Rest (present : Sub → Bool) (cur : Nat) (dn r : List Sub) : GPc → Prop
  | .each _ rest _ => r = rest
  | .grab _ k rest _ => r = k :: rest ∧ present k = true
  | .append _ k rest _ l => r = k :: rest ∧ present k = true ∧ l = cur
  | .grabLast _ rest => r = rest ∧ dn ≠ []
  | .last _ rest l => r = rest ∧ dn ≠ [] ∧ l = cur
  | _ => False

/-- The list in `_dbs` has all databases, or a thread is going to add those that are missing. -/
def Settles (present : Sub → Bool) (s : GSys) : Prop :=
  ∀ cur, s.db.dbs = some cur → cur < s.db.lists.length ∧ ∃ dn r : List Sub, dn ++ r.filter present = allDbs present ∧
    dn.Sublist (s.db.lists.getD cur []) ∧ (r.filter present = [] ∨ ∃ (i : Nat) (pc : GPc), s.threads[i]? = some pc ∧ Rest present cur dn r pc)

/-- Only `fresh` changes `_dbs`; the list in it only grows. -/
theorem gstep_grows (s : GShared) (pc : GPc) (h : ∀ c, pc ≠ .fresh c) : (gstep present ask s pc).1.dbs = s.dbs ∧
    (gstep present ask s pc).1.lists.length = s.lists.length ∧
    ∀ l, (s.lists.getD l []).Sublist ((gstep present ask s pc).1.lists.getD l []) := by
  have same : s.dbs = s.dbs ∧ s.lists.length = s.lists.length ∧ ∀ l, (s.lists.getD l []).Sublist (s.lists.getD l []) :=
    ⟨rfl, rfl, fun _ => List.Sublist.refl _⟩
  cases pc with
  | start c => cases c <;> simp only [gstep] <;> split <;> exact same
  | mkCache sha => exact same
  | getCache sha => simp only [gstep]; split <;> exact same
  | probe sha d => simp only [gstep]; split <;> exact same
  | needDbs sha => simp only [gstep]; split <;> exact same
  | fresh c => exact absurd rfl (h c)
  | each c rest o => cases rest with
    | nil => exact same
    | cons k rest => simp only [gstep]; split <;> exact same
  | grab c k rest o => simp only [gstep]; split <;> exact same
  | append c k rest o l =>
    simp only [gstep]
    refine ⟨trivial, List.length_set, fun m => ?_⟩
    rw [List.getD_eq_getElem?_getD, List.getD_eq_getElem?_getD, List.getElem?_set]
    split
    · rename_i e
      subst e
      split
      · exact List.sublist_append_left _ _
      · rename_i hl
        rw [List.getElem?_eq_none (by omega)]
        exact List.Sublist.refl _
    · exact List.Sublist.refl _
  | grabLast c rest => simp only [gstep]; split <;> exact same
  | last c rest l => simp only [gstep]; split <;> exact same
  | check c o => simp only [gstep]; split <;> exact same
  | empty c o l => simp only [gstep]; split <;> exact same
  | keep c o => cases o with
    | none => exact same
    | some k => simp only [gstep]; split <;> exact same
  | loaded c => cases c <;> simp only [gstep] <;> split <;> exact same
  | next sha l i => simp only [gstep]; split <;> exact same
  | ask sha l i k => simp only [gstep]; split <;> exact same
  | note sha k => simp only [gstep]; split <;> exact same
  | enter sha k d => exact same
  | tuple l => exact same
  | done r => exact same

/-- The thread that has something to add goes on. -/
theorem rest_step (s : GShared) (cur : Nat) (hc : s.dbs = some cur) (hlt : cur < s.lists.length) (dn r : List Sub)
    (hf : dn ++ r.filter present = allDbs present) (hd : dn.Sublist (s.lists.getD cur [])) (pc : GPc) (h : Rest present cur dn r pc) :
    ∃ dn' r' : List Sub, dn' ++ r'.filter present = allDbs present ∧ dn'.Sublist ((gstep present ask s pc).1.lists.getD cur []) ∧
      (r'.filter present = [] ∨ Rest present cur dn' r' (gstep present ask s pc).2) := by
  cases pc with
  | each c rest o =>
    have h : r = rest := h
    subst h
    cases r with
    | nil => exact ⟨dn, [], hf, hd, .inl rfl⟩
    | cons k rest =>
      simp only [gstep]
      split
      · rename_i hp
        exact ⟨dn, k :: rest, hf, hd, .inr ⟨rfl, hp⟩⟩
      · rename_i hp
        refine ⟨dn, rest, ?_, hd, .inr rfl⟩
        rw [List.filter_cons_of_neg hp] at hf
        exact hf
  | grab c k rest o =>
    simp only [gstep, hc]
    exact ⟨dn, r, hf, hd, .inr ⟨h.1, h.2, rfl⟩⟩
  | append c k rest o l =>
    obtain ⟨rfl, hp, rfl⟩ := h
    refine ⟨dn ++ [k], rest, ?_, ?_, .inr ?_⟩
    · rw [List.filter_cons_of_pos hp] at hf
      simpa using hf
    · simp only [gstep]
      rw [List.getD_eq_getElem?_getD (l := List.set _ _ _), List.getElem?_set_self hlt]
      exact List.Sublist.append hd (List.Sublist.refl _)
    · simp only [gstep]
      split
      · exact ⟨rfl, by simp⟩
      · exact rfl
  | grabLast c rest =>
    simp only [gstep, hc]
    exact ⟨dn, r, hf, hd, .inr ⟨h.1, h.2, rfl⟩⟩
  | last c rest l =>
    obtain ⟨rfl, hne, rfl⟩ := h
    simp only [gstep]
    rcases hl : (s.lists.getD l []).getLast? with _ | k
    · rw [List.getLast?_eq_none_iff] at hl
      rw [hl] at hd
      exact absurd (List.sublist_nil.mp hd) hne
    · exact ⟨dn, r, hf, hd, .inr rfl⟩
  | start c => cases h
  | mkCache sha => cases h
  | getCache sha => cases h
  | probe sha d => cases h
  | needDbs sha => cases h
  | fresh c => cases h
  | check c o => cases h
  | empty c o l => cases h
  | keep c o => cases h
  | loaded c => cases h
  | next sha l i => cases h
  | ask sha l i k => cases h
  | note sha k => cases h
  | enter sha k d => cases h
  | tuple l => cases h
  | done r => cases h

theorem settles_step (s : GSys) (j : Nat) (h : Settles present s) : Settles present (s.step present ask j) := by
  unfold GSys.step
  rcases hj : s.threads[j]? with _ | pc
  · exact h
  · have hlt : j < s.threads.length := (List.getElem?_eq_some_iff.mp hj).1
    by_cases hf : ∃ c, pc = .fresh c
    · obtain ⟨c, rfl⟩ := hf
      intro cur hcur
      have hcur : some s.db.lists.length = some cur := hcur
      cases hcur
      refine ⟨by simp [gstep], [], [.pack, .loose, .ref], rfl, List.nil_sublist _, .inr ⟨j, _, List.getElem?_set_self hlt, rfl⟩⟩
    · have hf : ∀ c, pc ≠ .fresh c := fun c e => hf ⟨c, e⟩
      obtain ⟨g1, g2, g3⟩ := gstep_grows (ask := ask) s.db pc hf (present := present)
      intro cur hcur
      dsimp only at hcur ⊢
      rw [g1] at hcur
      obtain ⟨h1, dn, r, h2, h3, h4⟩ := h cur hcur
      refine ⟨by rw [g2]; exact h1, ?_⟩
      rcases h4 with h4 | ⟨i, pcw, hi, hr⟩
      · exact ⟨dn, r, h2, h3.trans (g3 cur), .inl h4⟩
      · by_cases hij : j = i
        · subst hij
          rw [hj] at hi
          cases hi
          obtain ⟨dn', r', k1, k2, k3⟩ := rest_step (ask := ask) s.db cur hcur h1 dn r h2 h3 pc hr
          exact ⟨dn', r', k1, k2, k3.imp id fun k => ⟨j, _, List.getElem?_set_self hlt, k⟩⟩
        · exact ⟨dn, r, h2, h3.trans (g3 cur), .inr ⟨i, pcw, by rw [List.getElem?_set_ne hij]; exact hi, hr⟩⟩

theorem settles_run (sched : List Nat) (s : GSys) (h : Settles present s) : Settles present (s.run present ask sched) := by
  induction sched generalizing s with
  | nil => exact h
  | cons j sched ih => exact ih _ (settles_step s j h)

/-- **C108** When all calls have ended, however they were interleaved, and whatever they raised, the list of databases has all of them
(some perhaps several times). -/
theorem C108_settled (calls : List GCall) (sched : List Nat)
    (hd : ∀ pc ∈ ((newGit calls).run present ask sched).threads, ∃ r, pc = .done r) (cur : Nat)
    (hc : ((newGit calls).run present ask sched).db.dbs = some cur) :
    (allDbs present).Sublist (((newGit calls).run present ask sched).db.lists.getD cur []) := by
  obtain ⟨-, dn, r, h1, h2, h3⟩ := settles_run (ask := ask) (present := present) sched (newGit calls) nofun cur hc
  rcases h3 with h3 | ⟨i, pc, hi, hr⟩
  · rw [h3, List.append_nil] at h1
    rw [← h1]
    exact h2
  · obtain ⟨r', rfl⟩ := hd pc (List.mem_of_getElem? hi)
    cases hr

/-! ## A database that is loaded -/

/-- What calls give when nothing is left to be made: the answers of the databases in the list. -/
def LoadedAnswer (present : Sub → Bool) (ask : Sub → Bytes → Res Bool) (L : List Sub) (loose : Option Sub) : GCall → Res GOut → Prop
  | .query sha, r => (∃ k, r = .ok (.found k) ∧ present k = true ∧ ask k sha = .ok true) ∨
      (r = .error .badObject ∧ ∀ k ∈ L, ask k sha = .ok false) ∨ ∃ k ∈ L, ∃ e, ask k sha = .error e ∧ r = .error e
  | .databases, r => r = .ok (.all L)
  | .store, r => ∃ k, loose = some k ∧ r = .ok (.stored k)

/-- A thread in a database that is loaded. -/
def PcLoaded (present : Sub → Bool) (ask : Sub → Bytes → Res Bool) (L : List Sub) (loose : Option Sub) (l : Nat) (c : GCall) : GPc → Prop
  | .start c' => c' = c ∧ (c = .store → loose.isSome)
  | .mkCache sha => c = .query sha
  | .getCache sha => c = .query sha
  | .probe sha _ => c = .query sha
  | .needDbs sha => c = .query sha
  | .next sha m i => c = .query sha ∧ m = l ∧ ∀ k ∈ L.take i, ask k sha = .ok false
  | .ask sha m i k => c = .query sha ∧ m = l ∧ (∀ k ∈ L.take i, ask k sha = .ok false) ∧ L[i]? = some k
  | .note sha _ => c = .query sha
  | .enter sha _ _ => c = .query sha
  | .tuple m => c = .databases ∧ m = l
  | .done r => LoadedAnswer present ask L loose c r
  | _ => False

theorem loaded_step (s : GShared) (l : Nat) (hl : s.dbs = some l) (hs : GOk present ask s) (c : GCall) (pc : GPc)
    (h0 : PcOk present ask s c pc) (h : PcLoaded present ask (s.lists.getD l []) s.loose l c pc) :
    (gstep present ask s pc).1.dbs = s.dbs ∧ (gstep present ask s pc).1.lists = s.lists ∧ (gstep present ask s pc).1.loose = s.loose ∧
    PcLoaded present ask (s.lists.getD l []) s.loose l c (gstep present ask s pc).2 := by
  have hk := (gstep_ok s hs c pc h0).2.1
  cases pc with
  | start c' =>
    obtain ⟨rfl, h2⟩ := h
    cases c' with
    | query sha => simp only [gstep]; split <;> exact ⟨rfl, rfl, rfl, rfl⟩
    | databases => simp only [gstep, hl]; exact ⟨trivial, trivial, trivial, rfl, rfl⟩
    | store =>
      simp only [gstep]
      rcases hc : s.loose with _ | k
      · have := h2 rfl; rw [hc] at this; cases this
      · exact ⟨rfl, rfl, hc, k, rfl, rfl⟩
  | mkCache sha => exact ⟨rfl, rfl, rfl, h⟩
  | getCache sha =>
    simp only [gstep]
    rcases hc : s.cache with _ | d
    · have := h0.2; rw [hc] at this; cases this
    · exact ⟨rfl, rfl, rfl, h⟩
  | probe sha d =>
    simp only [gstep] at hk ⊢
    rcases hd : cacheEntry (s.dicts.getD d []) sha with _ | k
    · exact ⟨rfl, rfl, rfl, h⟩
    · rw [hd] at hk
      have h : c = .query sha := h
      subst h
      exact ⟨rfl, rfl, rfl, .inl ⟨k, rfl, hk⟩⟩
  | needDbs sha => simp only [gstep, hl]; exact ⟨trivial, trivial, trivial, h, rfl, by simp⟩
  | next sha m i =>
    obtain ⟨rfl, rfl, h⟩ := h
    simp only [gstep]
    rcases hg : (s.lists.getD m [])[i]? with _ | k
    · refine ⟨rfl, rfl, rfl, .inr (.inl ⟨rfl, ?_⟩)⟩
      rw [List.getElem?_eq_none_iff] at hg
      rw [List.take_of_length_le hg] at h
      exact h
    · exact ⟨rfl, rfl, rfl, rfl, rfl, h, hg⟩
  | ask sha m i k =>
    obtain ⟨rfl, rfl, h1, h2⟩ := h
    simp only [gstep]
    rcases ha : ask k sha with e | b
    · exact ⟨rfl, rfl, rfl, .inr (.inr ⟨k, List.mem_of_getElem? h2, e, ha, rfl⟩)⟩
    · cases b
      · refine ⟨rfl, rfl, rfl, rfl, rfl, ?_⟩
        intro k' hk'
        rw [List.take_add_one, h2] at hk'
        rcases List.mem_append.mp hk' with hk' | hk'
        · exact h1 k' hk'
        · simp at hk'; subst hk'; exact ha
      · exact ⟨rfl, rfl, rfl, rfl⟩
  | note sha k =>
    simp only [gstep]
    rcases hc : s.cache with _ | d
    · have := h0.2.1; rw [hc] at this; cases this
    · exact ⟨rfl, rfl, rfl, h⟩
  | enter sha k d =>
    have h : c = .query sha := h
    subst h
    exact ⟨rfl, rfl, rfl, .inl ⟨k, rfl, h0.2.2⟩⟩
  | tuple m =>
    obtain ⟨rfl, rfl⟩ := h
    exact ⟨rfl, rfl, rfl, rfl⟩
  | done r => exact ⟨rfl, rfl, rfl, h⟩
  | fresh c => cases h
  | each c rest o => cases h
  | grab c k rest o => cases h
  | append c k rest o l => cases h
  | grabLast c rest => cases h
  | last c rest l => cases h
  | check c o => cases h
  | empty c o l => cases h
  | keep c o => cases h
  | loaded c => cases h

theorem loaded_run (calls : List GCall) (sched : List Nat) (s : GSys) (l : Nat) (hl : s.db.dbs = some l) (h : AllOk present ask calls s)
    (L : List Sub) (hL : L = s.db.lists.getD l []) (loose : Option Sub) (hloose : loose = s.db.loose)
    (hp : ∀ (i : Nat) c pc, calls[i]? = some c → s.threads[i]? = some pc → PcLoaded present ask L loose l c pc) :
    ∀ (i : Nat) c pc, calls[i]? = some c → (s.run present ask sched).threads[i]? = some pc → PcLoaded present ask L loose l c pc := by
  induction sched generalizing s with
  | nil => exact hp
  | cons j sched ih =>
    have hn := allOk_run calls [j] s h
    change AllOk present ask calls (s.step present ask j) at hn
    change ∀ (i : Nat) c pc, calls[i]? = some c → ((s.step present ask j).run present ask sched).threads[i]? = some pc → _
    rcases hj : s.threads[j]? with _ | pc
    · have e : s.step present ask j = s := by unfold GSys.step; rw [hj]
      rw [e]
      exact ih s hl h hL hloose hp
    · have hlt : j < s.threads.length := (List.getElem?_eq_some_iff.mp hj).1
      have e : s.step present ask j = ⟨(gstep present ask s.db pc).1, s.threads.set j (gstep present ask s.db pc).2⟩ := by
        unfold GSys.step; rw [hj]
      obtain ⟨c, hc⟩ : ∃ c, calls[j]? = some c := ⟨calls[j]'(by have := h.2.1; omega), List.getElem?_eq_getElem _⟩
      have hpj := hp j c pc hc hj
      rw [hL, hloose] at hpj
      obtain ⟨k1, k2, k3, k4⟩ := loaded_step s.db l hl h.1 c pc (h.2.2 j c pc hc hj) hpj
      rw [e] at hn ⊢
      apply ih _ (k1.trans hl) hn (by rw [hL]; dsimp only; rw [k2]) (by rw [hloose]; exact k3.symm)
      intro i c' pc' hc' hi
      dsimp only at hi
      rw [List.getElem?_set] at hi
      split at hi
      · rename_i e
        subst e
        have hi : some (gstep present ask s.db pc).2 = some pc' := by simpa [hlt] using hi
        cases hi
        rw [hc] at hc'
        cases hc'
        rw [hL, hloose]
        exact k4
      · exact hp i c' pc' hc' hi

/-- **C108** A `GitDB` that is loaded can be used by several threads: whatever was before, if the calls that made the databases have
ended, all answers are those of the databases in the list, and nothing is made anew. -/
theorem C108_loaded (before : List GCall) (sched : List Nat) (l : Nat) (calls : List GCall) (sched' : List Nat) (i : Nat) (c : GCall)
    (r : Res GOut) :
    let s := ((newGit before).run present ask sched).db
    s.dbs = some l → (.store ∈ calls → s.loose.isSome) → calls[i]? = some c →
    ((GSys.mk s (calls.map .start)).run present ask sched').threads[i]? = some (.done r) →
    LoadedAnswer present ask (s.lists.getD l []) s.loose c r := by
  intro s hl hs hc h
  have hok : AllOk present ask calls (GSys.mk s (calls.map .start)) := by
    refine ⟨(allOk_run before sched _ (newGit_ok before)).1, List.length_map _, ?_⟩
    intro i c pc hc hi
    have : (calls.map GPc.start)[i]? = some pc := hi
    rw [List.getElem?_map, hc] at this
    cases this
    rfl
  refine loaded_run calls sched' (GSys.mk s (calls.map .start)) l hl hok _ rfl _ rfl ?_ i c _ hc h
  intro i c pc hc hi
  have : (calls.map GPc.start)[i]? = some pc := hi
  rw [List.getElem?_map, hc] at this
  cases this
  refine ⟨rfl, ?_⟩
  rintro rfl
  exact hs (List.mem_of_getElem? hc)

/-- **C108** Lookups by any number of threads, begun when all earlier calls have ended, are right. -/
theorem C108_later (before : List GCall) (sched : List Nat) (l : Nat) (shas : List Bytes) (sched' : List Nat) (i : Nat) (sha : Bytes)
    (r : Res GOut) (hd : ∀ pc ∈ ((newGit before).run present ask sched).threads, ∃ r, pc = .done r)
    (hl : ((newGit before).run present ask sched).db.dbs = some l) (hi : shas[i]? = some sha)
    (h : ((GSys.mk ((newGit before).run present ask sched).db (shas.map fun x => .start (.query x))).run present ask sched').threads[i]? =
      some (.done r)) (hans : ∀ k, present k = true → ∃ b, ask k sha = .ok b) :
    (∃ k, r = .ok (.found k) ∧ present k = true ∧ ask k sha = .ok true) ∨
    (r = .error .badObject ∧ ∀ k, present k = true → ask k sha = .ok false) := by
  have hset := C108_settled before sched hd l hl
  have hok := (allOk_run before sched _ (newGit_ok (present := present) (ask := ask) before)).1
  have hm : shas.map (fun x => GPc.start (.query x)) = (shas.map GCall.query).map .start := by rw [List.map_map]; rfl
  rw [hm] at h
  have := C108_loaded (present := present) (ask := ask) before sched l (shas.map .query) sched' i (.query sha) r hl (by simp)
    (by rw [List.getElem?_map, hi]; rfl) h
  rcases this with h1 | ⟨h1, h2⟩ | ⟨k, hk, e, he, h1⟩
  · exact .inl h1
  · refine .inr ⟨h1, fun k hk => h2 k (hset.subset ?_)⟩
    unfold allDbs
    rw [List.mem_filter]
    exact ⟨by cases k <;> simp, hk⟩
  · obtain ⟨m, hm, hx⟩ := mem_getD hk
    obtain ⟨b, hb⟩ := hans k (hok.lists m hm k hx)
    rw [hb] at he
    cases he

/-! ## One thread first -/

/-- Which of the paths exist. -/
def pathsAt (D : Disk) (root : Text) : Sub → Bool
  | .pack => (D.pack root).isSome
  | .loose => (D.loose root).isSome
  | .ref => (D.alt root).isSome

/-- `present` as three truth values. -/
def three (a b c : Bool) : Sub → Bool
  | .pack => a
  | .loose => b
  | .ref => c

theorem alone_run (a b c : Bool) (ask : Sub → Bytes → Res Bool) :
    (newGit [.databases]).run (three a b c) ask (List.replicate 40 0) =
      ⟨⟨some 0, [(if a then [.pack] else []) ++ (if b then [.loose] else []) ++ (if c then [.ref] else [])], if b then some .loose else none,
        none, []⟩, [.done (if b then .ok (.all ((if a then [.pack] else []) ++ (if b then [.loose] else []) ++ (if c then [.ref] else [])))
          else .error (if a || c then .assertionError else .invalidDBRoot))]⟩ := by
  cases a <;> cases b <;> cases c <;> simp [newGit, GSys.run, GSys.step, gstep, three, List.replicate, hasStore, withDbs]

/-- **C108** One thread alone, as in `Model/Alternates.lean`: each database once, and stores go to loose files. -/
theorem C108_alone (D : Disk) (root : Text) (ask : Sub → Bytes → Res Bool) :
    let s := (newGit [.databases]).run (pathsAt D root) ask (List.replicate 40 0)
    s.threads = [.done ((({} : GitRoot).load D root).2.map .all)] ∧ s.db.dbs = some 0 ∧ s.db.lists = [(gitDbs D root).1] ∧
    ((D.loose root).isSome = true → s.db.loose = some .loose) := by
  have e : pathsAt D root = three (D.pack root).isSome (D.loose root).isSome (D.alt root).isSome := by
    funext k; cases k <;> rfl
  unfold GitRoot.load gitDbs
  rw [e]
  dsimp only
  rw [alone_run]
  rcases D.pack root with _ | a <;> rcases D.loose root with _ | b <;> rcases D.alt root with _ | c <;> simp [Except.map]

/-! ## What goes wrong -/

/-- All three paths exist; the object is in a loose file. -/
def inLoose : Sub → Bytes → Res Bool
  | .loose, _ => .ok true
  | _, _ => .ok false

/-- **C108** An object that is there is not found, since another thread is about to make the databases. -/
theorem C108_missed : ∃ sched, ((newGit [.databases, .query [7]]).run (fun _ => true) inLoose sched).threads =
    [.done (.ok (.all [.pack, .loose, .ref])), .done (.error .badObject)] :=
  ⟨[0, 0] ++ List.replicate 7 1 ++ List.replicate 20 0, by decide +kernel⟩

theorem twice_run : let s := (newGit [.databases, .databases]).run (fun _ => true) inLoose ([0, 1, 0, 1] ++ List.replicate 20 0 ++ List.replicate 20 1)
    s.threads = [.done (.ok (.all [.pack, .loose, .ref])), .done (.ok (.all [.pack, .loose, .ref, .pack, .loose, .ref]))] ∧
    s.db.dbs = some 1 ∧ s.db.lists.getD 1 [] = [.pack, .loose, .ref, .pack, .loose, .ref] ∧ s.db.loose = some .loose := by decide +kernel

/-- **C108** All databases are there twice, for ever, whatever is called then: `size` and `sha_iter` count every object twice. -/
theorem C108_twice : ∃ sched, let s := (newGit [.databases, .databases]).run (fun _ => true) inLoose sched
    (∀ pc ∈ s.threads, ∃ r, pc = .done r) ∧ ∀ (calls : List GCall) (sched' : List Nat) (i : Nat) (r : Res GOut),
      calls[i]? = some .databases → ((GSys.mk s.db (calls.map .start)).run (fun _ => true) inLoose sched').threads[i]? = some (.done r) →
      r = .ok (.all [.pack, .loose, .ref, .pack, .loose, .ref]) := by
  refine ⟨[0, 1, 0, 1] ++ List.replicate 20 0 ++ List.replicate 20 1, ?_, ?_⟩
  · intro pc h
    rw [twice_run.1] at h
    simp only [List.mem_cons, List.not_mem_nil, or_false] at h
    rcases h with rfl | rfl <;> exact ⟨_, rfl⟩
  · intro calls sched' i r hc h
    have := C108_loaded [.databases, .databases] _ 1 calls sched' i .databases r twice_run.2.1 (fun _ => by rw [twice_run.2.2.2]; rfl) hc h
    rw [twice_run.2.2.1] at this
    exact this

/-- Between lines 53 and 55 of the first thread the second one adds its `PackedDB`; the first one is the last to set `_loose_db`. -/
def packLast : List Nat := [0, 1, 0, 1] ++ List.replicate 7 0 ++ List.replicate 3 1 ++ [0] ++ List.replicate 20 1 ++ List.replicate 20 0

theorem stores_run : let s := (newGit [.databases, .databases]).run (fun _ => true) inLoose packLast
    s.threads = [.done (.ok (.all [.pack, .loose, .pack, .loose, .ref, .ref])), .done (.ok (.all [.pack, .loose, .pack, .loose, .ref]))] ∧
    s.db.dbs = some 1 ∧ s.db.loose = some .pack := by decide +kernel

/-- **C108** No exception is raised, but `_loose_db` is the `PackedDB`, for ever: every `store` raises `UnsupportedOperation` then. -/
theorem C108_stores_fail : ∃ sched, let s := (newGit [.databases, .databases]).run (fun _ => true) inLoose sched
    (∀ pc ∈ s.threads, ∃ o, pc = .done (.ok o)) ∧ ∀ (calls : List GCall) (sched' : List Nat) (i : Nat) (r : Res GOut),
      calls[i]? = some .store → ((GSys.mk s.db (calls.map .start)).run (fun _ => true) inLoose sched').threads[i]? = some (.done r) →
      r = .ok (.stored .pack) := by
  refine ⟨packLast, ?_, ?_⟩
  · intro pc h
    rw [stores_run.1] at h
    simp only [List.mem_cons, List.not_mem_nil, or_false] at h
    rcases h with rfl | rfl <;> exact ⟨_, rfl⟩
  · intro calls sched' i r hc h
    obtain ⟨k, hk, hr⟩ := C108_loaded [.databases, .databases] _ 1 calls sched' i .store r stores_run.2.1
      (fun _ => by rw [stores_run.2.2]; rfl) hc h
    rw [stores_run.2.2] at hk
    cases hk
    exact hr

/-- **C108** Each exception of making the databases occurs although all of them exist. -/
theorem C108_exceptions : ∀ e, LoadErr e → ∃ sched, ((newGit [.databases, .databases]).run (fun _ => true) inLoose sched).threads[0]? =
    some (.done (.error e)) := by
  rintro e (rfl | rfl | rfl)
  · exact ⟨[0, 1] ++ List.replicate 7 0 ++ [1, 0, 0], by decide +kernel⟩
  · exact ⟨[0, 1] ++ List.replicate 12 0 ++ [1, 0, 0, 0], by decide +kernel⟩
  · exact ⟨[0, 1, 0, 1] ++ List.replicate 7 0 ++ List.replicate 20 1 ++ List.replicate 20 0, by decide +kernel⟩

/-- The hypotheses of `C108_settled` and `C108_later`: a call raises `IndexError`, all have ended, a later lookup by one of two threads is right. -/
example : let s := (newGit [.databases, .databases]).run (fun _ => true) inLoose ([0, 1] ++ List.replicate 7 0 ++ [1, 0, 0] ++ List.replicate 20 1)
    s.threads = [.done (.error .indexError), .done (.ok (.all [.pack, .loose, .ref]))] ∧ s.db.dbs = some 1 ∧
    ((GSys.mk s.db [.start (.query [7]), .start (.query [8])]).run (fun _ => true) inLoose (List.replicate 20 1)).threads[1]? =
      some (.done (.ok (.found .loose))) := by decide +kernel

end GitDB.Props
