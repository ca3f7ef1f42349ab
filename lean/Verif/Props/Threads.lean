import Verif.Model.Threads
/-!
# C103: several threads in one `PackedDB`
-/
set_option autoImplicit false

namespace GitDB.Props
open GitDB

variable {find : Nat → Bytes → Res (Option Nat)}

/-! ## Sorting by keys -/

theorem insertKey_perm (x : Nat × Nat) : ∀ l : List (Nat × Nat), (insertKey x l).Perm (x :: l)
  | [] => .refl _
  | y :: l => by
    unfold insertKey
    split
    · exact .refl _
    · exact ((insertKey_perm x l).cons y).trans (.swap x y l)

theorem sortKeys_perm : ∀ l : List (Nat × Nat), (sortKeys l).Perm l
  | [] => .refl _
  | x :: l => (insertKey_perm x _).trans ((sortKeys_perm l).cons x)

theorem map_snd_zip : ∀ (a b : List Nat), a.length = b.length → (a.zip b).map Prod.snd = b
  | [], [], _ => rfl
  | [], _ :: _, h => nomatch h
  | _ :: _, [], h => nomatch h
  | x :: a, y :: b, h => by
    rw [List.zip_cons_cons, List.map_cons, map_snd_zip a b (by simpa using h)]

theorem sorted_perm {keys saved : List Nat} (h : keys.length = saved.length) :
    ((sortKeys (keys.zip saved)).map Prod.snd).Perm saved := by
  have := (sortKeys_perm (keys.zip saved)).map Prod.snd
  rwa [map_snd_zip _ _ h] at this

/-! ## What is true of a thread whatever the others do -/

/-- The name a thread looks up. -/
def wantedName : TPc → Option Bytes
  | .start sha => some sha
  | _ => none

/-- A thread that has not begun. -/
def Fresh (pc : TPc) : Prop := (∃ sha, pc = .start sha) ∨ ∃ new, pc = .add new

/-- What the thread looking up `want` may be at; `K`: the items there are; `V`: may `sort` raise? -/
def AtPlace (find : Nat → Bytes → Res (Option Nat)) (K : Nat → Prop) (V : Prop) (want : Option Bytes) : TPc → Prop
  | .start sha => want = some sha
  | .presort a => a = want
  | .sort a saved _ keys => a = want ∧ (∀ it ∈ saved, K it) ∧ keys.length < saved.length
  | .next sha _ => want = some sha
  | .ask sha _ it => want = some sha ∧ K it
  | .hit sha it i => want = some sha ∧ K it ∧ find it sha = .ok (some i)
  | .hit2 sha it i _ => want = some sha ∧ K it ∧ find it sha = .ok (some i)
  | .count sha it i => want = some sha ∧ K it ∧ find it sha = .ok (some i)
  | .count2 sha it i _ => want = some sha ∧ K it ∧ find it sha = .ok (some i)
  | .add new => want = none ∧ ∀ it ∈ new, K it
  | .done (.ok (some (it, n))) => ∃ sha, want = some sha ∧ K it ∧ find it sha = .ok (some n)
  | .done (.ok none) => want = none
  | .done (.error e) => (V ∧ e = .valueError) ∨ (∃ sha, want = some sha ∧ (e = .badObject ∨ ∃ it, K it ∧ find it sha = .error e))

theorem afterSort_fits {K : Nat → Prop} {V : Prop} {want : Option Bytes} : AtPlace find K V want (afterSort want) := by
  cases want <;> simp [afterSort, AtPlace]

theorem tstep_fits {K : Nat → Prop} {V : Prop} {want : Option Bytes} {db : TDb} {pc : TPc} (hk : ∀ it ∈ db.items, K it)
    (hv : ∀ a saved m keys, pc = .sort a saved m keys → db.mark = false → V) (h : AtPlace find K V want pc) : (∀ it ∈ (tstep find db pc).1.items, K it) ∧ AtPlace find K V want (tstep find db pc).2 := by
  cases pc with
  | start sha =>
    simp only [tstep]
    split
    · exact ⟨hk, by simpa [AtPlace] using h.symm⟩
    · exact ⟨hk, h⟩
  | presort a =>
    simp only [tstep]
    cases h
    split
    · exact ⟨hk, afterSort_fits⟩
    · rename_i hn
      exact ⟨by simp, rfl, hk, by simpa [List.length_pos_iff] using hn⟩
  | sort a saved m keys =>
    obtain ⟨rfl, hs, hl⟩ := h
    simp only [tstep]
    rw [List.getElem?_eq_getElem hl]
    dsimp only
    split
    · rename_i h2
      exact ⟨hk, rfl, hs, h2⟩
    · rename_i h2
      refine ⟨fun it hit => hs it ((sorted_perm ?_).mem_iff.1 hit), ?_⟩
      · simp only [List.length_append, List.length_singleton] at h2 ⊢; omega
      · split
        · exact afterSort_fits
        · rename_i hm
          exact .inl ⟨hv _ _ _ _ rfl (by simpa using hm), rfl⟩
  | next sha k =>
    simp only [tstep]
    rcases hi : db.items[k]? with _ | it
    · exact ⟨hk, .inr ⟨sha, h, .inl rfl⟩⟩
    · exact ⟨hk, h, hk it (List.mem_of_getElem? hi)⟩
  | ask sha k it =>
    simp only [tstep]
    rcases hf : find it sha with e | _ | i
    · exact ⟨hk, .inr ⟨sha, h.1, .inr ⟨it, h.2, hf⟩⟩⟩
    · exact ⟨hk, h.1⟩
    · exact ⟨hk, h.1, h.2, hf⟩
  | hit sha it i => exact ⟨hk, h⟩
  | hit2 sha it i v => exact ⟨hk, h⟩
  | count sha it i => exact ⟨hk, h⟩
  | count2 sha it i v => exact ⟨hk, sha, h⟩
  | add new =>
    cases new with
    | nil => exact ⟨hk, h.1.symm⟩
    | cons x new =>
      refine ⟨fun it hit => ?_, h.1, fun it hit => h.2 it (List.mem_cons_of_mem _ hit)⟩
      rcases List.mem_append.1 hit with hit | hit
      · exact hk it hit
      · rw [List.mem_singleton.1 hit]; exact h.2 x (List.mem_cons_self ..)
  | done r => exact ⟨hk, h⟩

/-- A property of the database and of every thread, with its number, that every step of a thread preserves, is preserved by executions. -/
theorem run_keeps (P : TSys → Prop) (hstep : ∀ s i pc, P s → s.threads[i]? = some pc →
      P ⟨(tstep find s.db pc).1, s.threads.set i (tstep find s.db pc).2⟩) :
    ∀ (sched : List Nat) (s : TSys), P s → P (s.run find sched)
  | [], _, h => h
  | i :: sched, s, h => by
    refine run_keeps P hstep sched _ ?_
    unfold TSys.step
    rcases hi : s.threads[i]? with _ | pc
    · exact h
    · exact hstep s i pc h hi

/-- The items a database has at first, and those threads add. -/
def Known (s : TSys) (it : Nat) : Prop := it ∈ s.db.items ∨ ∃ new, .add new ∈ s.threads ∧ it ∈ new

/-- In any execution, a thread is at a place of its own lookup. -/
theorem run_fits (s : TSys) (hf : ∀ pc ∈ s.threads, Fresh pc) (sched : List Nat) :
    (∀ it ∈ (s.run find sched).db.items, Known s it) ∧ ∀ (i : Nat) pc, (s.run find sched).threads[i]? = some pc →
      ∃ pc0, s.threads[i]? = some pc0 ∧ AtPlace find (Known s) True (wantedName pc0) pc := by
  refine run_keeps (fun t => (∀ it ∈ t.db.items, Known s it) ∧ ∀ (i : Nat) pc, t.threads[i]? = some pc →
      ∃ pc0, s.threads[i]? = some pc0 ∧ AtPlace find (Known s) True (wantedName pc0) pc) ?_ sched s ⟨fun it h => .inl h, fun i pc h => ⟨pc, h, ?_⟩⟩
  · intro t i pc ht hi
    obtain ⟨pc0, h0, h1⟩ := ht.2 i pc hi
    have h2 := tstep_fits ht.1 (fun _ _ _ _ _ _ => trivial) h1
    refine ⟨h2.1, fun j pc' hj => ?_⟩
    dsimp only at hj
    rw [List.getElem?_set] at hj
    split at hj
    · rename_i hij
      subst hij
      split at hj
      · cases hj; exact ⟨pc0, h0, h2.2⟩
      · cases hj
    · exact ht.2 j pc' hj
  · have hm := List.mem_of_getElem? h
    rcases hf pc hm with ⟨sha, rfl⟩ | ⟨new, rfl⟩
    · rfl
    · exact ⟨rfl, fun it hit => .inr ⟨new, hm, hit⟩⟩

/-- **C103** whatever threads do: what a lookup returns is an item of the database, and where this item has the name. -/
theorem C103_sound (s : TSys) (hf : ∀ pc ∈ s.threads, Fresh pc) (sched : List Nat) (i it n : Nat) (sha : Bytes)
    (hs : s.threads[i]? = some (.start sha)) (h : (s.run find sched).threads[i]? = some (.done (.ok (some (it, n))))) :
    Known s it ∧ find it sha = .ok (some n) := by
  obtain ⟨pc0, h0, h1⟩ := (run_fits s hf sched).2 i _ h
  rw [hs] at h0
  cases h0
  obtain ⟨_, h2, h3, h4⟩ := h1
  cases h2
  exact ⟨h3, h4⟩

/-- **C103** a lookup raises `BadObject`, what `sha_to_index` raises, or `ValueError`. -/
theorem C103_raises (s : TSys) (hf : ∀ pc ∈ s.threads, Fresh pc) (sched : List Nat) (i : Nat) (e : Err) (sha : Bytes)
    (hs : s.threads[i]? = some (.start sha)) (h : (s.run find sched).threads[i]? = some (.done (.error e))) :
    e = .valueError ∨ e = .badObject ∨ ∃ it, Known s it ∧ find it sha = .error e := by
  obtain ⟨pc0, h0, h1⟩ := (run_fits s hf sched).2 i _ h
  rw [hs] at h0
  cases h0
  rcases h1 with h1 | ⟨_, h2, h3⟩
  · exact .inl h1.2
  · cases h2; exact .inr h3

/-! ## Lookups only -/

/-- In the middle of a sort. -/
def Sorting : TPc → Prop
  | .sort _ _ _ _ => True
  | _ => False

/-- The list is complete and nobody sorts it, or exactly one thread does, and has it. -/
def ListInv (init : List Nat) (s : TSys) : Prop :=
  (s.db.mark = false ∧ s.db.items.Perm init ∧ ∀ (j : Nat) pc, s.threads[j]? = some pc → ¬ Sorting pc) ∨
  (s.db.mark = true ∧ s.db.items = [] ∧ ∃ (i : Nat) (a : Option Bytes) (saved keys : List Nat),
    s.threads[i]? = some (.sort a saved false keys) ∧ saved.Perm init ∧ ∀ (j : Nat) pc, j ≠ i → s.threads[j]? = some pc → ¬ Sorting pc)

theorem getElem?_set_cases {α : Type} {l : List α} {i j : Nat} {a b : α} (h : (l.set i a)[j]? = some b) :
    (i = j ∧ b = a) ∨ (i ≠ j ∧ l[j]? = some b) := by
  rw [List.getElem?_set] at h
  split at h
  · split at h
    · cases h; exact .inl ⟨by assumption, rfl⟩
    · cases h
  · exact .inr ⟨by assumption, h⟩

theorem getElem?_set_same {α : Type} {l : List α} {i : Nat} {a b : α} (h : l[i]? = some b) : (l.set i a)[i]? = some a := by
  obtain ⟨hl, _⟩ := List.getElem?_eq_some_iff.1 h
  rw [List.getElem?_set, if_pos rfl, if_pos hl]

theorem getElem?_set_other {α : Type} {l : List α} {i j : Nat} {a : α} (h : i ≠ j) : (l.set i a)[j]? = l[j]? := by
  rw [List.getElem?_set, if_neg h]

/-- A step that leaves list and mark alone, of a thread that is not sorting. -/
theorem listInv_keep {init : List Nat} {s : TSys} {i : Nat} {pc pc' : TPc} {db : TDb} (h : ListInv init s) (hi : s.threads[i]? = some pc)
    (h1 : ¬ Sorting pc) (h2 : ¬ Sorting pc') (h3 : db.items = s.db.items) (h4 : db.mark = s.db.mark) :
    ListInv init ⟨db, s.threads.set i pc'⟩ := by
  have key : ∀ (k : Nat), (∀ (j : Nat) pc, j ≠ k → s.threads[j]? = some pc → ¬ Sorting pc) →
      ∀ (j : Nat) pc, j ≠ k → (s.threads.set i pc')[j]? = some pc → ¬ Sorting pc := by
    intro k hk j x hjk hj
    rcases getElem?_set_cases hj with ⟨_, rfl⟩ | ⟨_, hj⟩
    · exact h2
    · exact hk j x hjk hj
  rcases h with ⟨a, b, c⟩ | ⟨a, b, k, x, saved, keys, c, d, e⟩
  · refine .inl ⟨h4.trans a, by rw [h3]; exact b, fun j x hj => ?_⟩
    rcases getElem?_set_cases hj with ⟨_, rfl⟩ | ⟨_, hj⟩
    · exact h2
    · exact c j x hj
  · have hik : i ≠ k := by
      rintro rfl
      rw [hi] at c; cases c; exact h1 trivial
    exact .inr ⟨h4.trans a, h3.trans b, k, x, saved, keys, (getElem?_set_other hik).trans c, d, key k e⟩

theorem afterSort_not (a : Option Bytes) : ¬ Sorting (afterSort a) := by
  cases a <;> exact id

theorem tstep_listInv {init : List Nat} {s : TSys} {i : Nat} {pc : TPc} (h : ListInv init s) (hi : s.threads[i]? = some pc)
    (ha : ∀ new, pc ≠ .add new) (hl : ∀ a saved m keys, pc = .sort a saved m keys → keys.length < saved.length) :
    ListInv init ⟨(tstep find s.db pc).1, s.threads.set i (tstep find s.db pc).2⟩ := by
  cases pc with
  | start sha =>
    simp only [tstep]
    split
    · exact listInv_keep h hi id id rfl rfl
    · exact listInv_keep h hi id id rfl rfl
  | presort a =>
    simp only [tstep]
    split
    · exact listInv_keep h hi id (afterSort_not a) rfl rfl
    · rename_i hn
      rcases h with ⟨h1, h2, h3⟩ | ⟨h1, h2, h3⟩
      · refine .inr ⟨rfl, rfl, i, a, s.db.items, [], ?_, h2, fun j x hj hx => ?_⟩
        · rw [h1]; exact getElem?_set_same hi
        · rcases getElem?_set_cases hx with ⟨h4, _⟩ | ⟨_, hx⟩
          · exact absurd h4.symm hj
          · exact h3 j x hx
      · exact absurd h2 hn
  | sort a saved m keys =>
    rcases h with ⟨h1, h2, h3⟩ | ⟨h1, h2, k, a', saved', keys', h3, h4, h5⟩
    · exact absurd trivial (h3 i _ hi)
    · have hik : i = k := by
        by_cases hik : i = k
        · exact hik
        · exact absurd trivial (h5 i _ hik hi)
      subst hik
      rw [hi] at h3
      cases h3
      simp only [tstep]
      have hl := hl _ _ _ _ rfl
      rw [List.getElem?_eq_getElem hl]
      dsimp only
      split
      · refine .inr ⟨h1, h2, i, a, saved, _, getElem?_set_same hi, h4, fun j x hj hx => ?_⟩
        rw [getElem?_set_other (Ne.symm hj)] at hx
        exact h5 j x hj hx
      · rename_i h6
        refine .inl ⟨rfl, (sorted_perm ?_).trans h4, fun j x hx => ?_⟩
        · simp only [List.length_append, List.length_singleton] at h6 ⊢; omega
        · rcases getElem?_set_cases hx with ⟨_, rfl⟩ | ⟨h7, hx⟩
          · exact afterSort_not a
          · exact h5 j x (Ne.symm h7) hx
  | next sha k =>
    simp only [tstep]
    rcases s.db.items[k]? with _ | it
    · exact listInv_keep h hi id id rfl rfl
    · exact listInv_keep h hi id id rfl rfl
  | ask sha k it =>
    simp only [tstep]
    rcases find it sha with e | _ | n
    · exact listInv_keep h hi id id rfl rfl
    · exact listInv_keep h hi id id rfl rfl
    · exact listInv_keep h hi id id rfl rfl
  | hit sha it n => exact listInv_keep h hi id id rfl rfl
  | hit2 sha it n v => exact listInv_keep h hi id id rfl rfl
  | count sha it n => exact listInv_keep h hi id id rfl rfl
  | count2 sha it n v => exact listInv_keep h hi id id rfl rfl
  | add new => exact absurd rfl (ha new)
  | done r => exact listInv_keep h hi id id rfl rfl

/-- In an execution of lookups only: the list is complete whenever nobody sorts it, and every thread is at a place of its lookup. -/
theorem run_lookups (s : TSys) (hm : s.db.mark = false) (hf : ∀ pc ∈ s.threads, ∃ sha, pc = .start sha) (sched : List Nat) :
    ListInv s.db.items (s.run find sched) ∧ ∀ (i : Nat) pc, (s.run find sched).threads[i]? = some pc →
      ∃ sha, s.threads[i]? = some (.start sha) ∧ AtPlace find (· ∈ s.db.items) False (some sha) pc := by
  refine run_keeps (fun t => ListInv s.db.items t ∧ ∀ (i : Nat) pc, t.threads[i]? = some pc →
      ∃ sha, s.threads[i]? = some (.start sha) ∧ AtPlace find (· ∈ s.db.items) False (some sha) pc) ?_ sched s ⟨.inl ⟨hm, .refl _, ?_⟩, ?_⟩
  · intro t i pc ht hi
    obtain ⟨sha, h0, h1⟩ := ht.2 i pc hi
    have hk : ∀ it ∈ t.db.items, it ∈ s.db.items := fun it hit => by
      rcases ht.1 with ⟨_, h, _⟩ | ⟨_, h, _⟩
      · exact h.mem_iff.1 hit
      · rw [h] at hit; cases hit
    have h2 := tstep_fits hk (fun a saved m keys hp h3 => by
      subst hp
      rcases ht.1 with ⟨_, _, h⟩ | ⟨h, _⟩
      · exact h i _ hi trivial
      · rw [h] at h3; cases h3) h1
    refine ⟨tstep_listInv ht.1 hi (fun new hp => ?_) (fun a saved m keys hp => ?_), fun j pc' hj => ?_⟩
    · subst hp; cases h1.1
    · subst hp; exact h1.2.2
    · rcases getElem?_set_cases hj with ⟨rfl, rfl⟩ | ⟨_, hj⟩
      · exact ⟨sha, h0, h2.2⟩
      · exact ht.2 j pc' hj
  · intro j pc hj
    obtain ⟨sha, rfl⟩ := hf pc (List.mem_of_getElem? hj)
    exact id
  · intro j pc hj
    obtain ⟨sha, rfl⟩ := hf pc (List.mem_of_getElem? hj)
    exact ⟨sha, hj, rfl⟩

/-- **C103** lookups only: no pack is lost or doubled. -/
theorem C103_kept (s : TSys) (hm : s.db.mark = false) (hf : ∀ pc ∈ s.threads, ∃ sha, pc = .start sha) (sched : List Nat)
    (hd : ∀ pc ∈ (s.run find sched).threads, ∃ r, pc = .done r) : (s.run find sched).db.items.Perm s.db.items := by
  rcases (run_lookups s hm hf sched).1 with ⟨_, h, _⟩ | ⟨_, _, i, _, _, _, h, _⟩
  · exact h
  · obtain ⟨r, hr⟩ := hd _ (List.mem_of_getElem? h)
    cases hr

/-- **C103** lookups only: they raise `BadObject` or what `sha_to_index` raises. -/
theorem C103_raises_lookups (s : TSys) (hm : s.db.mark = false) (hf : ∀ pc ∈ s.threads, ∃ sha, pc = .start sha) (sched : List Nat) (i : Nat)
    (e : Err) (sha : Bytes) (hs : s.threads[i]? = some (.start sha)) (h : (s.run find sched).threads[i]? = some (.done (.error e))) :
    e = .badObject ∨ ∃ it ∈ s.db.items, find it sha = .error e := by
  obtain ⟨sha', h0, h1⟩ := (run_lookups s hm hf sched).2 i _ h
  rw [hs] at h0
  cases h0
  rcases h1 with ⟨h1, _⟩ | ⟨_, h2, h3⟩
  · exact h1.elim
  · cases h2; exact h3

/-! ## Counters -/

/-- Has the thread found something, and counted it in `_hit_count`? -/
def counted : TPc → Bool
  | .done (.ok (some _)) => true
  | _ => false

/-- Has the thread found item `it`, and counted it in `item[0]`? -/
def hitOf (it : Nat) : TPc → Bool
  | .count _ j _ => j == it
  | .count2 _ j _ _ => j == it
  | .done (.ok (some (j, _))) => j == it
  | _ => false

theorem countP_step {p : TPc → Bool} {l : List TPc} {i : Nat} {pc pc' : TPc} (hi : l[i]? = some pc) (h : p pc = true → p pc' = true) :
    l.countP p ≤ (l.set i pc').countP p ∧ (p pc = false → p pc' = true → (l.set i pc').countP p = l.countP p + 1) := by
  obtain ⟨hl, rfl⟩ := List.getElem?_eq_some_iff.1 hi
  rw [List.countP_set hl]
  by_cases h1 : p l[i] = true
  · rw [if_pos h1, if_pos (h h1)]
    have : 0 < l.countP p := List.countP_pos_iff.2 ⟨_, List.getElem_mem hl, h1⟩
    exact ⟨by omega, fun h2 => by rw [h1] at h2; cases h2⟩
  · rw [if_neg h1]
    exact ⟨by split <;> omega, fun _ h2 => by rw [if_pos h2]; omega⟩

theorem counted_step {db : TDb} {pc : TPc} : counted pc = true → counted (tstep find db pc).2 = true := by
  intro h
  cases pc <;> first | exact h | cases h

theorem hitOf_step {it : Nat} {db : TDb} {pc : TPc} : hitOf it pc = true → hitOf it (tstep find db pc).2 = true := by
  intro h
  cases pc <;> first | exact h | cases h

/-- What is about to be written to `_hit_count`. -/
def pending : TPc → Option Nat
  | .count2 _ _ _ v => some v
  | _ => none

/-- What is about to be written to `item[0]`. -/
def pendingHit (it : Nat) : TPc → Option Nat
  | .hit2 _ j _ v => if j = it then some v else none
  | _ => none

theorem pending_step {db : TDb} {pc : TPc} {v : Nat} (hv : pending (tstep find db pc).2 = some v) : v = db.hitCount := by
  cases pc with
  | count sha it n => exact (Option.some.inj hv).symm
  | start sha => simp only [tstep] at hv; split at hv <;> cases hv
  | presort a =>
    simp only [tstep] at hv
    split at hv
    · cases a <;> cases hv
    · cases hv
  | sort a saved m keys =>
    simp only [tstep] at hv
    split at hv
    · cases hv
    · split at hv
      · cases hv
      · dsimp only at hv
        split at hv
        · cases a <;> cases hv
        · cases hv
  | next sha k => simp only [tstep] at hv; split at hv <;> cases hv
  | ask sha k it => simp only [tstep] at hv; split at hv <;> cases hv
  | add new => cases new <;> cases hv
  | _ => cases hv

theorem pendingHit_step {db : TDb} {pc : TPc} {j v : Nat} (hv : pendingHit j (tstep find db pc).2 = some v) : v = db.hits j := by
  cases pc with
  | hit sha it n =>
    simp only [tstep, pendingHit] at hv
    split at hv
    · rename_i h; rw [← h]; exact (Option.some.inj hv).symm
    · cases hv
  | start sha => simp only [tstep] at hv; split at hv <;> cases hv
  | presort a =>
    simp only [tstep] at hv
    split at hv
    · cases a <;> cases hv
    · cases hv
  | sort a saved m keys =>
    simp only [tstep] at hv
    split at hv
    · cases hv
    · split at hv
      · cases hv
      · dsimp only at hv
        split at hv
        · cases a <;> cases hv
        · cases hv
  | next sha k => simp only [tstep] at hv; split at hv <;> cases hv
  | ask sha k it => simp only [tstep] at hv; split at hv <;> cases hv
  | add new => cases new <;> cases hv
  | _ => cases hv

theorem hitCount_step {c : Nat} {s : TSys} {i : Nat} {pc : TPc} (hi : s.threads[i]? = some pc)
    (h1 : c ≤ s.db.hitCount ∧ s.db.hitCount ≤ c + s.threads.countP counted)
    (h2 : ∀ (j : Nat) pc v, s.threads[j]? = some pc → pending pc = some v → c ≤ v ∧ v ≤ c + s.threads.countP counted) :
    (c ≤ (tstep find s.db pc).1.hitCount ∧
      (tstep find s.db pc).1.hitCount ≤ c + (s.threads.set i (tstep find s.db pc).2).countP counted) ∧
    ∀ (j : Nat) pc' v, (s.threads.set i (tstep find s.db pc).2)[j]? = some pc' → pending pc' = some v →
      c ≤ v ∧ v ≤ c + (s.threads.set i (tstep find s.db pc).2).countP counted := by
  have hc := countP_step hi (counted_step (find := find) (db := s.db))
  refine ⟨?_, fun j pc' v hj hv => ?_⟩
  · by_cases hp : ∃ sha it n v, pc = .count2 sha it n v
    · obtain ⟨sha, it, n, v, rfl⟩ := hp
      have h3 := h2 i _ v hi rfl
      have h4 := hc.2 rfl rfl
      simp only [tstep] at h4 ⊢
      rw [h4]
      omega
    · have h3 : (tstep find s.db pc).1.hitCount = s.db.hitCount := by
        cases pc with
        | count2 sha it n v => exact absurd ⟨_, _, _, _, rfl⟩ hp
        | add new => cases new <;> rfl
        | _ => simp only [tstep]; repeat' split
               all_goals rfl
      rw [h3]
      omega
  · rcases getElem?_set_cases hj with ⟨rfl, rfl⟩ | ⟨_, hj⟩
    · have h3 : v = s.db.hitCount := pending_step hv
      omega
    · have := h2 j pc' v hj hv
      omega

theorem hits_step {c it : Nat} {s : TSys} {i : Nat} {pc : TPc} (hi : s.threads[i]? = some pc)
    (h1 : c ≤ s.db.hits it ∧ s.db.hits it ≤ c + s.threads.countP (hitOf it))
    (h2 : ∀ (j : Nat) pc v, s.threads[j]? = some pc → pendingHit it pc = some v → c ≤ v ∧ v ≤ c + s.threads.countP (hitOf it)) :
    (c ≤ (tstep find s.db pc).1.hits it ∧
      (tstep find s.db pc).1.hits it ≤ c + (s.threads.set i (tstep find s.db pc).2).countP (hitOf it)) ∧
    ∀ (j : Nat) pc' v, (s.threads.set i (tstep find s.db pc).2)[j]? = some pc' → pendingHit it pc' = some v →
      c ≤ v ∧ v ≤ c + (s.threads.set i (tstep find s.db pc).2).countP (hitOf it) := by
  have hc := countP_step hi (hitOf_step (it := it) (find := find) (db := s.db))
  refine ⟨?_, fun j pc' v hj hv => ?_⟩
  · by_cases hp : ∃ sha n v, pc = .hit2 sha it n v
    · obtain ⟨sha, n, v, rfl⟩ := hp
      have h3 := h2 i _ v hi (if_pos rfl)
      have h4 := hc.2 rfl (by simp [tstep, hitOf])
      simp only [tstep] at h4 ⊢
      rw [h4, if_pos trivial]
      omega
    · have h3 : (tstep find s.db pc).1.hits it = s.db.hits it := by
        cases pc with
        | hit2 sha j n v => exact if_neg fun h => hp ⟨_, _, _, by rw [h]⟩
        | add new => cases new <;> rfl
        | _ => simp only [tstep]; repeat' split
               all_goals rfl
      rw [h3]
      omega
  · rcases getElem?_set_cases hj with ⟨rfl, rfl⟩ | ⟨_, hj⟩
    · have h3 := pendingHit_step hv
      omega
    · have := h2 j pc' v hj hv
      omega

theorem run_counts (s : TSys) (hf : ∀ pc ∈ s.threads, Fresh pc) (sched : List Nat) :
    (s.db.hitCount ≤ (s.run find sched).db.hitCount ∧
      (s.run find sched).db.hitCount ≤ s.db.hitCount + (s.run find sched).threads.countP counted) ∧
    ∀ it, s.db.hits it ≤ (s.run find sched).db.hits it ∧
      (s.run find sched).db.hits it ≤ s.db.hits it + (s.run find sched).threads.countP (hitOf it) := by
  have hz : ∀ (j : Nat) pc v, s.threads[j]? = some pc → pending pc ≠ some v ∧ ∀ it, pendingHit it pc ≠ some v := by
    intro j pc v hj
    rcases hf pc (List.mem_of_getElem? hj) with ⟨sha, rfl⟩ | ⟨new, rfl⟩
    · exact ⟨nofun, nofun⟩
    · exact ⟨nofun, nofun⟩
  constructor
  · refine (run_keeps (find := find) (fun t => (s.db.hitCount ≤ t.db.hitCount ∧ t.db.hitCount ≤ s.db.hitCount + t.threads.countP counted) ∧
      ∀ (j : Nat) pc v, t.threads[j]? = some pc → pending pc = some v →
        s.db.hitCount ≤ v ∧ v ≤ s.db.hitCount + t.threads.countP counted) ?_ sched s ⟨⟨Nat.le_refl _, by omega⟩, ?_⟩).1
    · exact fun t i pc ht hi => hitCount_step hi ht.1 ht.2
    · exact fun j pc v hj hv => absurd hv (hz j pc v hj).1
  · intro it
    refine (run_keeps (find := find) (fun t => (s.db.hits it ≤ t.db.hits it ∧ t.db.hits it ≤ s.db.hits it + t.threads.countP (hitOf it)) ∧
      ∀ (j : Nat) pc v, t.threads[j]? = some pc → pendingHit it pc = some v →
        s.db.hits it ≤ v ∧ v ≤ s.db.hits it + t.threads.countP (hitOf it)) ?_ sched s ⟨⟨Nat.le_refl _, by omega⟩, ?_⟩).1
    · exact fun t i pc ht hi => hits_step hi ht.1 ht.2
    · exact fun j pc v hj hv => absurd hv ((hz j pc v hj).2 it)

/-- The thread's call returned item `it`. -/
def returned (it : Nat) : TPc → Bool
  | .done (.ok (some (j, _))) => j == it
  | _ => false

/-- **C103** counters: when all calls have ended, `_hit_count` and the hits of an item are at least what they were, and no more than what they
would be if every successful lookup had counted once. -/
theorem C103_counters (s : TSys) (hf : ∀ pc ∈ s.threads, Fresh pc) (sched : List Nat)
    (hd : ∀ pc ∈ (s.run find sched).threads, ∃ r, pc = .done r) :
    (s.db.hitCount ≤ (s.run find sched).db.hitCount ∧
      (s.run find sched).db.hitCount ≤ s.db.hitCount + (s.run find sched).threads.countP counted) ∧
    ∀ it, s.db.hits it ≤ (s.run find sched).db.hits it ∧
      (s.run find sched).db.hits it ≤ s.db.hits it + (s.run find sched).threads.countP (returned it) := by
  have h := run_counts (find := find) s hf sched
  refine ⟨h.1, fun it => ⟨(h.2 it).1, ?_⟩⟩
  have h2 := (h.2 it).2
  rwa [List.countP_congr (q := returned it)] at h2
  intro pc hpc
  obtain ⟨r, rfl⟩ := hd pc hpc
  rcases r with e | _ | ⟨j, n⟩ <;> exact Iff.rfl

/-! ## Without sorting -/

/-- What a lookup should give: the first item that has the name. -/
def firstHit (find : Nat → Bytes → Res (Option Nat)) (sha : Bytes) : List Nat → Res (Option (Nat × Nat))
  | [] => .error .badObject
  | it :: l =>
    match find it sha with
    | .error e => .error e
    | .ok (some i) => .ok (some (it, i))
    | .ok none => firstHit find sha l

/-- Where a lookup may be while the list stays as it is. -/
def Quiet (find : Nat → Bytes → Res (Option Nat)) (init : List Nat) (sha : Bytes) : TPc → Prop
  | .start s => s = sha
  | .next s k => s = sha ∧ firstHit find sha init = firstHit find sha (init.drop k)
  | .ask s k it => s = sha ∧ firstHit find sha init = firstHit find sha (it :: init.drop (k + 1))
  | .hit _ it i => firstHit find sha init = .ok (some (it, i))
  | .hit2 _ it i _ => firstHit find sha init = .ok (some (it, i))
  | .count _ it i => firstHit find sha init = .ok (some (it, i))
  | .count2 _ it i _ => firstHit find sha init = .ok (some (it, i))
  | .done r => r = firstHit find sha init
  | _ => False

theorem tstep_quiet {init : List Nat} {sha : Bytes} {db : TDb} {pc : TPc} (hl : db.items = init)
    (hs : ∀ s, pc = .start s → db.hitCount % sortInterval ≠ 0) (h : Quiet find init sha pc) :
    (tstep find db pc).1.items = init ∧ Quiet find init sha (tstep find db pc).2 := by
  cases pc with
  | start s =>
    simp only [tstep]
    rw [if_neg (hs s rfl)]
    exact ⟨hl, h, rfl⟩
  | next s k =>
    simp only [tstep]
    rcases hi : db.items[k]? with _ | it
    · refine ⟨hl, ?_⟩
      rw [hl, List.getElem?_eq_none_iff] at hi
      have h2 := h.2
      rw [List.drop_eq_nil_of_le hi] at h2
      exact h2.symm
    · refine ⟨hl, h.1, ?_⟩
      rw [hl] at hi
      obtain ⟨hk, rfl⟩ := List.getElem?_eq_some_iff.1 hi
      rw [h.2, List.drop_eq_getElem_cons hk]
  | ask s k it =>
    obtain ⟨rfl, h⟩ := h
    simp only [tstep]
    rcases hf : find it s with e | _ | i
    · refine ⟨hl, ?_⟩
      rw [firstHit, hf] at h
      exact h.symm
    · refine ⟨hl, rfl, ?_⟩
      rw [firstHit, hf] at h
      exact h
    · refine ⟨hl, ?_⟩
      rw [firstHit, hf] at h
      exact h
  | hit s it i => exact ⟨hl, h⟩
  | hit2 s it i v => exact ⟨hl, h⟩
  | count s it i => exact ⟨hl, h⟩
  | count2 s it i v => exact ⟨hl, h.symm⟩
  | presort a => exact h.elim
  | sort a saved m keys => exact h.elim
  | add new => exact h.elim
  | done r => exact ⟨hl, h⟩

/-- **C103** what holds of the claim: while `_hit_count` does not come to a multiple of `_sort_interval`, every lookup that has ended gave what it
should: the first item that has the name, `BadObject` if none has.  The full statement is without `h0` and `hn`; `C103_not_full`. -/
theorem C103_right_partial (s : TSys) (hf : ∀ pc ∈ s.threads, ∃ sha, pc = .start sha) (h0 : s.db.hitCount % 500 ≠ 0)
    (hn : s.db.hitCount % 500 + s.threads.length ≤ 500) (sched : List Nat) (i : Nat) (sha : Bytes)
    (hs : s.threads[i]? = some (.start sha)) (r : Res (Option (Nat × Nat)))
    (h : (s.run find sched).threads[i]? = some (.done r)) : r = firstHit find sha s.db.items := by
  have key := run_keeps (find := find) (fun t => t.threads.length = s.threads.length ∧ t.db.items = s.db.items ∧
      ((s.db.hitCount ≤ t.db.hitCount ∧ t.db.hitCount ≤ s.db.hitCount + t.threads.countP counted) ∧
      ∀ (j : Nat) pc v, t.threads[j]? = some pc → pending pc = some v →
        s.db.hitCount ≤ v ∧ v ≤ s.db.hitCount + t.threads.countP counted) ∧
      ∀ (j : Nat) pc, t.threads[j]? = some pc → ∃ sha, s.threads[j]? = some (.start sha) ∧ Quiet find s.db.items sha pc) ?_ sched s
      ⟨rfl, rfl, ⟨⟨Nat.le_refl _, by omega⟩, ?_⟩, ?_⟩
  · obtain ⟨_, _, _, hq⟩ := key
    obtain ⟨sha', h1, h2⟩ := hq i _ h
    rw [hs] at h1
    cases h1
    exact h2
  · intro t j pc ⟨hlen, hitems, hc, hq⟩ hj
    obtain ⟨sha', h1, h2⟩ := hq j pc hj
    have h3 := tstep_quiet (find := find) (db := t.db) hitems (fun x hx => by
      subst hx
      have hlt : t.threads.countP counted < t.threads.length := by
        rcases Nat.lt_or_eq_of_le (List.countP_le_length (p := counted) (l := t.threads)) with h4 | h4
        · exact h4
        · have := List.countP_eq_length.1 h4 _ (List.mem_of_getElem? hj)
          cases this
      have := hc.1
      unfold sortInterval
      omega) h2
    refine ⟨by simpa using hlen, h3.1, hitCount_step hj hc.1 hc.2, fun k pc' hk => ?_⟩
    rcases getElem?_set_cases hk with ⟨rfl, rfl⟩ | ⟨_, hk⟩
    · exact ⟨sha', h1, h3.2⟩
    · exact hq k pc' hk
  · intro j pc v hj hv
    obtain ⟨sha, rfl⟩ := hf pc (List.mem_of_getElem? hj)
    cases hv
  · intro j pc hj
    obtain ⟨sha, rfl⟩ := hf pc (List.mem_of_getElem? hj)
    exact ⟨sha, hj, rfl⟩

theorem firstHit_found {sha : Bytes} : ∀ {l : List Nat}, (∀ it ∈ l, ∃ o, find it sha = .ok o) →
    (∃ it ∈ l, ∃ n, find it sha = .ok (some n)) → ∃ it ∈ l, ∃ n, firstHit find sha l = .ok (some (it, n)) ∧ find it sha = .ok (some n)
  | [], _, ⟨_, h, _⟩ => nomatch h
  | x :: l, ht, ⟨it, hm, n, hn⟩ => by
    obtain ⟨o, ho⟩ := ht x (List.mem_cons_self ..)
    unfold firstHit
    rw [ho]
    rcases o with _ | k
    · rcases List.mem_cons.1 hm with rfl | hm
      · rw [ho] at hn; cases hn
      · obtain ⟨it', h1, n', h2⟩ := firstHit_found (l := l) (fun y hy => ht y (List.mem_cons_of_mem _ hy)) ⟨it, hm, n, hn⟩
        exact ⟨it', List.mem_cons_of_mem _ h1, n', h2⟩
    · exact ⟨x, List.mem_cons_self .., k, rfl, ho⟩

/-- **C103** the same for a name that some pack has: it is found. -/
theorem C103_found_partial (s : TSys) (hf : ∀ pc ∈ s.threads, ∃ sha, pc = .start sha) (h0 : s.db.hitCount % 500 ≠ 0)
    (hn : s.db.hitCount % 500 + s.threads.length ≤ 500) (sched : List Nat) (i : Nat) (sha : Bytes)
    (hs : s.threads[i]? = some (.start sha)) (ht : ∀ it ∈ s.db.items, ∃ o, find it sha = .ok o)
    (hp : ∃ it ∈ s.db.items, ∃ n, find it sha = .ok (some n)) (r : Res (Option (Nat × Nat)))
    (h : (s.run find sched).threads[i]? = some (.done r)) :
    ∃ it ∈ s.db.items, ∃ n, r = .ok (some (it, n)) ∧ find it sha = .ok (some n) := by
  rw [C103_right_partial s hf h0 hn sched i sha hs r h]
  exact firstHit_found ht hp

/-- Pack `n` of the examples has one object, with the name `n`. -/
def oneEach (it : Nat) (sha : Bytes) : Res (Option Nat) := if sha = [UInt8.ofNat it] then .ok (some 0) else .ok none

/-- A new database with these packs. -/
def newDb (items : List Nat) : TDb := ⟨items, false, fun _ => 0, 0⟩

/-- **C103** the full statement is false: "the worst thing that can happen though is a counter that was not incremented, or the list being in wrong
order" (`gitdb/db/pack.py` 65-66).  A lookup of an object that is there can raise `BadObject` because another thread looks something up. -/
theorem C103_not_full : ¬ ∀ (find : Nat → Bytes → Res (Option Nat)) (s : TSys), s.db.mark = false → (∀ pc ∈ s.threads, ∃ sha, pc = .start sha) →
    ∀ (sched : List Nat) (i : Nat) (sha : Bytes), s.threads[i]? = some (.start sha) → (∀ it ∈ s.db.items, ∃ o, find it sha = .ok o) →
    (∃ it ∈ s.db.items, ∃ n, find it sha = .ok (some n)) → (s.run find sched).threads[i]? ≠ some (.done (.error .badObject)) := by
  intro h
  refine h oneEach ⟨newDb [0, 1], [.start [0], .start [1]]⟩ rfl ?_ [0, 0, 1, 1, 1] 1 [1] rfl ?_ ⟨1, by decide, 0, rfl⟩ (by decide)
  · intro pc hpc
    rcases List.mem_cons.1 hpc with rfl | hpc
    · exact ⟨_, rfl⟩
    · rw [List.mem_singleton.1 hpc]; exact ⟨_, rfl⟩
  · intro it _
    unfold oneEach
    split <;> exact ⟨_, rfl⟩

/-- **C103** the order alone is enough: thread 1 loses the object although nobody looks into the list while it is being sorted (the sort of thread
0 runs from its beginning to its end between two steps of thread 1). -/
theorem C103_order : ((TSys.mk (newDb [0, 1]) [.start [0], .start [1], .start [1]]).run oneEach
      ([0] ++ List.replicate 6 1 ++ List.replicate 12 2 ++ List.replicate 3 0 ++ List.replicate 3 1)).threads[1]? =
    some (.done (.error .badObject)) := by decide +kernel

/-- **C103** with a thread that adds packs (`update_cache`): a lookup can raise `ValueError`, and the new pack is lost. -/
theorem C103_pack_lost : ∃ sched, let t := (TSys.mk (newDb [0]) [.start [0], .add [1]]).run oneEach sched
    t.threads = [.done (.error .valueError), .done (.ok none)] ∧ t.db.items = [0] :=
  ⟨[0, 0, 1, 0, 1, 1, 1], by decide +kernel⟩

/-- **C103** with two lookups, all packs but the new one can be lost. -/
theorem C103_all_lost : ∃ sched, let t := (TSys.mk (newDb [0, 1]) [.start [0], .add [2], .start [1]]).run oneEach sched
    t.threads = [.done (.error .badObject), .done (.ok none), .done (.error .valueError)] ∧ t.db.items = [2] :=
  ⟨[0, 0, 1, 2, 2, 0, 0, 2, 1, 1, 1, 0, 0, 0], by decide +kernel⟩

/-- **C103** the first use: while one thread loads the packs (lines 53-54 of `gitdb/db/pack.py`), another does not find what is in them. -/
theorem C103_loading : ∃ sched, let t := (TSys.mk (newDb []) [.add [0], .start [0]]).run oneEach sched
    t.threads = [.done (.ok none), .done (.error .badObject)] ∧ t.db.items = [0] :=
  ⟨[1, 1, 1, 0, 0, 0, 0], by decide +kernel⟩

/-- Lookups one after the other: found, counted. -/
example : ((TSys.mk (newDb [0, 1]) [.start [1], .start [0]]).run oneEach (List.replicate 12 0 ++ List.replicate 12 1)).threads =
    [.done (.ok (some (1, 0))), .done (.ok (some (0, 0)))] ∧
    ((TSys.mk (newDb [0, 1]) [.start [1], .start [0]]).run oneEach (List.replicate 12 0 ++ List.replicate 12 1)).db.items = [0, 1] ∧
    ((TSys.mk (newDb [0, 1]) [.start [1], .start [0]]).run oneEach (List.replicate 12 0 ++ List.replicate 12 1)).db.hitCount = 2 := by
  decide +kernel

/-- A counter that was not incremented: two lookups of one object at once, none of them sorting. -/
example : ((TSys.mk ⟨[0], false, fun _ => 7, 3⟩ [.start [0], .start [0]]).run oneEach
      [0, 0, 0, 0, 1, 1, 1, 1, 0, 1, 0, 1, 0, 1]).threads = [.done (.ok (some (0, 0))), .done (.ok (some (0, 0)))] ∧
    ((TSys.mk ⟨[0], false, fun _ => 7, 3⟩ [.start [0], .start [0]]).run oneEach
      [0, 0, 0, 0, 1, 1, 1, 1, 0, 1, 0, 1, 0, 1]).db.hitCount = 4 ∧
    ((TSys.mk ⟨[0], false, fun _ => 7, 3⟩ [.start [0], .start [0]]).run oneEach
      [0, 0, 0, 0, 1, 1, 1, 1, 0, 1, 0, 1, 0, 1]).db.hits 0 = 8 := by decide +kernel


/-! ## One thread alone -/

theorem trun_append (s : TSys) (a b : List Nat) : s.run find (a ++ b) = (s.run find a).run find b := List.foldl_append ..

theorem run_one (db : TDb) (pc : TPc) (n : Nat) :
    (TSys.mk db [pc]).run find (List.replicate (n + 1) 0) = (TSys.mk (tstep find db pc).1 [(tstep find db pc).2]).run find (List.replicate n 0) := rfl

theorem run_sort (a : Option Bytes) (saved : List Nat) (m : Bool) : ∀ (n : Nat) (db : TDb) (keys : List Nat), db.mark = true →
    saved.length = keys.length + n + 1 →
    (TSys.mk db [.sort a saved m keys]).run find (List.replicate (n + 1) 0) =
      ⟨{ db with items := (sortKeys ((keys ++ (saved.drop keys.length).map db.hits).zip saved)).map Prod.snd, mark := m }, [afterSort a]⟩ := by
  intro n
  induction n with
  | zero =>
    intro db keys hm hl
    rw [run_one]
    have hlt : keys.length < saved.length := by omega
    have hd : saved.drop keys.length = [saved[keys.length]] := by
      rw [List.drop_eq_getElem_cons hlt, List.drop_eq_nil_of_le (by omega)]
    simp only [tstep]
    rw [List.getElem?_eq_getElem hlt]
    dsimp only
    rw [if_neg (by simp only [List.length_append, List.length_singleton]; omega), if_pos hm, hd]
    rfl
  | succ n ih =>
    intro db keys hm hl
    rw [run_one]
    have hlt : keys.length < saved.length := by omega
    simp only [tstep]
    rw [List.getElem?_eq_getElem hlt]
    dsimp only
    rw [if_pos (by simp only [List.length_append, List.length_singleton]; omega)]
    dsimp only
    rw [ih db _ hm (by simp only [List.length_append, List.length_singleton]; omega)]
    rw [List.drop_eq_getElem_cons hlt, List.map_cons, List.length_append, List.length_singleton, List.append_assoc]
    rfl

/-- The database after a lookup with this result. -/
def afterLook (db : TDb) : Res (Option (Nat × Nat)) → TDb
  | .ok (some (it, _)) => { db with hits := fun j => if j = it then db.hits it + 1 else db.hits j, hitCount := db.hitCount + 1 }
  | _ => db

theorem run_next (sha : Bytes) (db : TDb) : ∀ (l : List Nat) (k : Nat), db.items.drop k = l →
    ∃ n, (TSys.mk db [.next sha k]).run find (List.replicate n 0) =
      ⟨afterLook db (firstHit find sha l), [.done (firstHit find sha l)]⟩ := by
  intro l
  induction l with
  | nil =>
    intro k h
    refine ⟨1, ?_⟩
    rw [run_one]
    simp only [tstep]
    rw [List.getElem?_eq_none_iff.2 (List.drop_eq_nil_iff.1 h)]
    rfl
  | cons it l ih =>
    intro k h
    have hk : db.items[k]? = some it := by
      rw [← List.head?_drop, h]; rfl
    have hd : db.items.drop (k + 1) = l := by
      rw [← List.tail_drop, h]; rfl
    obtain ⟨n, hn⟩ := ih (k + 1) hd
    rcases hf : find it sha with e | _ | i
    · refine ⟨2, ?_⟩
      rw [run_one, run_one]
      simp only [tstep, hk, hf, firstHit]
      rfl
    · refine ⟨n + 2, ?_⟩
      rw [run_one, run_one]
      simp only [tstep, hk, hf, firstHit]
      exact hn
    · refine ⟨6, ?_⟩
      rw [run_one, run_one, run_one, run_one, run_one, run_one]
      simp only [tstep, hk, hf, firstHit]
      rfl

/-- The order of the items for a lookup. -/
def sortedFor (db : TDb) : List Nat :=
  if db.hitCount % sortInterval = 0 then (sortKeys ((db.items.map db.hits).zip db.items)).map Prod.snd else db.items

theorem run_alone (db : TDb) (sha : Bytes) :
    ∃ n, (TSys.mk db [.start sha]).run find (List.replicate n 0) =
      ⟨afterLook { db with items := sortedFor db } (firstHit find sha (sortedFor db)), [.done (firstHit find sha (sortedFor db))]⟩ := by
  obtain ⟨n, hn⟩ := run_next (find := find) sha { db with items := sortedFor db } (sortedFor db) 0 rfl
  by_cases hc : db.hitCount % sortInterval = 0
  · have e1 : tstep find db (.start sha) = (db, .presort (some sha)) := if_pos hc
    by_cases hi : db.items = []
    · have e2 : tstep find db (.presort (some sha)) = (db, .next sha 0) := if_pos hi
      have hs : sortedFor db = db.items := by
        unfold sortedFor; rw [if_pos hc, hi]; rfl
      rw [hs] at hn ⊢
      exact ⟨n + 2, by rw [run_one, e1, run_one, e2]; exact hn⟩
    · obtain ⟨k, hk⟩ : ∃ k, db.items.length = k + 1 := ⟨db.items.length - 1, by
        have := List.length_pos_iff.2 hi; omega⟩
      have e2 : tstep find db (.presort (some sha)) = ({ db with items := [], mark := true }, .sort (some sha) db.items db.mark []) := if_neg hi
      have e3 := run_sort (find := find) (some sha) db.items db.mark k { db with items := [], mark := true } [] rfl (by simpa using hk)
      have hs : sortedFor db = (sortKeys ((db.items.map db.hits).zip db.items)).map Prod.snd := if_pos hc
      refine ⟨(k + 1 + n) + 2, ?_⟩
      rw [run_one, e1, run_one, e2, ← List.replicate_append_replicate, trun_append]
      dsimp only
      rw [e3, ← hn, hs]
      rfl
  · have e1 : tstep find db (.start sha) = (db, .next sha 0) := if_neg hc
    have hs : sortedFor db = db.items := if_neg hc
    rw [hs] at hn ⊢
    exact ⟨n + 1, by rw [run_one, e1]; exact hn⟩

/-! The model of one thread, `Model/PackedDB.lean`. -/

theorem insertKey_items (f : Nat → PackItem) (x : Nat × Nat) (hx : x.1 = (f x.2).hits) : ∀ (l : List (Nat × Nat)), (∀ y ∈ l, y.1 = (f y.2).hits) →
    (insertKey x l).map (fun y => f y.2) = insertItem (f x.2) (l.map fun y => f y.2)
  | [], _ => rfl
  | y :: l, h => by
    unfold insertKey
    rw [List.map_cons, insertItem, ← hx, ← h y (List.mem_cons_self ..)]
    split
    · rfl
    · rw [List.map_cons, insertKey_items f x hx l fun z hz => h z (List.mem_cons_of_mem _ hz)]

theorem sortKeys_items (f : Nat → PackItem) : ∀ (l : List (Nat × Nat)), (∀ y ∈ l, y.1 = (f y.2).hits) →
    (sortKeys l).map (fun y => f y.2) = sortItems (l.map fun y => f y.2)
  | [], _ => rfl
  | x :: l, h => by
    unfold sortKeys
    rw [List.map_cons, sortItems, insertKey_items f x (h x (List.mem_cons_self ..)) _ fun z hz =>
      h z (List.mem_cons_of_mem _ ((sortKeys_perm l).mem_iff.1 hz)), sortKeys_items f l fun z hz => h z (List.mem_cons_of_mem _ hz)]

theorem find_same (dir : PackDir) (it : PackItem) (sha : Bytes) : (it.find dir sha).1.path = it.path ∧ (it.find dir sha).1.hits = it.hits ∧
    (it.find dir sha).1.pack = it.pack := by
  unfold PackItem.find PackItem.index
  split
  · exact ⟨rfl, rfl, rfl⟩
  · rcases it.idx with _ | c
    · dsimp only
      rcases dir.get (idxName it.path) with _ | c
      · exact ⟨rfl, rfl, rfl⟩
      · dsimp only
        rcases IndexFile.load c with e | x <;> exact ⟨rfl, rfl, rfl⟩
    · dsimp only
      rcases IndexFile.load c with e | x <;> exact ⟨rfl, rfl, rfl⟩

theorem scan_firstHit (dir : PackDir) (sha : Bytes) (f : Nat → PackItem) : ∀ (l : List Nat),
    match scanItems dir sha (l.map f), firstHit (fun j s => ((f j).find dir s).2) sha l with
    | (l', .error e), r => r = .error e ∧ l'.map (·.path) = l.map fun j => (f j).path
    | (l', .ok none), r => r = .error .badObject ∧ l'.map (·.path) = l.map fun j => (f j).path
    | (l', .ok (some (it, n))), r => (∃ j ∈ l, r = .ok (some (j, n)) ∧ it.path = (f j).path ∧ it.pack = (f j).pack ∧ it.hits = (f j).hits + 1) ∧
        l'.map (·.path) = l.map fun j => (f j).path
  | [] => ⟨rfl, rfl⟩
  | j :: l => by
    have ih := scan_firstHit dir sha f l
    obtain ⟨hp, hh, hk⟩ := find_same dir (f j) sha
    rw [List.map_cons]
    unfold scanItems firstHit
    rcases hf : (f j).find dir sha with ⟨it, e | _ | i⟩
    · rw [hf] at hp
      exact ⟨rfl, by rw [List.map_cons, List.map_cons, List.map_map, hp]; rfl⟩
    · rw [hf] at hp
      dsimp only
      rcases hs : scanItems dir sha (l.map f) with ⟨l', e | _ | ⟨it2, n⟩⟩
      · rw [hs] at ih
        exact ⟨ih.1, by rw [List.map_cons, List.map_cons, ih.2, hp]⟩
      · rw [hs] at ih
        exact ⟨ih.1, by rw [List.map_cons, List.map_cons, ih.2, hp]⟩
      · rw [hs] at ih
        obtain ⟨⟨j', h1, h2⟩, h3⟩ := ih
        exact ⟨⟨j', List.mem_cons_of_mem _ h1, h2⟩, by rw [List.map_cons, List.map_cons, h3, hp]⟩
    · rw [hf] at hp hh hk
      dsimp only
      refine ⟨⟨j, List.mem_cons_self .., rfl, hp, hk, ?_⟩, ?_⟩
      · rw [hh]
      · rw [List.map_cons, List.map_cons, List.map_map, hp]; rfl

/-- **C103** one thread alone does what `_pack_info` does in `Model/PackedDB.lean`: the items are numbered by their places in the list, and the
thread ends with the same exception, or with the item and position that `_pack_info` returns; the order of the items, the counter of hits and the
hits of the item found are the same. -/
theorem C103_alone (order : List Bytes → List Bytes) (dir : Option PackDir) (db : PackedDB) (l : List PackItem) (hl : db.entities = some l)
    (d : PackItem) (sha : Bytes) : ∃ n, ∃ t : TDb, ∃ r,
    (TSys.mk ⟨List.range l.length, false, fun j => (l.getD j d).hits, db.hitCount⟩ [.start sha]).run
      (fun j s => ((l.getD j d).find (dirFiles dir) s).2) (List.replicate n 0) = ⟨t, [.done r]⟩ ∧
    t.hitCount = (db.packInfo order dir sha).1.hitCount ∧
    (db.packInfo order dir sha).1.entities.map (fun l => l.map (·.path)) = some (t.items.map fun j => (l.getD j d).path) ∧
    match (db.packInfo order dir sha).2 with
    | .error e => r = .error e
    | .ok (it, i) => ∃ j, j < l.length ∧ r = .ok (some (j, i)) ∧ it.path = (l.getD j d).path ∧ it.pack = (l.getD j d).pack ∧ it.hits = t.hits j := by
  let f : Nat → PackItem := fun j => l.getD j d
  let s0 : TDb := ⟨List.range l.length, false, fun j => (l.getD j d).hits, db.hitCount⟩
  obtain ⟨n, hn⟩ := run_alone (find := fun j s => ((f j).find (dirFiles dir) s).2) s0 sha
  have hr : (List.range l.length).map f = l := by
    apply List.ext_getElem
    · simp
    · intro i h1 h2
      simp [f, List.getD, List.getElem?_eq_getElem h2]
  have hs : (sortedFor s0).map f = if db.hitCount % sortInterval = 0 then sortItems l else l := by
    unfold sortedFor
    split
    · have hz : ∀ y ∈ (s0.items.map s0.hits).zip s0.items, y.1 = (f y.2).hits := by
        intro y hy
        rw [List.zip_map_left] at hy
        obtain ⟨z, hz, rfl⟩ := List.mem_map.1 hy
        have : z.1 = z.2 := by
          clear hy
          generalize s0.items = q at hz
          induction q with
          | nil => cases hz
          | cons a q ih =>
            rcases List.mem_cons.1 hz with rfl | hz
            · rfl
            · exact ih hz
        show s0.hits z.1 = (f z.2).hits
        rw [this]
      rw [List.map_map]
      refine (sortKeys_items f _ hz).trans ?_
      congr 1
      have h3 : ((s0.items.map s0.hits).zip s0.items).map (fun y => f y.2) = (((s0.items.map s0.hits).zip s0.items).map Prod.snd).map f := by
        rw [List.map_map]; rfl
      rw [h3, map_snd_zip _ _ (by simp)]
      exact hr
    · exact hr
  have hm : ∀ j ∈ sortedFor s0, j < l.length := by
    intro j hj
    unfold sortedFor at hj
    split at hj
    · exact List.mem_range.1 ((sorted_perm (List.length_map _)).mem_iff.1 hj)
    · exact List.mem_range.1 hj
  have hk := scan_firstHit (dirFiles dir) sha f (sortedFor s0)
  refine ⟨n, _, _, hn, ?_⟩
  have hp : db.packInfo order dir sha = (match scanItems (dirFiles dir) sha ((sortedFor s0).map f) with
    | (l, .error e) => ({ db with entities := some l }, .error e)
    | (l, .ok (some r)) => ({ db with entities := some l, hitCount := db.hitCount + 1 }, .ok r)
    | (l, .ok none) => ({ db with entities := some l }, .error .badObject)) := by
    unfold PackedDB.packInfo PackedDB.load
    rw [hl]
    dsimp only
    rw [← hs]
    rcases scanItems (dirFiles dir) sha ((sortedFor s0).map f) with ⟨l', e | _ | ⟨it, i⟩⟩ <;> rfl
  rw [hp]
  clear hp
  generalize scanItems (dirFiles dir) sha ((sortedFor s0).map f) = zz at hk ⊢
  rcases zz with ⟨l', e | _ | ⟨it, i⟩⟩
  · obtain ⟨h1, h2⟩ := hk
    rw [h1]
    exact ⟨rfl, congrArg some h2, rfl⟩
  · obtain ⟨h1, h2⟩ := hk
    rw [h1]
    exact ⟨rfl, congrArg some h2, rfl⟩
  · obtain ⟨⟨j, hj, h1, h3, h4, h5⟩, h2⟩ := hk
    rw [h1]
    exact ⟨rfl, congrArg some h2, j, hm j hj, rfl, h3, h4, by simp only [afterLook, if_true]; exact h5⟩

end GitDB.Props
