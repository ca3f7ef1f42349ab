import Verif.Model.WinCreate
import Verif.Spec.LockedFD
/-!
# C114: creating packs on Windows

Any number of calls of `PackEntity.create` in one directory, one system call at a time, on both platforms.
-/
set_option autoImplicit false

namespace GitDB.Props
open GitDB Spec

/-- The complete file. -/
def makeData (j : MakeJob) (k : FileKind) : Bytes := (j.parts k).flatten

/-- The temporary files after one has changed. -/
def setKind (T : FileKind → TempFile) (k : FileKind) (x : TempFile) : FileKind → TempFile := fun k' => if k' = k then x else T k'

/-- The order in which the files are published. -/
def FileKind.ord : FileKind → Nat
  | .pack => 0
  | .idx => 1

/-- What `create` may do, given its temporary files and how many files it has published.  If `nf`, no call fails for reasons outside of the model. -/
def MakeObeys (win nf : Bool) (j : MakeJob) (Q : Res Unit → (FileKind → TempFile) → Nat → Prop) : MakeAct → (FileKind → TempFile) → Nat → Prop
  | .ret r, T, st => Q r T st
  | .sys (.mkTemp k) next, T, st =>
    MakeObeys win nf j Q (next true) (setKind T k (some ([], true))) st ∧ (nf = false → MakeObeys win nf j Q (next false) T st)
  | .sys (.write k d) next, T, st =>
    ∃ b, T k = some (b, true) ∧ MakeObeys win nf j Q (next true) (setKind T k (some (b ++ d, true))) st ∧ (nf = false → MakeObeys win nf j Q (next false) T st)
  | .sys (.close k) next, T, st =>
    ∃ b, T k = some (b, true) ∧ MakeObeys win nf j Q (next true) (setKind T k (some (b, false))) st ∧ (nf = false → MakeObeys win nf j Q (next false) T st)
  | .sys (.rename k m) next, T, st => m = j.name ∧ j.src = none ∧ T k = some (makeData j k, false) ∧ st = FileKind.ord k ∧
      MakeObeys win nf j Q (next true) (setKind T k none) (st + 1) ∧ (nf = false ∨ win = true → MakeObeys win nf j Q (next false) T st)

/-- How `create` may end. -/
structure MakeEnds (win nf : Bool) (j : MakeJob) (r : Res Unit) (T : FileKind → TempFile) (st : Nat) : Prop where
  ok : r = .ok () → j.src = none ∧ st = 2 ∧ ∀ k, T k = none
  errors : ∀ e, r = .error e → st < 2 ∧ (e = .osError ∨ (j.src = some e ∧ ∀ k, T k = some (makeData j k, true)))
  half : ∀ e, r = .error e → st = 1 → T .idx = some (makeData j .idx, false)
  nofail : nf = true → r = .ok () ∨ (∃ e, j.src = some e ∧ r = .error e ∧ ∀ k, T k = some (makeData j k, true)) ∨
    (win = true ∧ j.src = none ∧ r = .error .osError ∧ T .idx = some (makeData j .idx, false))

section
variable {win nf : Bool} {j : MakeJob}

theorem makeEnds_fail {T : FileKind → TempFile} (h : nf = false) : MakeEnds win nf j (.error .osError) T 0 :=
  ⟨nofun, fun e he => by cases he; exact ⟨by decide, .inl rfl⟩, nofun, fun e => by rw [h] at e; cases e⟩

theorem mobeys_publish (hs : j.src = none) {T : FileKind → TempFile} (hT : ∀ k, T k = some (makeData j k, true)) :
    MakeObeys win nf j (MakeEnds win nf j) (makePublish j.name) T 0 := by
  refine ⟨_, hT .pack, ⟨makeData j .idx, hT .idx, ⟨rfl, hs, rfl, rfl, ⟨rfl, hs, rfl, rfl, ?_, ?_⟩, ?_⟩, makeEnds_fail⟩, makeEnds_fail⟩
  · refine ⟨fun _ => ⟨hs, rfl, ?_⟩, nofun, nofun, fun _ => .inl rfl⟩
    intro k
    cases k <;> rfl
  · intro h
    refine ⟨nofun, fun e he => by cases he; exact ⟨by decide, .inl rfl⟩, fun _ _ _ => rfl, fun hn => ?_⟩
    rcases h with h | h
    · rw [hn] at h; cases h
    · exact .inr (.inr ⟨h, hs, rfl, rfl⟩)
  · intro h
    refine ⟨nofun, fun e he => by cases he; exact ⟨by decide, .inl rfl⟩, nofun, fun hn => ?_⟩
    rcases h with h | h
    · rw [hn] at h; cases h
    · exact .inr (.inr ⟨h, hs, rfl, rfl⟩)

theorem mobeys_writes (k : FileKind) (next : MakeAct) : ∀ (ds : List Bytes) (T : FileKind → TempFile) (b : Bytes), T k = some (b, true) →
    (∀ T', T' k = some (b ++ ds.flatten, true) → (∀ k', k' ≠ k → T' k' = T k') → MakeObeys win nf j (MakeEnds win nf j) next T' 0) →
    MakeObeys win nf j (MakeEnds win nf j) (makeWrites k next ds) T 0
  | [], T, b, hT, h => h T (by rw [hT]; simp) fun _ _ => rfl
  | d :: ds, T, b, hT, h => by
    refine ⟨b, hT, mobeys_writes k next ds _ (b ++ d) (by unfold setKind; rw [if_pos rfl]) ?_, makeEnds_fail⟩
    intro T' h1 h2
    refine h T' (by rw [h1]; simp) fun k' hk => ?_
    rw [h2 k' hk]
    unfold setKind
    rw [if_neg hk]

theorem mobeys_prog (T : FileKind → TempFile) : MakeObeys win nf j (MakeEnds win nf j) (makeProg j) T 0 := by
  refine ⟨⟨mobeys_writes .pack _ _ _ [] rfl ?_, makeEnds_fail⟩, makeEnds_fail⟩
  intro T1 h1 h2
  refine mobeys_writes .idx _ _ _ [] ((h2 .idx (by decide)).trans rfl) ?_
  intro T2 h3 h4
  have hT : ∀ k, T2 k = some (makeData j k, true) := by
    intro k
    cases k
    · rw [h4 .pack (by decide), h1]; rfl
    · rw [h3]; rfl
  rcases hs : j.src with _ | e
  · exact mobeys_publish hs hT
  · exact ⟨nofun, fun e' he => by cases he; exact ⟨by decide, .inr ⟨hs, hT⟩⟩, nofun, fun _ => .inr (.inl ⟨e, hs, rfl, hT⟩)⟩
end

/-! ## All calls together -/

/-- What holds between the disk and the calls of `create`: `files0` are the files at first, `st` how many files each has published. -/
structure MakesInv (win nf : Bool) (jobs : List MakeJob) (files0 : FileKind → Bytes → Option Bytes) (s : MakeSys) (st : Nat → Nat) : Prop where
  obeys : ∀ (i : Nat) t j, s.procs[i]? = some t → jobs[i]? = some j → MakeObeys win nf j (MakeEnds win nf j) t (fun k => s.disk.tmps k i) (st i)
  len : s.procs.length = jobs.length
  there : ∀ (i : Nat) j k, jobs[i]? = some j → FileKind.ord k < st i → (s.disk.files k j.name).isSome = true
  own : win = true → ∀ (i : Nat) j k, jobs[i]? = some j → FileKind.ord k < st i → s.disk.files k j.name = some (makeData j k) ∧ files0 k j.name = none
  uniq : win = true → ∀ (i i' : Nat) (j j' : MakeJob), jobs[i]? = some j → jobs[i']? = some j' → j.name = j'.name → 0 < st i → 0 < st i' → i = i'
  content : ∀ k n c, s.disk.files k n = some c → files0 k n = some c ∨ ∃ (i : Nat) (j : MakeJob), jobs[i]? = some j ∧ j.name = n ∧ j.src = none ∧ c = makeData j k
  index : ∀ n, (s.disk.files .idx n).isSome = true → (files0 .idx n).isSome = true ∨ (s.disk.files .pack n).isSome = true
  kept : ∀ k n, (files0 k n).isSome = true → (s.disk.files k n).isSome = true

section
variable {win nf : Bool} {jobs : List MakeJob} {files0 : FileKind → Bytes → Option Bytes}

/-- A step that changes no published file. -/
theorem makesInv_tmp {s : MakeSys} {st : Nat → Nat} (h : MakesInv win nf jobs files0 s st) {i : Nat} {j : MakeJob} (hi : i < s.procs.length)
    (hj : jobs[i]? = some j) (w : MakeDisk) (t : MakeAct) (ho : MakeObeys win nf j (MakeEnds win nf j) t (fun k => w.tmps k i) (st i))
    (htmp : ∀ k i', i' ≠ i → w.tmps k i' = s.disk.tmps k i') (hf : w.files = s.disk.files) : MakesInv win nf jobs files0 ⟨w, s.procs.set i t⟩ st where
  obeys := by
    intro i' u j' hu hj'
    dsimp only at hu ⊢
    rw [List.getElem?_set] at hu
    by_cases e : i = i'
    · subst e
      rw [if_pos rfl, if_pos hi] at hu
      cases hu
      rw [hj] at hj'
      cases hj'
      exact ho
    · rw [if_neg e] at hu
      have := h.obeys i' u j' hu hj'
      rwa [show (fun k => w.tmps k i') = fun k => s.disk.tmps k i' from funext fun k => htmp k i' fun h => e h.symm]
  len := by rw [List.length_set]; exact h.len
  there := by dsimp only; rw [hf]; exact h.there
  own := by dsimp only; rw [hf]; exact h.own
  uniq := h.uniq
  content := by dsimp only; rw [hf]; exact h.content
  index := by dsimp only; rw [hf]; exact h.index
  kept := by dsimp only; rw [hf]; exact h.kept

/-- A file is published. -/
theorem makesInv_rename {s : MakeSys} {st : Nat → Nat} (h : MakesInv win nf jobs files0 s st) {i : Nat} {j : MakeJob} (hi : i < s.procs.length)
    (hj : jobs[i]? = some j) (k : FileKind) (t : MakeAct) (hsrc : j.src = none) (hst : st i = FileKind.ord k)
    (hw : win = true → s.disk.files k j.name = none)
    (ho : MakeObeys win nf j (MakeEnds win nf j) t (setKind (fun k => s.disk.tmps k i) k none) (st i + 1)) :
    MakesInv win nf jobs files0 ⟨⟨fun k' n' => if k' = k ∧ n' = j.name then some (makeData j k) else s.disk.files k' n', (s.disk.setTmp k i none).tmps⟩, s.procs.set i t⟩
      (fun i' => if i' = i then st i + 1 else st i') := by
  have grow : ∀ k' n, (s.disk.files k' n).isSome = true → ((if k' = k ∧ n = j.name then some (makeData j k) else s.disk.files k' n) : Option Bytes).isSome = true := by
    intro k' n hn
    split
    · rfl
    · exact hn
  constructor
  · intro i' u j' hu hj'
    dsimp only at hu ⊢
    rw [List.getElem?_set] at hu
    by_cases e : i = i'
    · subst e
      rw [if_pos rfl, if_pos hi] at hu
      cases hu
      rw [hj] at hj'
      cases hj'
      rw [if_pos rfl]
      have e2 : (fun k' => (s.disk.setTmp k i none).tmps k' i) = setKind (fun k => s.disk.tmps k i) k none := by
        funext k'
        simp [MakeDisk.setTmp, setKind]
      rw [e2]
      exact ho
    · rw [if_neg e] at hu
      rw [if_neg (fun h => e h.symm)]
      have e2 : (fun k' => (s.disk.setTmp k i none).tmps k' i') = fun k => s.disk.tmps k i' := by
        funext k'
        simp only [MakeDisk.setTmp]
        rw [if_neg fun h => e h.2.symm]
      rw [e2]
      exact h.obeys i' u j' hu hj'
  · rw [List.length_set]; exact h.len
  · intro i' j' k' hj' hk
    dsimp only at hk ⊢
    by_cases e : i' = i
    · subst e
      rw [hj] at hj'
      cases hj'
      rw [if_pos rfl] at hk
      by_cases e2 : k' = k
      · subst e2; simp
      · refine grow _ _ (h.there i' j k' hj ?_)
        rw [hst] at hk ⊢
        have : FileKind.ord k' ≠ FileKind.ord k := by revert e2; cases k <;> cases k' <;> decide
        omega
    · rw [if_neg e] at hk
      exact grow _ _ (h.there i' j' k' hj' hk)
  · intro hwin i' j' k' hj' hk
    dsimp only at hk ⊢
    have h0 : files0 k j.name = none := by
      rcases h0 : files0 k j.name with _ | c
      · rfl
      · have := h.kept k j.name (by rw [h0]; rfl)
        rw [hw hwin] at this
        cases this
    by_cases e : i' = i
    · subst e
      rw [hj] at hj'
      cases hj'
      rw [if_pos rfl] at hk
      by_cases e2 : k' = k
      · subst e2
        exact ⟨if_pos ⟨rfl, rfl⟩, h0⟩
      · rw [if_neg fun h => e2 h.1]
        refine h.own hwin i' j k' hj ?_
        rw [hst] at hk ⊢
        have : FileKind.ord k' ≠ FileKind.ord k := by revert e2; cases k <;> cases k' <;> decide
        omega
    · rw [if_neg e] at hk
      obtain ⟨h1, h2⟩ := h.own hwin i' j' k' hj' hk
      refine ⟨?_, h2⟩
      rw [if_neg]
      · exact h1
      · rintro ⟨rfl, hn⟩
        rw [hn, hw hwin] at h1
        cases h1
  · intro hwin
    -- whoever else has published a file of this name has published the pack
    have other : ∀ (i' : Nat) (j' : MakeJob), i' ≠ i → jobs[i']? = some j' → j'.name = j.name → 0 < st i' → False := by
      intro i' j' e hj' hn h0
      have h1 := (h.own hwin i' j' .pack hj' h0).1
      rw [hn] at h1
      cases k
      · rw [hw hwin] at h1; cases h1
      · exact e (h.uniq hwin i' i j' j hj' hj hn h0 (by rw [hst]; decide))
    intro a b ja jb ha hb hn h1 h2
    by_cases ea : a = i <;> by_cases eb : b = i
    · rw [ea, eb]
    · subst ea
      rw [hj] at ha
      cases ha
      rw [if_neg eb] at h2
      exact (other b jb eb hb hn.symm h2).elim
    · subst eb
      rw [hj] at hb
      cases hb
      rw [if_neg ea] at h1
      exact (other a ja ea ha hn h1).elim
    · rw [if_neg ea] at h1
      rw [if_neg eb] at h2
      exact h.uniq hwin a b ja jb ha hb hn h1 h2
  · intro k' n c hc
    dsimp only at hc
    split at hc
    · rename_i e
      obtain ⟨rfl, rfl⟩ := e
      cases hc
      exact .inr ⟨i, j, hj, rfl, hsrc, rfl⟩
    · exact h.content k' n c hc
  · intro n hn
    dsimp only at hn ⊢
    split at hn
    · rename_i e
      obtain ⟨rfl, rfl⟩ := e
      exact .inr (grow _ _ (h.there i j .pack hj (by rw [hst]; decide)))
    · exact (h.index n hn).imp id (grow _ _)
  · exact fun k' n hn => grow _ _ (h.kept k' n hn)

theorem makesInv_step {s : MakeSys} {st : Nat → Nat} (h : MakesInv win nf jobs files0 s st) (e : Nat × Bool) (hnf : nf = true → e.2 = true) :
    ∃ st', MakesInv win nf jobs files0 (s.step win e) st' := by
  unfold MakeSys.step
  rcases hi : s.procs[e.1]? with _ | t | ⟨c, next⟩
  · exact ⟨st, h⟩
  · exact ⟨st, h⟩
  dsimp only
  have hlt : e.1 < s.procs.length := (List.getElem?_eq_some_iff.1 hi).1
  obtain ⟨j, hj⟩ : ∃ j, jobs[e.1]? = some j := ⟨_, List.getElem?_eq_getElem (h.len ▸ hlt)⟩
  have ho := h.obeys e.1 _ j hi hj
  have no : e.2 = false → nf = false := by
    intro he
    rcases hn : nf with _ | _
    · rfl
    · rw [hnf hn] at he; cases he
  -- the call fails
  have failed : MakeObeys win nf j (MakeEnds win nf j) (next false) (fun k => s.disk.tmps k e.1) (st e.1) →
      ∃ st', MakesInv win nf jobs files0 ⟨s.disk, s.procs.set e.1 (next false)⟩ st' :=
    fun h' => ⟨st, makesInv_tmp h hlt hj s.disk _ h' (fun _ _ _ => rfl) rfl⟩
  -- a temporary file changes
  have tmp : ∀ k x, MakeObeys win nf j (MakeEnds win nf j) (next true) (setKind (fun k => s.disk.tmps k e.1) k x) (st e.1) →
      ∃ st', MakesInv win nf jobs files0 ⟨s.disk.setTmp k e.1 x, s.procs.set e.1 (next true)⟩ st' := by
    intro k x h'
    refine ⟨st, makesInv_tmp h hlt hj _ _ ?_ ?_ rfl⟩
    · have e2 : (fun k' => (s.disk.setTmp k e.1 x).tmps k' e.1) = setKind (fun k => s.disk.tmps k e.1) k x := by
        funext k'
        simp [MakeDisk.setTmp, setKind]
      rw [e2]
      exact h'
    · intro k' i' hne
      simp only [MakeDisk.setTmp]
      rw [if_neg fun h => hne h.2]
  rcases c with k | ⟨k, d⟩ | k | ⟨k, m⟩
  · obtain ⟨h1, h2⟩ := ho
    rcases he : e.2 with _ | _
    · exact failed (h2 (no he))
    · exact tmp k _ h1
  · obtain ⟨b, hb, h1, h2⟩ := ho
    simp only [MakeCall.run, hb]
    rcases he : e.2 with _ | _
    · exact failed (h2 (no he))
    · exact tmp k _ h1
  · obtain ⟨b, hb, h1, h2⟩ := ho
    simp only [MakeCall.run, hb]
    rcases he : e.2 with _ | _
    · exact failed (h2 (no he))
    · exact tmp k _ h1
  · obtain ⟨rfl, hsrc, hb, hst, h1, h2⟩ := ho
    simp only [MakeCall.run, hb]
    by_cases hc : (e.2 && !(win && (false || (s.disk.files k j.name).isSome))) = true
    · rw [if_pos hc]
      refine ⟨_, makesInv_rename h hlt hj k (next true) hsrc hst ?_ h1⟩
      intro hw
      rw [hw] at hc
      rcases hf : s.disk.files k j.name with _ | c
      · rfl
      · rw [hf] at hc; simp at hc
    · rw [if_neg hc]
      refine failed (h2 ?_)
      rcases hn : nf with _ | _
      · exact .inl rfl
      · right
        rw [hnf hn] at hc
        rcases hw : win with _ | _
        · rw [hw] at hc; simp at hc
        · rfl

theorem makesInv_run (sched : List (Nat × Bool)) (hnf : nf = true → ∀ e ∈ sched, e.2 = true) : ∀ (s : MakeSys) (st : Nat → Nat),
    MakesInv win nf jobs files0 s st → ∃ st', MakesInv win nf jobs files0 (s.run win sched) st' := by
  induction sched with
  | nil => exact fun s st h => ⟨st, h⟩
  | cons e l ih =>
    intro s st h
    obtain ⟨st', h'⟩ := makesInv_step h e fun hn => hnf hn e (by simp)
    exact ih (fun hn e he => hnf hn e (by simp [he])) _ st' h'

theorem makeSystem_inv (jobs : List MakeJob) (sched : List (Nat × Bool)) (hnf : nf = true → ∀ e ∈ sched, e.2 = true) :
    ∃ st, MakesInv win nf jobs files0 ((makeSystem files0 jobs).run win sched) st := by
  refine makesInv_run sched hnf _ (fun _ => 0) ⟨?_, by simp [makeSystem], nofun, nofun, nofun, fun k n c h => .inl h, fun n h => .inl h, fun _ _ h => h⟩
  intro i t j ht hj
  dsimp only [makeSystem] at ht ⊢
  rw [List.getElem?_map, hj] at ht
  cases ht
  exact mobeys_prog _
end

/-- C114: with any number of calls of `create`, on both platforms, with calls failing and processes stopping anywhere, every pack and index is one that was there before, or the
complete file written by a `create` of that name whose objects did not fail. -/
theorem C114_complete (win : Bool) (files0 : FileKind → Bytes → Option Bytes) (jobs : List MakeJob) (sched : List (Nat × Bool)) (k : FileKind) (n c : Bytes)
    (h : ((makeSystem files0 jobs).run win sched).disk.files k n = some c) :
    files0 k n = some c ∨ ∃ j ∈ jobs, j.name = n ∧ j.src = none ∧ c = (j.parts k).flatten := by
  obtain ⟨st, hi⟩ := makeSystem_inv (win := win) (nf := false) (files0 := files0) jobs sched nofun
  rcases hi.content k n c h with h | ⟨i, j, hj, h1, h2, h3⟩
  · exact .inl h
  · exact .inr ⟨j, List.mem_of_getElem? hj, h1, h2, h3⟩

/-- C114: no index comes without its pack: at every moment an index that was not there at first has a pack of its name. -/
theorem C114_index (win : Bool) (files0 : FileKind → Bytes → Option Bytes) (jobs : List MakeJob) (sched : List (Nat × Bool)) (n : Bytes)
    (h : (((makeSystem files0 jobs).run win sched).disk.files .idx n).isSome = true) (h0 : files0 .idx n = none) :
    (((makeSystem files0 jobs).run win sched).disk.files .pack n).isSome = true := by
  obtain ⟨st, hi⟩ := makeSystem_inv (win := win) (nf := false) (files0 := files0) jobs sched nofun
  rcases hi.index n h with h | h
  · rw [h0] at h; cases h
  · exact h

theorem files_step (win : Bool) (s : MakeSys) (e : Nat × Bool) (k : FileKind) (n : Bytes) (h : (s.disk.files k n).isSome = true) :
    ((s.step win e).disk.files k n).isSome = true ∧ (win = true → (s.step win e).disk.files k n = s.disk.files k n) := by
  unfold MakeSys.step
  rcases hi : s.procs[e.1]? with _ | t | ⟨c, next⟩
  · exact ⟨h, fun _ => rfl⟩
  · exact ⟨h, fun _ => rfl⟩
  dsimp only
  have key : ((c.run win e.2 s.disk e.1).1.files k n).isSome = true ∧ (win = true → (c.run win e.2 s.disk e.1).1.files k n = s.disk.files k n) := by
    rcases c with k' | ⟨k', d⟩ | k' | ⟨k', m⟩
    · simp only [MakeCall.run]; split <;> exact ⟨h, fun _ => rfl⟩
    · simp only [MakeCall.run]; split <;> (try split) <;> exact ⟨h, fun _ => rfl⟩
    · simp only [MakeCall.run]; split <;> (try split) <;> exact ⟨h, fun _ => rfl⟩
    · simp only [MakeCall.run]
      split
      · rename_i b o hb
        by_cases hc : (e.2 && !(win && (o || (s.disk.files k' m).isSome))) = true
        · rw [if_pos hc]
          by_cases hm : k = k' ∧ n = m
          · obtain ⟨rfl, rfl⟩ := hm
            dsimp only
            rw [if_pos ⟨rfl, rfl⟩]
            refine ⟨rfl, fun hw => ?_⟩
            rw [hw, h] at hc
            simp at hc
          · dsimp only
            rw [if_neg hm]
            exact ⟨h, fun _ => rfl⟩
        · rw [if_neg hc]
          exact ⟨h, fun _ => rfl⟩
      · exact ⟨h, fun _ => rfl⟩
  exact key

/-- C114: a pack or index once there stays, whatever happens; on Windows it is never replaced. -/
theorem C114_kept (win : Bool) (k : FileKind) (n : Bytes) (sched : List (Nat × Bool)) : ∀ (s : MakeSys), (s.disk.files k n).isSome = true →
    ((s.run win sched).disk.files k n).isSome = true ∧ (win = true → (s.run win sched).disk.files k n = s.disk.files k n) := by
  induction sched with
  | nil => exact fun s h => ⟨h, fun _ => rfl⟩
  | cons e l ih =>
    intro s h
    obtain ⟨h1, h2⟩ := files_step win s e k n h
    obtain ⟨h3, h4⟩ := ih _ h1
    exact ⟨h3, fun hw => (h4 hw).trans (h2 hw)⟩

/-- C114: how `create` ends.  If it returns, the pack and the index are there, and its temporary files are gone; on Windows the files are its own, and none of that name had been there.
It raises `OSError`, or an exception of `write_pack`, in which case both temporary files are left, open. -/
theorem C114_ends (win : Bool) (files0 : FileKind → Bytes → Option Bytes) (jobs : List MakeJob) (sched : List (Nat × Bool)) (i : Nat) (j : MakeJob) (r : Res Unit)
    (s : MakeSys) (hs : s = (makeSystem files0 jobs).run win sched) (hj : jobs[i]? = some j) (hr : s.procs[i]? = some (.ret r)) :
    (r = .ok () ∧ j.src = none ∧ (∀ k, (s.disk.files k j.name).isSome = true ∧ s.disk.tmps k i = none) ∧
      (win = true → ∀ k, s.disk.files k j.name = some (j.parts k).flatten ∧ files0 k j.name = none)) ∨
    r = .error .osError ∨ (∃ e, r = .error e ∧ j.src = some e ∧ ∀ k, s.disk.tmps k i = some ((j.parts k).flatten, true)) := by
  obtain ⟨st, hi⟩ := makeSystem_inv (win := win) (nf := false) (files0 := files0) jobs sched nofun
  rw [← hs] at hi
  have ho : MakeEnds win false j r (fun k => s.disk.tmps k i) (st i) := hi.obeys i _ j hr hj
  rcases r with e | ⟨⟩
  · rcases (ho.errors e rfl).2 with rfl | ⟨h1, h2⟩
    · exact .inr (.inl rfl)
    · exact .inr (.inr ⟨e, rfl, h1, h2⟩)
  · obtain ⟨h1, h2, h3⟩ := ho.ok rfl
    have hk : ∀ k, FileKind.ord k < st i := by intro k; rw [h2]; cases k <;> decide
    exact .inl ⟨rfl, h1, fun k => ⟨hi.there i j k hj (hk k), h3 k⟩, fun hw k => hi.own hw i j k hj (hk k)⟩

/-- C114: if no call fails for other reasons, every `create` elsewhere than on Windows whose objects do not fail succeeds, whatever others do at the same time.
On Windows it succeeds, or it raises `OSError` and leaves a temporary file with the complete index. -/
theorem C114_no_failures (win : Bool) (files0 : FileKind → Bytes → Option Bytes) (jobs : List MakeJob) (sched : List (Nat × Bool)) (hok : ∀ e ∈ sched, e.2 = true)
    (i : Nat) (j : MakeJob) (r : Res Unit) (s : MakeSys) (hs : s = (makeSystem files0 jobs).run win sched) (hj : jobs[i]? = some j)
    (hsrc : j.src = none) (hr : s.procs[i]? = some (.ret r)) :
    r = .ok () ∨ (win = true ∧ r = .error .osError ∧ s.disk.tmps .idx i = some ((j.parts .idx).flatten, false)) := by
  obtain ⟨st, hi⟩ := makeSystem_inv (win := win) (nf := true) (files0 := files0) jobs sched fun _ => hok
  rw [← hs] at hi
  have ho : MakeEnds win true j r (fun k => s.disk.tmps k i) (st i) := hi.obeys i _ j hr hj
  rcases ho.nofail rfl with h | ⟨e, h, -⟩ | ⟨h1, -, h3, h4⟩
  · exact .inl h
  · rw [hsrc] at h; cases h
  · exact .inr ⟨h1, h3, h4⟩

/-- C114: on Windows at most one `create` of a name ever succeeds, and none if there was a pack or an index of this name. -/
theorem C114_exclusive (files0 : FileKind → Bytes → Option Bytes) (jobs : List MakeJob) (sched : List (Nat × Bool)) (i : Nat) (j : MakeJob)
    (s : MakeSys) (hs : s = (makeSystem files0 jobs).run true sched) (hj : jobs[i]? = some j) (hr : s.procs[i]? = some (.ret (.ok ()))) :
    (∀ k, files0 k j.name = none) ∧
    ∀ (i' : Nat) (j' : MakeJob), jobs[i']? = some j' → j'.name = j.name → s.procs[i']? = some (.ret (.ok ())) → i' = i := by
  obtain ⟨st, hi⟩ := makeSystem_inv (win := true) (nf := false) (files0 := files0) jobs sched nofun
  rw [← hs] at hi
  have st2 : ∀ (i : Nat) (j : MakeJob), jobs[i]? = some j → s.procs[i]? = some (.ret (.ok ())) → st i = 2 := by
    intro i j hj hr
    have ho : MakeEnds true false j (.ok ()) (fun k => s.disk.tmps k i) (st i) := hi.obeys i _ j hr hj
    exact (ho.ok rfl).2.1
  have h2 := st2 i j hj hr
  refine ⟨fun k => (hi.own rfl i j k hj (by rw [h2]; cases k <;> decide)).2, fun i' j' hj' hn hr' => ?_⟩
  have h3 := st2 i' j' hj' hr'
  exact hi.uniq rfl i' i j' j hj' hj hn (by omega) (by omega)

/-! ## One call alone -/

/-- One `create` alone, with no call failing for reasons outside of the model. -/
def MakeReaches (win : Bool) (s s' : MakeSys) : Prop := ∃ n, s.run win (List.replicate n (0, true)) = s'

theorem mreach_refl (win : Bool) (s : MakeSys) : MakeReaches win s s := ⟨0, rfl⟩

theorem mreach_step {win : Bool} {s s' : MakeSys} (h : MakeReaches win (s.step win (0, true)) s') : MakeReaches win s s' := by
  obtain ⟨n, rfl⟩ := h
  exact ⟨n + 1, rfl⟩

theorem mreach_trans {win : Bool} {a b c : MakeSys} (h : MakeReaches win a b) (h' : MakeReaches win b c) : MakeReaches win a c := by
  obtain ⟨n, rfl⟩ := h
  obtain ⟨m, rfl⟩ := h'
  refine ⟨n + m, ?_⟩
  rw [← List.replicate_append_replicate]
  unfold MakeSys.run
  rw [List.foldl_append]

theorem mreach_writes (win : Bool) (k : FileKind) (next : MakeAct) : ∀ (ds : List Bytes) (w : MakeDisk) (b : Bytes), w.tmps k 0 = some (b, true) →
    ∃ w', MakeReaches win ⟨w, [makeWrites k next ds]⟩ ⟨w', [next]⟩ ∧ w'.files = w.files ∧ w'.tmps k 0 = some (b ++ ds.flatten, true) ∧
      ∀ k', k' ≠ k → w'.tmps k' 0 = w.tmps k' 0
  | [], w, b, hb => ⟨w, mreach_refl _ _, rfl, by rw [hb]; simp, fun _ _ => rfl⟩
  | d :: ds, w, b, hb => by
    obtain ⟨w', h1, h2, h3, h4⟩ := mreach_writes win k next ds (w.setTmp k 0 (some (b ++ d, true))) (b ++ d) (by simp [MakeDisk.setTmp])
    refine ⟨w', mreach_step ?_, h2, by rw [h3]; simp, fun k' hk => ?_⟩
    · have e : (⟨w, [makeWrites k next (d :: ds)]⟩ : MakeSys).step win (0, true) = ⟨w.setTmp k 0 (some (b ++ d, true)), [makeWrites k next ds]⟩ := by
        simp [MakeSys.step, makeWrites, MakeAct.need, MakeCall.run, hb]
      rw [e]
      exact h1
    · rw [h4 k' hk]
      simp [MakeDisk.setTmp, hk]

/-- Up to the first rename. -/
theorem mreach_publish (win : Bool) (files0 : FileKind → Bytes → Option Bytes) (j : MakeJob) (hs : j.src = none) :
    ∃ w, MakeReaches win (makeSystem files0 [j]) ⟨w, [.need (.rename .pack j.name) <| .need (.rename .idx j.name) <| .ret (.ok ())]⟩ ∧
      w.files = files0 ∧ ∀ k, w.tmps k 0 = some ((j.parts k).flatten, false) := by
  let w0 : MakeDisk := ⟨files0, fun _ _ => none⟩
  let w1 := (w0.setTmp .pack 0 (some ([], true))).setTmp .idx 0 (some ([], true))
  obtain ⟨w2, h1, h2, h3, h4⟩ := mreach_writes win .pack (makeWrites .idx (makePublish j.name) (j.parts .idx)) (j.parts .pack) w1 [] (by simp [w1, MakeDisk.setTmp])
  obtain ⟨w3, h5, h6, h7, h8⟩ := mreach_writes win .idx (makePublish j.name) (j.parts .idx) w2 [] (by rw [h4 .idx (by decide)]; simp [w1, MakeDisk.setTmp])
  have hp : w3.tmps .pack 0 = some ((j.parts .pack).flatten, true) := by rw [h8 .pack (by decide), h3]; simp
  have hi : w3.tmps .idx 0 = some ((j.parts .idx).flatten, true) := by rw [h7]; simp
  refine ⟨(w3.setTmp .pack 0 (some ((j.parts .pack).flatten, false))).setTmp .idx 0 (some ((j.parts .idx).flatten, false)), ?_, ?_, ?_⟩
  · refine mreach_trans (b := ⟨w1, [makeWrites .pack (makeWrites .idx (makePublish j.name) (j.parts .idx)) (j.parts .pack)]⟩) ?_
      (mreach_trans h1 (mreach_trans h5 ?_))
    · refine ⟨2, ?_⟩
      simp [MakeSys.run, MakeSys.step, makeSystem, makeProg, MakeAct.need, MakeCall.run, hs, List.replicate, w1, w0]
    · refine ⟨2, ?_⟩
      have hi' : (w3.setTmp .pack 0 (some ((j.parts .pack).flatten, false))).tmps .idx 0 = some ((j.parts .idx).flatten, true) := by simp [MakeDisk.setTmp, hi]
      simp [MakeSys.run, MakeSys.step, makePublish, MakeAct.need, MakeCall.run, List.replicate, hp, hi']
  · show w3.files = files0
    rw [h6, h2]
    rfl
  · intro k
    cases k <;> simp [MakeDisk.setTmp]

/-- C114: alone, with no call failing, and no file of the name there or elsewhere than on Windows, `create` returns with its pack and index there, whatever had been there. -/
theorem C114_alone (win : Bool) (files0 : FileKind → Bytes → Option Bytes) (j : MakeJob) (hs : j.src = none) (h : win = true → ∀ k, files0 k j.name = none) :
    ∃ n s, (makeSystem files0 [j]).run win (List.replicate n (0, true)) = s ∧ s.procs = [.ret (.ok ())] ∧
      (∀ k, s.disk.files k j.name = some (j.parts k).flatten ∧ s.disk.tmps k 0 = none) ∧ ∀ k m, m ≠ j.name → s.disk.files k m = files0 k m := by
  obtain ⟨w, ⟨n, h1⟩, rfl, h3⟩ := mreach_publish win files0 j hs
  have hp := h3 .pack
  have hi := h3 .idx
  have hc : ∀ k, (win && (false || (w.files k j.name).isSome)) = false := by
    intro k
    rcases hw : win with _ | _
    · rfl
    · rw [h hw k]; rfl
  have hcp := hc .pack
  have hci := hc .idx
  obtain ⟨m, h5⟩ := mreach_trans ⟨n, h1⟩ ⟨2, rfl⟩
  refine ⟨m, _, h5, ?_⟩
  simp only [Bool.false_or] at hcp hci
  simp [MakeSys.run, MakeSys.step, MakeAct.need, MakeCall.run, List.replicate, hp, hi, hcp, hci, MakeDisk.setTmp]
  refine ⟨fun k => ?_, fun k m hm => by simp [hm]⟩
  cases k <;> simp

/-- C114: but on Windows, if there is a pack of this name, as after packing the same objects before, then `create` raises `OSError`, changes no file, and leaves both temporary files. -/
theorem C114_again (files0 : FileKind → Bytes → Option Bytes) (j : MakeJob) (hs : j.src = none) (h : (files0 .pack j.name).isSome = true) :
    ∃ n s, (makeSystem files0 [j]).run true (List.replicate n (0, true)) = s ∧ s.procs = [.ret (.error .osError)] ∧ s.disk.files = files0 ∧
      ∀ k, s.disk.tmps k 0 = some ((j.parts k).flatten, false) := by
  obtain ⟨w, ⟨n, h1⟩, rfl, h3⟩ := mreach_publish true files0 j hs
  have hp := h3 .pack
  obtain ⟨m, h5⟩ := mreach_trans ⟨n, h1⟩ ⟨1, rfl⟩
  refine ⟨m, _, h5, ?_⟩
  simp [MakeSys.run, MakeSys.step, MakeAct.need, MakeCall.run, List.replicate, hp, h]
  exact h3

/-- C114: and if there is only an index of this name, `create` raises `OSError` and leaves its pack beside the old index. -/
theorem C114_old_index (files0 : FileKind → Bytes → Option Bytes) (j : MakeJob) (hs : j.src = none) (h : files0 .pack j.name = none) (c : Bytes)
    (hc : files0 .idx j.name = some c) :
    ∃ n s, (makeSystem files0 [j]).run true (List.replicate n (0, true)) = s ∧ s.procs = [.ret (.error .osError)] ∧
      s.disk.files .pack j.name = some (j.parts .pack).flatten ∧ s.disk.files .idx j.name = some c ∧ s.disk.tmps .idx 0 = some ((j.parts .idx).flatten, false) := by
  obtain ⟨w, ⟨n, h1⟩, rfl, h3⟩ := mreach_publish true files0 j hs
  have hp := h3 .pack
  have hi := h3 .idx
  obtain ⟨m, h5⟩ := mreach_trans ⟨n, h1⟩ ⟨2, rfl⟩
  refine ⟨m, _, h5, ?_⟩
  simp [MakeSys.run, MakeSys.step, MakeAct.need, MakeCall.run, List.replicate, hp, hi, h, hc, MakeDisk.setTmp]

/-- C114: an exception of `write_pack`, with no call failing: it is passed on, and both temporary files are left, open. -/
theorem C114_source (win : Bool) (files0 : FileKind → Bytes → Option Bytes) (jobs : List MakeJob) (sched : List (Nat × Bool)) (hok : ∀ e ∈ sched, e.2 = true)
    (i : Nat) (j : MakeJob) (r : Res Unit) (e : Err) (s : MakeSys) (hs : s = (makeSystem files0 jobs).run win sched) (hj : jobs[i]? = some j)
    (hsrc : j.src = some e) (hr : s.procs[i]? = some (.ret r)) : r = .error e ∧ ∀ k, s.disk.tmps k i = some ((j.parts k).flatten, true) := by
  obtain ⟨st, hi⟩ := makeSystem_inv (win := win) (nf := true) (files0 := files0) jobs sched fun _ => hok
  rw [← hs] at hi
  have ho : MakeEnds win true j r (fun k => s.disk.tmps k i) (st i) := hi.obeys i _ j hr hj
  rcases ho.nofail rfl with h | ⟨e', h, h1, h2⟩ | ⟨-, h, -⟩
  · obtain ⟨h1, -⟩ := ho.ok h
    rw [hsrc] at h1; cases h1
  · rw [hsrc] at h; cases h
    exact ⟨h1, h2⟩
  · rw [hsrc] at h; cases h

/-! ## Examples -/

/-- A `create` that writes two pieces into the pack and one into the index. -/
def exMake : MakeJob := ⟨[1], fun k => match k with | .pack => [[80], [81, 82]] | .idx => [[83]], none⟩
/-- One whose objects fail after the first piece. -/
def exMakeFails : MakeJob := ⟨[1], fun k => match k with | .pack => [[80]] | .idx => [], some .valueError⟩
/-- An empty directory. -/
def noFiles : FileKind → Bytes → Option Bytes := fun _ _ => none

/-- What can be seen of the files of name `[1]` and of number `i`. -/
def makeView (s : MakeSys) (i : Nat) : Option Bytes × Option Bytes × TempFile × TempFile × Option (Option Err) :=
  (s.disk.files .pack [1], s.disk.files .idx [1], s.disk.tmps .pack i, s.disk.tmps .idx i,
    match s.procs[i]? with | some (.ret (.ok ())) => some none | some (.ret (.error e)) => some (some e) | _ => none)

/-- Two at the same time, on Windows: the second raises, elsewhere both return. -/
def both : List (Nat × Bool) := (List.replicate 9 [(0, true), (1, true)]).flatten

example : makeView ((makeSystem noFiles [exMake, exMake]).run true both) 0 = (some [80, 81, 82], some [83], none, none, some none) ∧
    makeView ((makeSystem noFiles [exMake, exMake]).run true both) 1 = (some [80, 81, 82], some [83], some ([80, 81, 82], false), some ([83], false), some (some .osError)) ∧
    makeView ((makeSystem noFiles [exMake, exMake]).run false both) 1 = (some [80, 81, 82], some [83], none, none, some none) := ⟨rfl, rfl, rfl⟩

/-- Stopped between the renames: a pack without an index. -/
example : makeView ((makeSystem noFiles [exMake]).run true (List.replicate 8 (0, true))) 0 = (some [80, 81, 82], none, none, some ([83], false), none) := rfl

/-- Objects that fail. -/
example : makeView ((makeSystem noFiles [exMakeFails]).run true (List.replicate 9 (0, true))) 0 = (none, none, some ([80], true), some ([], true), some (some .valueError)) := rfl

example := C114_complete true noFiles [exMake, exMake] both .pack [1] [80, 81, 82] (by decide +kernel)
example := C114_index true noFiles [exMake, exMake] both [1] (by decide +kernel) rfl
example := C114_kept true .pack [1] both ((makeSystem noFiles [exMake]).run true (List.replicate 8 (0, true))) (by decide +kernel)
theorem exMake_done : ((makeSystem noFiles [exMake, exMake]).run true both).procs[0]? = some (.ret (.ok ())) := rfl
theorem exMake_raised : ((makeSystem noFiles [exMake, exMake]).run true both).procs[1]? = some (.ret (.error .osError)) := rfl
example := C114_ends true noFiles [exMake, exMake] both 0 exMake _ _ rfl rfl exMake_done
example := C114_no_failures true noFiles [exMake, exMake] both (by decide +kernel) 1 exMake _ _ rfl rfl rfl exMake_raised
example := C114_exclusive noFiles [exMake, exMake] both 0 exMake _ rfl rfl exMake_done
example := C114_alone true noFiles exMake rfl fun _ _ => rfl
example := C114_again (fun k n => if k = .pack ∧ n = [1] then some [80, 81, 82] else none) exMake rfl (by decide)
example := C114_old_index (fun k n => if k = .idx ∧ n = [1] then some [9] else none) exMake rfl (by decide) [9] (by decide)
example := C114_source true noFiles [exMakeFails] (List.replicate 9 (0, true)) (by decide) 0 exMakeFails (.error .valueError) .valueError _ rfl rfl rfl rfl

end GitDB.Props
