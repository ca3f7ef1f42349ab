import Verif.Model.WinStore
import Verif.Spec.LockedFD
/-!
# C112: storing loose objects on Windows

Any number of stores into one database, one system call at a time, on both platforms.
-/
set_option autoImplicit false

namespace GitDB.Props
open GitDB Spec

/-- The complete file of the object. -/
def jobData (j : StoreJob) : Bytes := j.parts.flatten ++ j.rest

/-- What a store may do, given its temporary file and whether its object is known to be there.  If `nf`, no call fails for reasons outside of the model. -/
def StoreObeys (win nf : Bool) (j : StoreJob) (Q : Res Unit → TempFile → Bool → Prop) : StoreAct → TempFile → Bool → Prop
  | .ret r, t, h => Q r t h
  | .sys .mkTemp k, t, h => StoreObeys win nf j Q (k .yes) (some ([], true)) h ∧ (nf = false → StoreObeys win nf j Q (k .no) t h)
  | .sys (.write d) k, t, h =>
    ∃ b, t = some (b, true) ∧ StoreObeys win nf j Q (k .yes) (some (b ++ d, true)) h ∧ (nf = false → StoreObeys win nf j Q (k .no) t h)
  | .sys .close k, t, h =>
    ∃ b, t = some (b, true) ∧ StoreObeys win nf j Q (k .yes) (some (b, false)) h ∧ (nf = false → StoreObeys win nf j Q (k .no) t h)
  | .sys .removeTemp k, t, h =>
    ∃ b o, t = some (b, o) ∧ StoreObeys win nf j Q (k .yes) none h ∧ (nf = false ∨ (win = true ∧ o = true) → StoreObeys win nf j Q (k .no) t h)
  | .sys .makedirs k, t, h => StoreObeys win nf j Q (k .yes) t h ∧ (nf = false → StoreObeys win nf j Q (k .no) t h)
  | .sys (.isFile m) k, t, h => m = j.name ∧ StoreObeys win nf j Q (k .yes) t true ∧ StoreObeys win nf j Q (k .no) t h
  | .sys (.rename m) k, t, h => m = j.name ∧ j.src = none ∧ t = some (jobData j, false) ∧ StoreObeys win nf j Q (k .yes) none true ∧
      (nf = false → StoreObeys win nf j Q (k .no) t h) ∧ (win = true → StoreObeys win nf j Q (k .no) t true)
  | .sys (.chmod m) k, t, h => m = j.name ∧ h = true ∧ StoreObeys win nf j Q (k .yes) t h ∧ (nf = false → StoreObeys win nf j Q (k .no) t h)

/-- How a store may end. -/
structure StoreEnds (win nf : Bool) (j : StoreJob) (r : Res Unit) (t : TempFile) (there : Bool) : Prop where
  ok : r = .ok () → j.src = none ∧ there = true ∧ t = none
  errors : ∀ e, r = .error e → j.src = some e ∨ e = .osError ∨ (e = .permissionError ∧ there = true ∧ t = none)
  nofail : nf = true → r = .ok () ∨ (∃ e, j.src = some e ∧ r = .error e ∧ t = none) ∨
    (win = true ∧ j.src = none ∧ r = .error .osError ∧ there = true ∧ t = some (jobData j, false))

section
variable {win nf : Bool} {j : StoreJob}

theorem sobeys_remove {Q : Res Unit → TempFile → Bool → Prop} {next : Bool → StoreAct} {b : Bytes} {o h : Bool} (hy : StoreObeys win nf j Q (next true) none h)
    (hn : nf = false ∨ (win = true ∧ o = true) → StoreObeys win nf j Q (next false) (some (b, o)) h) :
    ∀ n, StoreObeys win nf j Q (storeRemove next n) (some (b, o)) h
  | 0 => ⟨b, o, rfl, hy, hn⟩
  | n + 1 => ⟨b, o, rfl, hy, fun _ => sobeys_remove hy hn n⟩

theorem storeEnds_ok (h : j.src = none) : StoreEnds win nf j (.ok ()) none true := ⟨fun _ => ⟨h, rfl, rfl⟩, nofun, fun _ => .inl rfl⟩

theorem storeEnds_osError (t : TempFile) (h : Bool) (hn : nf = false ∨ (win = true ∧ j.src = none ∧ h = true ∧ t = some (jobData j, false))) :
    StoreEnds win nf j (.error .osError) t h := by
  refine ⟨nofun, fun e he => by cases he; exact .inr (.inl rfl), fun e => ?_⟩
  rcases hn with hn | ⟨h1, h2, h3, h4⟩
  · rw [hn] at e; cases e
  · exact .inr (.inr ⟨h1, h2, rfl, h3, h4⟩)

theorem sobeys_chmod (hs : j.src = none) : ∀ n, nf = false ∨ 0 < n → StoreObeys win nf j (StoreEnds win nf j) (storeChmod j.name n) none true
  | 0, h => by
    refine ⟨nofun, fun e he => .inr (.inr ⟨by cases he; rfl, rfl, rfl⟩), fun e => ?_⟩
    rcases h with h | h
    · rw [e] at h; cases h
    · cases h
  | n + 1, _ => ⟨rfl, rfl, storeEnds_ok hs, fun e => sobeys_chmod hs n (.inl e)⟩

theorem sobeys_publish (hs : j.src = none) : StoreObeys win nf j (StoreEnds win nf j) (storePublish win j.name) (some (jobData j, false)) false := by
  refine ⟨⟨rfl, ?_, ?_⟩, fun e => storeEnds_osError _ _ (.inl e)⟩
  · refine sobeys_remove (sobeys_chmod hs 14 (.inr (by decide))) ?_ _
    intro h
    refine storeEnds_osError _ _ (.inl ?_)
    rcases h with h | ⟨-, h⟩
    · exact h
    · cases h
  · exact ⟨rfl, hs, rfl, sobeys_chmod hs 14 (.inr (by decide)), fun e => storeEnds_osError _ _ (.inl e), fun e => storeEnds_osError _ _ (.inr ⟨e, hs, rfl, rfl⟩)⟩

theorem sobeys_cleanup (e : Err) (b : Bytes) (o : Bool) (h : nf = false ∨ (o = false ∧ j.src = some e)) (he : j.src = some e ∨ e = .osError) :
    StoreObeys win nf j (StoreEnds win nf j) (storeCleanup win e) (some (b, o)) false := by
  have h1 : StoreEnds win nf j (.error e) none false := by
    refine ⟨nofun, fun e' he' => ?_, fun hn => ?_⟩
    · cases he'
      rcases he with he | he
      · exact .inl he
      · exact .inr (.inl he)
    · rcases h with h | ⟨-, h⟩
      · rw [h] at hn; cases hn
      · exact .inr (.inl ⟨e, h, rfl, rfl⟩)
  unfold storeCleanup
  refine sobeys_remove ?_ ?_ _
  · exact h1
  intro hn
  refine storeEnds_osError _ _ (.inl ?_)
  rcases h with h | ⟨h, -⟩
  · exact h
  · rcases hn with hn | ⟨-, hn⟩
    · exact hn
    · rw [h] at hn; cases hn

theorem sobeys_close (r : Res Unit) (b : Bytes) (hb : r = .ok () → j.src = none ∧ b ++ j.rest = jobData j)
    (he : ∀ e, r = .error e → (j.src = some e ∨ e = .osError) ∧ (nf = false ∨ j.src = some e)) :
    StoreObeys win nf j (StoreEnds win nf j) (storeClose win j r) (some (b, true)) false := by
  refine ⟨b, rfl, ⟨b ++ j.rest, rfl, ?_, fun e => sobeys_cleanup _ _ _ (.inl e) (.inr rfl)⟩, fun e => sobeys_cleanup _ _ _ (.inl e) (.inr rfl)⟩
  rcases r with e | ⟨⟩
  · obtain ⟨h1, h2⟩ := he e rfl
    exact sobeys_cleanup e _ _ (h2.imp id fun h => ⟨rfl, h⟩) h1
  · obtain ⟨h1, h2⟩ := hb rfl
    rw [h2]
    exact sobeys_publish h1

theorem sobeys_writes : ∀ (ds : List Bytes) (b : Bytes), b ++ ds.flatten ++ j.rest = jobData j →
    StoreObeys win nf j (StoreEnds win nf j) (storeWrites win j ds) (some (b, true)) false
  | [], b, hb => by
    unfold storeWrites
    refine sobeys_close _ b ?_ ?_
    · rcases hs : j.src with _ | e
      · exact fun _ => ⟨rfl, by simpa using hb⟩
      · nofun
    · rcases hs : j.src with _ | e
      · nofun
      · intro e' he'
        injection he' with he'
        subst he'
        exact ⟨.inl rfl, .inr rfl⟩
  | d :: ds, b, hb => by
    refine ⟨b, rfl, sobeys_writes ds (b ++ d) (by rw [← hb]; simp), fun e => ?_⟩
    refine sobeys_close (.error .osError) b nofun ?_
    intro e' he'
    injection he' with he'
    subst he'
    exact ⟨.inr rfl, .inl e⟩

theorem sobeys_prog (t : TempFile) : StoreObeys win nf j (StoreEnds win nf j) (storeProg win j) t false :=
  ⟨sobeys_writes j.parts [] (by simp [jobData]), fun e => storeEnds_osError _ _ (.inl e)⟩
end

/-! ## All stores together -/

/-- What holds between the disk and the stores: `objs0` are the objects at first. -/
structure StoresInv (win nf : Bool) (jobs : List StoreJob) (objs0 : Bytes → Option Bytes) (s : StoreSys) (there : Nat → Bool) : Prop where
  obeys : ∀ (i : Nat) t j, s.procs[i]? = some t → jobs[i]? = some j → StoreObeys win nf j (StoreEnds win nf j) t (s.disk.tmps i) (there i)
  len : s.procs.length = jobs.length
  there : ∀ (i : Nat) j, jobs[i]? = some j → there i = true → (s.disk.objs j.name).isSome = true
  content : ∀ n c, s.disk.objs n = some c → objs0 n = some c ∨ ∃ (i : Nat) (j : StoreJob), jobs[i]? = some j ∧ j.name = n ∧ j.src = none ∧ c = jobData j

section
variable {win nf : Bool} {jobs : List StoreJob} {objs0 : Bytes → Option Bytes}

theorem storesInv_set {s : StoreSys} {there : Nat → Bool} (h : StoresInv win nf jobs objs0 s there) {i : Nat} {j : StoreJob} (hi : i < s.procs.length)
    (hj : jobs[i]? = some j) (w : StoreDisk) (t : StoreAct) (b : Bool) (ho : StoreObeys win nf j (StoreEnds win nf j) t (w.tmps i) b)
    (htmp : ∀ k, k ≠ i → w.tmps k = s.disk.tmps k) (hb : b = true → (w.objs j.name).isSome = true)
    (hkeep : ∀ n, (s.disk.objs n).isSome = true → (w.objs n).isSome = true)
    (hcont : ∀ n c, w.objs n = some c → s.disk.objs n = some c ∨ (n = j.name ∧ j.src = none ∧ c = jobData j)) :
    StoresInv win nf jobs objs0 ⟨w, s.procs.set i t⟩ (fun k => if k = i then b else there k) where
  obeys := by
    intro k u j' hu hj'
    dsimp only at hu ⊢
    rw [List.getElem?_set] at hu
    by_cases e : i = k
    · subst e
      rw [if_pos rfl, if_pos hi] at hu
      cases hu
      rw [hj] at hj'
      cases hj'
      rw [if_pos rfl]
      exact ho
    · rw [if_neg e] at hu
      rw [if_neg (fun h => e h.symm), htmp k (fun h => e h.symm)]
      exact h.obeys k u j' hu hj'
  len := by rw [List.length_set]; exact h.len
  there := by
    intro k j' hk hb'
    dsimp only at hb' ⊢
    by_cases e : k = i
    · subst e
      rw [if_pos rfl] at hb'
      rw [hj] at hk
      cases hk
      exact hb hb'
    · rw [if_neg e] at hb'
      exact hkeep _ (h.there k j' hk hb')
  content := by
    intro n c hc
    rcases hcont n c hc with h1 | ⟨rfl, h1, h2⟩
    · exact h.content n c h1
    · exact .inr ⟨i, j, hj, rfl, h1, h2⟩

theorem storesInv_step {s : StoreSys} {there : Nat → Bool} (h : StoresInv win nf jobs objs0 s there) (e : Nat × Bool) (hnf : nf = true → e.2 = true) :
    ∃ there', StoresInv win nf jobs objs0 (s.step win e) there' := by
  unfold StoreSys.step
  rcases hi : s.procs[e.1]? with _ | t | ⟨c, k⟩
  · exact ⟨there, h⟩
  · exact ⟨there, h⟩
  dsimp only
  have hlt : e.1 < s.procs.length := (List.getElem?_eq_some_iff.1 hi).1
  obtain ⟨j, hj⟩ : ∃ j, jobs[e.1]? = some j := ⟨_, List.getElem?_eq_getElem (h.len ▸ hlt)⟩
  have ho := h.obeys e.1 _ j hi hj
  have ok : nf = false ∨ e.2 = true := by
    rcases hn : nf with _ | _
    · exact .inl rfl
    · exact .inr (hnf hn)
  -- nothing changes on the disk
  have same : ∀ a b, StoreObeys win nf j (StoreEnds win nf j) (k a) (s.disk.tmps e.1) b → (b = true → (s.disk.objs j.name).isSome = true) →
      ∃ there', StoresInv win nf jobs objs0 ⟨s.disk, s.procs.set e.1 (k a)⟩ there' :=
    fun a b hb ht => ⟨_, storesInv_set h hlt hj s.disk (k a) b hb (fun _ _ => rfl) ht (fun _ h => h) (fun _ _ h => .inl h)⟩
  have old : there e.1 = true → (s.disk.objs j.name).isSome = true := h.there e.1 j hj
  -- only the temporary file changes
  have tmp : ∀ x, StoreObeys win nf j (StoreEnds win nf j) (k .yes) x (there e.1) →
      ∃ there', StoresInv win nf jobs objs0 ⟨s.disk.setTmp e.1 x, s.procs.set e.1 (k .yes)⟩ there' := by
    intro x hx
    refine ⟨_, storesInv_set h hlt hj (s.disk.setTmp e.1 x) (k .yes) _ ?_ (fun m hm => if_neg hm) old (fun _ h => h) (fun _ _ h => .inl h)⟩
    rw [show (s.disk.setTmp e.1 x).tmps e.1 = x from if_pos rfl]
    exact hx
  -- a call that changes nothing when it fails
  have no : (nf = false → StoreObeys win nf j (StoreEnds win nf j) (k .no) (s.disk.tmps e.1) (there e.1)) → e.2 = false →
      ∃ there', StoresInv win nf jobs objs0 ⟨s.disk, s.procs.set e.1 (k .no)⟩ there' := by
    intro hn he
    refine same .no _ (hn ?_) old
    rcases ok with h | h
    · exact h
    · rw [he] at h; cases h
  rcases c with _ | d | _ | _ | _ | m | m | m
  · rcases he : e.2 with _ | _
    · exact no ho.2 he
    · exact tmp _ ho.1
  · obtain ⟨b, hb, h1, h2⟩ := ho
    simp only [StoreCall.run, hb]
    rcases he : e.2 with _ | _
    · exact no (hb ▸ h2) he
    · exact tmp _ h1
  · obtain ⟨b, hb, h1, h2⟩ := ho
    simp only [StoreCall.run, hb]
    rcases he : e.2 with _ | _
    · exact no (hb ▸ h2) he
    · exact tmp _ h1
  · obtain ⟨b, o, hb, h1, h2⟩ := ho
    simp only [StoreCall.run, hb]
    by_cases hc : (e.2 && !(win && o)) = true
    · rw [if_pos hc]
      exact tmp _ h1
    · rw [if_neg hc]
      refine same .no _ (h2 ?_) old
      rcases ok with h | h
      · exact .inl h
      · rw [h] at hc
        simp at hc
        exact .inr hc
  · rcases he : e.2 with _ | _
    · exact no ho.2 he
    · exact same .yes _ ho.1 old
  · obtain ⟨rfl, h1, h2⟩ := ho
    simp only [StoreCall.run]
    by_cases hc : (e.2 && (s.disk.objs j.name).isSome) = true
    · rw [if_pos hc]
      exact same .yes _ h1 fun _ => (Bool.and_eq_true _ _ ▸ hc).2
    · rw [if_neg hc]
      exact same .no _ h2 old
  · obtain ⟨rfl, hs, hb, h1, h2, h3⟩ := ho
    simp only [StoreCall.run, hb]
    by_cases hc : (e.2 && !(win && (false || (s.disk.objs j.name).isSome))) = true
    · rw [if_pos hc]
      refine ⟨_, storesInv_set h hlt hj _ (k .yes) true ?_ (fun m hm => if_neg hm) (fun _ => ?_) (fun n hn => ?_) (fun n c hc => ?_)⟩
      · dsimp only
        rw [if_pos rfl]
        exact h1
      · dsimp only
        rw [if_pos rfl]; rfl
      · dsimp only
        split
        · rfl
        · exact hn
      · dsimp only at hc
        split at hc
        · rename_i hn
          cases hc
          exact .inr ⟨hn, hs, rfl⟩
        · exact .inl hc
    · rw [if_neg hc]
      rcases he : e.2 with _ | _
      · exact no h2 he
      · rw [he] at hc
        simp at hc
        exact same .no true (h3 hc.1) fun _ => Option.isSome_iff_ne_none.2 hc.2
  · obtain ⟨rfl, ht, h1, h2⟩ := ho
    have hsome := old ht
    simp only [StoreCall.run]
    rw [if_neg (by rw [Option.isNone_eq_false_iff.2 hsome]; simp)]
    rcases he : e.2 with _ | _
    · exact no h2 he
    · exact same .yes _ h1 old

theorem storesInv_run (sched : List (Nat × Bool)) (hnf : nf = true → ∀ e ∈ sched, e.2 = true) : ∀ (s : StoreSys) (there : Nat → Bool),
    StoresInv win nf jobs objs0 s there → ∃ there', StoresInv win nf jobs objs0 (s.run win sched) there' := by
  induction sched with
  | nil => exact fun s there h => ⟨there, h⟩
  | cons e l ih =>
    intro s there h
    obtain ⟨there', h'⟩ := storesInv_step h e fun hn => hnf hn e (by simp)
    exact ih (fun hn e he => hnf hn e (by simp [he])) _ there' h'

theorem storeSystem_inv (jobs : List StoreJob) (sched : List (Nat × Bool)) (hnf : nf = true → ∀ e ∈ sched, e.2 = true) :
    ∃ there, StoresInv win nf jobs objs0 ((storeSystem win objs0 jobs).run win sched) there := by
  refine storesInv_run sched hnf _ (fun _ => false) ⟨?_, by simp [storeSystem], nofun, fun n c h => .inl h⟩
  intro i t j ht hj
  dsimp only [storeSystem] at ht ⊢
  rw [List.getElem?_map, hj] at ht
  cases ht
  exact sobeys_prog none
end

/-- C112: with any number of stores, on both platforms, with calls failing and stores stopping anywhere, every object file is one that was there before, or the
complete file written by a store of that name whose source did not fail. -/
theorem C112_complete (win : Bool) (objs0 : Bytes → Option Bytes) (jobs : List StoreJob) (sched : List (Nat × Bool)) (n c : Bytes)
    (h : ((storeSystem win objs0 jobs).run win sched).disk.objs n = some c) :
    objs0 n = some c ∨ ∃ j ∈ jobs, j.name = n ∧ j.src = none ∧ c = j.parts.flatten ++ j.rest := by
  obtain ⟨there, hi⟩ := storeSystem_inv (win := win) (nf := false) (objs0 := objs0) jobs sched nofun
  rcases hi.content n c h with h | ⟨i, j, hj, h1, h2, h3⟩
  · exact .inl h
  · exact .inr ⟨j, List.mem_of_getElem? hj, h1, h2, h3⟩

theorem objs_step (win : Bool) (s : StoreSys) (e : Nat × Bool) (n : Bytes) (h : (s.disk.objs n).isSome = true) :
    ((s.step win e).disk.objs n).isSome = true ∧ (win = true → (s.step win e).disk.objs n = s.disk.objs n) := by
  unfold StoreSys.step
  rcases hi : s.procs[e.1]? with _ | t | ⟨c, k⟩
  · exact ⟨h, fun _ => rfl⟩
  · exact ⟨h, fun _ => rfl⟩
  dsimp only
  have key : ((c.run win e.2 s.disk e.1).1.objs n).isSome = true ∧ (win = true → (c.run win e.2 s.disk e.1).1.objs n = s.disk.objs n) := by
    rcases c with _ | d | _ | _ | _ | m | m | m
    · simp only [StoreCall.run]; split <;> exact ⟨h, fun _ => rfl⟩
    · simp only [StoreCall.run]; split <;> (try split) <;> exact ⟨h, fun _ => rfl⟩
    · simp only [StoreCall.run]; split <;> (try split) <;> exact ⟨h, fun _ => rfl⟩
    · simp only [StoreCall.run]; split <;> (try split) <;> exact ⟨h, fun _ => rfl⟩
    · exact ⟨h, fun _ => rfl⟩
    · exact ⟨h, fun _ => rfl⟩
    · simp only [StoreCall.run]
      split
      · rename_i b o hb
        by_cases hc : (e.2 && !(win && (o || (s.disk.objs m).isSome))) = true
        · rw [if_pos hc]
          by_cases hm : n = m
          · subst hm
            dsimp only
            rw [if_pos rfl]
            refine ⟨rfl, fun hw => ?_⟩
            rw [hw, h] at hc
            simp at hc
          · dsimp only
            rw [if_neg hm]
            exact ⟨h, fun _ => rfl⟩
        · rw [if_neg hc]
          exact ⟨h, fun _ => rfl⟩
      · exact ⟨h, fun _ => rfl⟩
    · exact ⟨h, fun _ => rfl⟩
  exact key

/-- C112: an object once there stays, whatever happens; on Windows even its file is never replaced. -/
theorem C112_kept (win : Bool) (n : Bytes) (sched : List (Nat × Bool)) : ∀ (s : StoreSys), (s.disk.objs n).isSome = true →
    ((s.run win sched).disk.objs n).isSome = true ∧ (win = true → (s.run win sched).disk.objs n = s.disk.objs n) := by
  induction sched with
  | nil => exact fun s h => ⟨h, fun _ => rfl⟩
  | cons e l ih =>
    intro s h
    obtain ⟨h1, h2⟩ := objs_step win s e n h
    obtain ⟨h3, h4⟩ := ih _ h1
    exact ⟨h3, fun hw => (h4 hw).trans (h2 hw)⟩

/-- C112: how a store ends.  If it returns, the object is there and the temporary file is gone.  If it raises, then the exception of the source, an `OSError`,
or the `PermissionError` of `chmod`; the last with the object there and no temporary file. -/
theorem C112_ends (win : Bool) (objs0 : Bytes → Option Bytes) (jobs : List StoreJob) (sched : List (Nat × Bool)) (i : Nat) (j : StoreJob) (r : Res Unit)
    (s : StoreSys) (hs : s = (storeSystem win objs0 jobs).run win sched) (hj : jobs[i]? = some j) (hr : s.procs[i]? = some (.ret r)) :
    (r = .ok () ∧ j.src = none ∧ (s.disk.objs j.name).isSome = true ∧ s.disk.tmps i = none) ∨
    (∃ e, r = .error e ∧ (j.src = some e ∨ e = .osError)) ∨
    (r = .error .permissionError ∧ (s.disk.objs j.name).isSome = true ∧ s.disk.tmps i = none) := by
  obtain ⟨there, hi⟩ := storeSystem_inv (win := win) (nf := false) (objs0 := objs0) jobs sched nofun
  rw [← hs] at hi
  have ho : StoreEnds win false j r (s.disk.tmps i) (there i) := hi.obeys i _ j hr hj
  rcases r with e | ⟨⟩
  · rcases ho.errors e rfl with h | h | ⟨rfl, h1, h2⟩
    · exact .inr (.inl ⟨e, rfl, .inl h⟩)
    · exact .inr (.inl ⟨e, rfl, .inr h⟩)
    · exact .inr (.inr ⟨rfl, hi.there i j hj h1, h2⟩)
  · obtain ⟨h1, h2, h3⟩ := ho.ok rfl
    exact .inl ⟨rfl, h1, hi.there i j hj h2, h3⟩

/-- C112: if no call fails for other reasons, every store on POSIX systems whose source does not fail succeeds, whatever other stores do at the same time.
On Windows it succeeds, or it raises `OSError` although the object is there, and leaves its temporary file. -/
theorem C112_no_failures (win : Bool) (objs0 : Bytes → Option Bytes) (jobs : List StoreJob) (sched : List (Nat × Bool)) (hok : ∀ e ∈ sched, e.2 = true)
    (i : Nat) (j : StoreJob) (r : Res Unit) (s : StoreSys) (hs : s = (storeSystem win objs0 jobs).run win sched) (hj : jobs[i]? = some j)
    (hsrc : j.src = none) (hr : s.procs[i]? = some (.ret r)) :
    (s.disk.objs j.name).isSome = true ∧ ((r = .ok () ∧ s.disk.tmps i = none) ∨
      (win = true ∧ r = .error .osError ∧ s.disk.tmps i = some (j.parts.flatten ++ j.rest, false))) := by
  obtain ⟨there, hi⟩ := storeSystem_inv (win := win) (nf := true) (objs0 := objs0) jobs sched fun _ => hok
  rw [← hs] at hi
  have ho : StoreEnds win true j r (s.disk.tmps i) (there i) := hi.obeys i _ j hr hj
  rcases ho.nofail rfl with h | ⟨e, h, -⟩ | ⟨h1, h2, h3, h4, h5⟩
  · obtain ⟨h1, h2, h3⟩ := ho.ok h
    exact ⟨hi.there i j hj h2, .inl ⟨h, h3⟩⟩
  · rw [hsrc] at h; cases h
  · exact ⟨hi.there i j hj h4, .inr ⟨h1, h3, h5⟩⟩

/-- C112: a source that raises, and no call failing: the exception is passed on, and the temporary file is removed, on both platforms. -/
theorem C112_source (win : Bool) (objs0 : Bytes → Option Bytes) (jobs : List StoreJob) (sched : List (Nat × Bool)) (hok : ∀ e ∈ sched, e.2 = true)
    (i : Nat) (j : StoreJob) (r : Res Unit) (e : Err) (s : StoreSys) (hs : s = (storeSystem win objs0 jobs).run win sched) (hj : jobs[i]? = some j)
    (hsrc : j.src = some e) (hr : s.procs[i]? = some (.ret r)) : r = .error e ∧ s.disk.tmps i = none := by
  obtain ⟨there, hi⟩ := storeSystem_inv (win := win) (nf := true) (objs0 := objs0) jobs sched fun _ => hok
  rw [← hs] at hi
  have ho : StoreEnds win true j r (s.disk.tmps i) (there i) := hi.obeys i _ j hr hj
  rcases ho.nofail rfl with h | ⟨e', h, h1, h2⟩ | ⟨-, h, -⟩
  · obtain ⟨h1, -⟩ := ho.ok h
    rw [hsrc] at h1; cases h1
  · rw [hsrc] at h; cases h
    exact ⟨h1, h2⟩
  · rw [hsrc] at h; cases h

/-! ## What can happen -/

/-- `s'` is reached from `s` by calls none of which fails for reasons outside of the model. -/
def StoreReaches (win : Bool) (s s' : StoreSys) : Prop := ∃ sched : List (Nat × Bool), (∀ e ∈ sched, e.2 = true) ∧ s.run win sched = s'

theorem sreach_refl (win : Bool) (s : StoreSys) : StoreReaches win s s := ⟨[], nofun, rfl⟩

theorem sreach_trans {win : Bool} {a b c : StoreSys} (h : StoreReaches win a b) (h' : StoreReaches win b c) : StoreReaches win a c := by
  obtain ⟨l, h1, h2⟩ := h
  obtain ⟨l', h3, h4⟩ := h'
  refine ⟨l ++ l', fun e he => (List.mem_append.1 he).elim (h1 e) (h3 e), ?_⟩
  unfold StoreSys.run at *
  rw [List.foldl_append, h2, h4]

theorem sreach_step {win : Bool} {s : StoreSys} {i : Nat} {c : StoreCall} {k : StoreAns → StoreAct} (h : s.procs[i]? = some (.sys c k)) {w : StoreDisk} {a : StoreAns}
    (hr : c.run win true s.disk i = (w, a)) : StoreReaches win s ⟨w, s.procs.set i (k a)⟩ := by
  refine ⟨[(i, true)], by simp, ?_⟩
  show s.step win (i, true) = _
  unfold StoreSys.step
  rw [h]
  dsimp only
  rw [hr]

theorem setTmp_twice (w : StoreDisk) (i : Nat) (x y : TempFile) : (w.setTmp i x).setTmp i y = w.setTmp i y := by
  unfold StoreDisk.setTmp
  congr 1
  funext j
  dsimp only
  split <;> rfl

theorem sreach_writes {win : Bool} {j : StoreJob} (hs : j.src = none) {i : Nat} : ∀ (ds : List Bytes) (s : StoreSys) (b : Bytes), i < s.procs.length →
    StoreReaches win ⟨s.disk.setTmp i (some (b, true)), s.procs.set i (storeWrites win j ds)⟩
      ⟨s.disk.setTmp i (some (b ++ ds.flatten ++ j.rest, false)), s.procs.set i (storePublish win j.name)⟩
  | [], s, b, hi => by
    have e1 : storeWrites win j [] = storeClose win j (.ok ()) := by unfold storeWrites; rw [hs]
    rw [e1]
    unfold storeClose
    refine sreach_trans (sreach_step (List.getElem?_set_self hi) (w := s.disk.setTmp i (some (b ++ j.rest, true))) (a := .yes) ?_) ?_
    · simp [StoreCall.run, StoreDisk.setTmp]
      funext m
      split <;> rfl
    dsimp only
    rw [List.set_set, if_neg (by simp)]
    refine sreach_trans (sreach_step (List.getElem?_set_self hi) (w := s.disk.setTmp i (some (b ++ j.rest, false))) (a := .yes) ?_) ?_
    · simp [StoreCall.run, StoreDisk.setTmp]
      funext m
      split <;> rfl
    dsimp only
    rw [List.set_set, if_neg (by simp)]
    simpa using sreach_refl _ _
  | d :: ds, s, b, hi => by
    unfold storeWrites
    refine sreach_trans (sreach_step (List.getElem?_set_self hi) (w := s.disk.setTmp i (some (b ++ d, true))) (a := .yes) ?_) ?_
    · simp [StoreCall.run, StoreDisk.setTmp]
      funext m
      split <;> rfl
    dsimp only
    rw [List.set_set, if_neg (by simp)]
    have := sreach_writes (win := win) hs ds s (b ++ d) hi
    simpa [List.append_assoc] using this

theorem sreach_publish {win : Bool} {j : StoreJob} (hs : j.src = none) {i : Nat} (s : StoreSys) (h : s.procs[i]? = some (storeProg win j)) :
    StoreReaches win s ⟨s.disk.setTmp i (some (jobData j, false)), s.procs.set i (storePublish win j.name)⟩ := by
  have hi : i < s.procs.length := (List.getElem?_eq_some_iff.1 h).1
  refine sreach_trans (sreach_step h (w := s.disk.setTmp i (some ([], true))) (a := .yes) rfl) ?_
  rw [if_neg (by simp)]
  simpa [jobData] using sreach_writes (win := win) hs j.parts s [] hi

/-- C112: two stores of one new object at the same time.  On Windows it can happen, without any call failing, that both see no object file; then the second raises
`OSError`, although the object is there, and leaves a temporary file with its data. -/
theorem C112_collide (a b : StoreJob) (hn : a.name = b.name) (ha : a.src = none) (hb : b.src = none) (objs0 : Bytes → Option Bytes) (h0 : objs0 a.name = none) :
    ∃ sched : List (Nat × Bool), (∀ e ∈ sched, e.2 = true) ∧ ∃ s : StoreSys, (storeSystem true objs0 [a, b]).run true sched = s ∧
      s.procs = [.ret (.ok ()), .ret (.error .osError)] ∧ s.disk.objs a.name = some (a.parts.flatten ++ a.rest) ∧
      s.disk.tmps 1 = some (b.parts.flatten ++ b.rest, false) := by
  have two : ∃ s, StoreReaches true (storeSystem true objs0 [a, b]) s ∧ s.procs = [storePublish true a.name, storePublish true b.name] ∧ s.disk.objs = objs0 ∧
      s.disk.tmps 0 = some (jobData a, false) ∧ s.disk.tmps 1 = some (jobData b, false) := by
    have h1 := sreach_publish (win := true) ha (i := 0) (storeSystem true objs0 [a, b]) rfl
    have h2 := sreach_publish (win := true) hb (i := 1)
      ⟨(storeSystem true objs0 [a, b]).disk.setTmp 0 (some (jobData a, false)), (storeSystem true objs0 [a, b]).procs.set 0 (storePublish true a.name)⟩ rfl
    exact ⟨_, sreach_trans h1 h2, rfl, rfl, rfl, rfl⟩
  obtain ⟨s, ⟨sched, hok, hrun⟩, hp, ho, ht0, ht1⟩ := two
  refine ⟨sched ++ [(0, true), (0, true), (1, true), (1, true), (0, true), (0, true), (1, true)], ?_, _, rfl, ?_⟩
  · intro e he
    rcases List.mem_append.1 he with he | he
    · exact hok e he
    · simp at he
      rcases he with rfl | rfl | rfl | rfl <;> rfl
  have : (storeSystem true objs0 [a, b]).run true (sched ++ [(0, true), (0, true), (1, true), (1, true), (0, true), (0, true), (1, true)]) =
      s.run true [(0, true), (0, true), (1, true), (1, true), (0, true), (0, true), (1, true)] := by
    rw [← hrun]; unfold StoreSys.run; rw [List.foldl_append]
  rw [this]
  rcases s with ⟨⟨objs, tmps⟩, procs⟩
  dsimp only at hp ho ht0 ht1
  subst hp ho
  have h0' : objs b.name = none := hn ▸ h0
  simp [StoreSys.run, StoreSys.step, storePublish, StoreCall.run, h0, h0', ht0, ht1, storeChmod, hn, jobData]

/-- C112: elsewhere the second store replaces the file with its own, and both succeed. -/
theorem C112_collide_posix (a b : StoreJob) (hn : a.name = b.name) (ha : a.src = none) (hb : b.src = none) (objs0 : Bytes → Option Bytes)
    (h0 : objs0 a.name = none) :
    ∃ sched : List (Nat × Bool), (∀ e ∈ sched, e.2 = true) ∧ ∃ s : StoreSys, (storeSystem false objs0 [a, b]).run false sched = s ∧
      s.procs = [.ret (.ok ()), .ret (.ok ())] ∧ s.disk.objs a.name = some (b.parts.flatten ++ b.rest) ∧ s.disk.tmps 0 = none ∧ s.disk.tmps 1 = none := by
  have two : ∃ s, StoreReaches false (storeSystem false objs0 [a, b]) s ∧ s.procs = [storePublish false a.name, storePublish false b.name] ∧ s.disk.objs = objs0 ∧
      s.disk.tmps 0 = some (jobData a, false) ∧ s.disk.tmps 1 = some (jobData b, false) := by
    have h1 := sreach_publish (win := false) ha (i := 0) (storeSystem false objs0 [a, b]) rfl
    have h2 := sreach_publish (win := false) hb (i := 1)
      ⟨(storeSystem false objs0 [a, b]).disk.setTmp 0 (some (jobData a, false)), (storeSystem false objs0 [a, b]).procs.set 0 (storePublish false a.name)⟩ rfl
    exact ⟨_, sreach_trans h1 h2, rfl, rfl, rfl, rfl⟩
  obtain ⟨s, ⟨sched, hok, hrun⟩, hp, ho, ht0, ht1⟩ := two
  refine ⟨sched ++ [(0, true), (0, true), (1, true), (1, true), (0, true), (0, true), (1, true), (1, true)], ?_, _, rfl, ?_⟩
  · intro e he
    rcases List.mem_append.1 he with he | he
    · exact hok e he
    · simp at he
      rcases he with rfl | rfl | rfl | rfl <;> rfl
  have : (storeSystem false objs0 [a, b]).run false (sched ++ [(0, true), (0, true), (1, true), (1, true), (0, true), (0, true), (1, true), (1, true)]) =
      s.run false [(0, true), (0, true), (1, true), (1, true), (0, true), (0, true), (1, true), (1, true)] := by
    rw [← hrun]; unfold StoreSys.run; rw [List.foldl_append]
  rw [this]
  rcases s with ⟨⟨objs, tmps⟩, procs⟩
  dsimp only at hp ho ht0 ht1
  subst hp ho
  have h0' : objs b.name = none := hn ▸ h0
  simp [StoreSys.run, StoreSys.step, storePublish, StoreCall.run, h0, h0', ht0, ht1, storeChmod, hn, jobData]

/-! ## One store, call by call -/

theorem store_run_append (win : Bool) (s : StoreSys) (a b : List (Nat × Bool)) : s.run win (a ++ b) = (s.run win a).run win b := List.foldl_append

/-- The disk with the object `name` removed by somebody else. -/
def withoutObj (s : StoreSys) (name : Bytes) : StoreSys := ⟨⟨fun m => if m = name then none else s.disk.objs m, s.disk.tmps⟩, s.procs⟩

theorem writes_run (win : Bool) (j : StoreJob) (hs : j.src = none) (objs : Bytes → Option Bytes) : ∀ (ds : List Bytes) (b : Bytes) (tmps : Nat → TempFile), tmps 0 = some (b, true) →
    (∀ m, m ≠ 0 → tmps m = none) → (⟨⟨objs, tmps⟩, [storeWrites win j ds]⟩ : StoreSys).run win (List.replicate (ds.length + 2) (0, true)) =
      ⟨⟨objs, fun m => if m = 0 then some (b ++ ds.flatten ++ j.rest, false) else none⟩, [storePublish win j.name]⟩
  | [], b, tmps, h0, h1 => by
    simp [StoreSys.run, StoreSys.step, List.replicate, storeWrites, hs, storeClose, StoreCall.run, h0, StoreDisk.setTmp]
    funext m
    by_cases hm : m = 0 <;> simp [hm, h1]
  | d :: ds, b, tmps, h0, h1 => by
    have ih := writes_run win j hs objs ds (b ++ d) (fun m => if m = 0 then some (b ++ d, true) else none) rfl (by intro m hm; simp [hm])
    have e : (⟨⟨objs, tmps⟩, [storeWrites win j (d :: ds)]⟩ : StoreSys).step win (0, true) =
        ⟨⟨objs, fun m => if m = 0 then some (b ++ d, true) else none⟩, [storeWrites win j ds]⟩ := by
      simp [StoreSys.step, storeWrites, StoreCall.run, h0, StoreDisk.setTmp]
      funext m
      by_cases hm : m = 0 <;> simp [hm, h1]
    rw [show (d :: ds).length + 2 = (ds.length + 2) + 1 by simp, List.replicate_succ]
    show StoreSys.run win (StoreSys.step win _ _) _ = _
    rw [e, ih]
    simp [List.append_assoc]

theorem prog_run (win : Bool) (j : StoreJob) (hs : j.src = none) (objs : Bytes → Option Bytes) :
    (storeSystem win objs [j]).run win (List.replicate (j.parts.length + 3) (0, true)) =
      ⟨⟨objs, fun m => if m = 0 then some (j.parts.flatten ++ j.rest, false) else none⟩, [storePublish win j.name]⟩ := by
  rw [show j.parts.length + 3 = (j.parts.length + 2) + 1 by omega, List.replicate_succ]
  show StoreSys.run win (StoreSys.step win _ _) _ = _
  have e : (storeSystem win objs [j]).step win (0, true) = ⟨⟨objs, fun m => if m = 0 then some ([], true) else none⟩, [storeWrites win j j.parts]⟩ := by
    simp [storeSystem, StoreSys.step, storeProg, StoreCall.run, StoreDisk.setTmp]
  rw [e, writes_run win j hs objs j.parts [] _ rfl (by intro m hm; simp [hm])]
  simp

theorem remove_fails (win : Bool) (next : Bool → StoreAct) (w : StoreDisk) : ∀ k n : Nat, k ≤ n →
    (⟨w, [storeRemove next n]⟩ : StoreSys).run win (List.replicate k (0, false)) = ⟨w, [storeRemove next (n - k)]⟩
  | 0, n, _ => rfl
  | k + 1, 0, h => by omega
  | k + 1, n + 1, h => by
    rw [List.replicate_succ]
    show StoreSys.run win (StoreSys.step win _ _) _ = _
    have e : (⟨w, [storeRemove next (n + 1)]⟩ : StoreSys).step win (0, false) = ⟨w, [storeRemove next n]⟩ := by
      rcases hw : w.tmps 0 with _ | ⟨b, o⟩ <;> simp [StoreSys.step, storeRemove, StoreCall.run, hw]
    rw [e, remove_fails win next w k n (by omega)]
    rw [show n + 1 - (k + 1) = n - k by omega]

theorem chmod_fails (win : Bool) (name : Bytes) (w : StoreDisk) (h : (w.objs name).isSome) : ∀ k n : Nat, k ≤ n →
    (⟨w, [storeChmod name n]⟩ : StoreSys).run win (List.replicate k (0, false)) = ⟨w, [storeChmod name (n - k)]⟩
  | 0, n, _ => rfl
  | k + 1, 0, h => by omega
  | k + 1, n + 1, hk => by
    rw [List.replicate_succ]
    show StoreSys.run win (StoreSys.step win _ _) _ = _
    have e : (⟨w, [storeChmod name (n + 1)]⟩ : StoreSys).step win (0, false) = ⟨w, [storeChmod name n]⟩ := by
      rcases hw : w.objs name with _ | b
      · rw [hw] at h; cases h
      · simp [StoreSys.step, storeChmod, StoreCall.run, hw]
    rw [e, chmod_fails win name w h k n (by omega)]
    rw [show n + 1 - (k + 1) = n - k by omega]

theorem existing_run (win : Bool) (j : StoreJob) (hs : j.src = none) (objs : Bytes → Option Bytes) (h : (objs j.name).isSome) :
    (storeSystem win objs [j]).run win (List.replicate (j.parts.length + 5) (0, true)) =
      ⟨⟨objs, fun m => if m = 0 then some (j.parts.flatten ++ j.rest, false) else none⟩,
        [storeRemove (fun b => if b then storeChmod j.name 14 else .ret (.error .osError)) (removeRetries win)]⟩ := by
  rw [show j.parts.length + 5 = (j.parts.length + 3) + 2 by omega, ← List.replicate_append_replicate, store_run_append, prog_run win j hs objs]
  simp [StoreSys.run, List.replicate, StoreSys.step, storePublish, StoreCall.run, h]

/-- C112: a store of an object that is there already.  On Windows a removal of the temporary file that fails up to ten times is made again, and the store ends well; after
eleven failures the store raises `OSError` and the temporary file stays. -/
theorem C112_retry (j : StoreJob) (hs : j.src = none) (objs : Bytes → Option Bytes) (h : (objs j.name).isSome) :
    (∀ k ≤ 10, (storeSystem true objs [j]).run true (List.replicate (j.parts.length + 5) (0, true) ++ (List.replicate k (0, false) ++ [(0, true), (0, true)])) =
      ⟨⟨objs, fun _ => none⟩, [.ret (.ok ())]⟩) ∧
    (storeSystem true objs [j]).run true (List.replicate (j.parts.length + 5) (0, true) ++ List.replicate 11 (0, false)) =
      ⟨⟨objs, fun m => if m = 0 then some (j.parts.flatten ++ j.rest, false) else none⟩, [.ret (.error .osError)]⟩ := by
  obtain ⟨b, hb⟩ := Option.isSome_iff_exists.1 h
  constructor
  · intro k hk
    rw [store_run_append, existing_run true j hs objs h, store_run_append, remove_fails true _ _ k _ (by simpa [removeRetries] using hk)]
    rcases e : removeRetries true - k with _ | m
    · simp [StoreSys.run, StoreSys.step, storeRemove, StoreCall.run, StoreDisk.setTmp, storeChmod, hb]
      funext m; split <;> rfl
    · simp [StoreSys.run, StoreSys.step, storeRemove, StoreCall.run, StoreDisk.setTmp, storeChmod, hb]
      funext m; split <;> rfl
  · rw [store_run_append, existing_run true j hs objs h, show List.replicate 11 ((0 : Nat), false) = List.replicate 10 (0, false) ++ [(0, false)] from rfl, store_run_append,
      remove_fails true _ _ 10 _ (by simp [removeRetries])]
    simp [removeRetries, StoreSys.run, StoreSys.step, storeRemove, StoreCall.run]

/-- C112: elsewhere the first failure to remove the temporary file is final. -/
theorem C112_no_retry (j : StoreJob) (hs : j.src = none) (objs : Bytes → Option Bytes) (h : (objs j.name).isSome) :
    (storeSystem false objs [j]).run false (List.replicate (j.parts.length + 5) (0, true) ++ [(0, false)]) =
      ⟨⟨objs, fun m => if m = 0 then some (j.parts.flatten ++ j.rest, false) else none⟩, [.ret (.error .osError)]⟩ := by
  rw [store_run_append, existing_run false j hs objs h]
  simp [removeRetries, StoreSys.run, StoreSys.step, storeRemove, StoreCall.run]

theorem new_run (win : Bool) (j : StoreJob) (hs : j.src = none) (objs : Bytes → Option Bytes) (h : objs j.name = none) :
    (storeSystem win objs [j]).run win (List.replicate (j.parts.length + 6) (0, true)) =
      ⟨⟨fun m => if m = j.name then some (j.parts.flatten ++ j.rest) else objs m, fun _ => none⟩, [storeChmod j.name 14]⟩ := by
  rw [show j.parts.length + 6 = (j.parts.length + 3) + 3 by omega, ← List.replicate_append_replicate, store_run_append, prog_run win j hs objs]
  simp [StoreSys.run, List.replicate, StoreSys.step, storePublish, StoreCall.run, h]
  funext m; split <;> rfl

/-- C112: a store of a new object whose file is there.  `chmod` may be refused up to 13 times; after 14 refusals the store raises `PermissionError`, with the object there. -/
theorem C112_chmod (win : Bool) (j : StoreJob) (hs : j.src = none) (objs : Bytes → Option Bytes) (h : objs j.name = none) :
    (∀ k ≤ 13, (storeSystem win objs [j]).run win (List.replicate (j.parts.length + 6) (0, true) ++ (List.replicate k (0, false) ++ [(0, true)])) =
      ⟨⟨fun m => if m = j.name then some (j.parts.flatten ++ j.rest) else objs m, fun _ => none⟩, [.ret (.ok ())]⟩) ∧
    (storeSystem win objs [j]).run win (List.replicate (j.parts.length + 6) (0, true) ++ List.replicate 14 (0, false)) =
      ⟨⟨fun m => if m = j.name then some (j.parts.flatten ++ j.rest) else objs m, fun _ => none⟩, [.ret (.error .permissionError)]⟩ := by
  constructor
  · intro k hk
    rw [store_run_append, new_run win j hs objs h, store_run_append, chmod_fails win _ _ (by simp) k 14 (by omega)]
    rcases e : 14 - k with _ | m
    · omega
    · simp [StoreSys.run, StoreSys.step, StoreCall.run, storeChmod]
  · rw [store_run_append, new_run win j hs objs h, chmod_fails win _ _ (by simp) 14 14 (by omega)]
    rfl

/-- C112: if somebody removes the new object before its mode is set (also after some refusals), the next attempt ends the store with `FileNotFoundError`. -/
theorem C112_removed (win : Bool) (j : StoreJob) (hs : j.src = none) (objs : Bytes → Option Bytes) (h : objs j.name = none) (k : Nat) (hk : k ≤ 13) (ok : Bool) :
    ((withoutObj ((storeSystem win objs [j]).run win (List.replicate (j.parts.length + 6) (0, true) ++ List.replicate k (0, false))) j.name).run win [(0, ok)]).procs =
      [.ret (.error .fileNotFound)] := by
  rw [store_run_append, new_run win j hs objs h, chmod_fails win _ _ (by simp) k 14 (by omega)]
  rcases e : 14 - k with _ | m
  · omega
  · simp [withoutObj, StoreSys.run, StoreSys.step, StoreCall.run, storeChmod]

/-! ## Examples -/

/-- A disk without objects, and two stores of one object with different compressed data. -/
def exJobs : List StoreJob := [⟨[1], [[7, 8], [9]], [10], none⟩, ⟨[1], [[7]], [11], none⟩]

/-- The last write fails: the descriptor stays open, so on Windows the temporary file cannot be removed in eleven attempts and stays; elsewhere it is removed. -/
example : let s := (storeSystem true (fun _ => none) [⟨[1], [[7]], [10], none⟩]).run true ([(0, true), (0, true), (0, false)] ++ List.replicate 11 (0, true))
    s.disk.tmps 0 = some ([7], true) ∧ s.disk.objs [1] = none ∧ s.procs = [.ret (.error .osError)] := by
  refine ⟨by decide, by decide, rfl⟩
example : let s := (storeSystem false (fun _ => none) [⟨[1], [[7]], [10], none⟩]).run false ([(0, true), (0, true), (0, false)] ++ List.replicate 11 (0, true))
    s.disk.tmps 0 = none ∧ s.disk.objs [1] = none ∧ s.procs = [.ret (.error .osError)] := by
  refine ⟨by decide, by decide, rfl⟩

/-- `chmod` is refused 13 times, and 14 times. -/
example : let s := (storeSystem true (fun _ => none) exJobs).run true (List.replicate 8 (0, true) ++ List.replicate 13 (0, false) ++ [(0, true)])
    s.disk.objs [1] = some [7, 8, 9, 10] ∧ s.procs.head? = some (.ret (.ok ())) := ⟨by decide, rfl⟩
example : let s := (storeSystem true (fun _ => none) exJobs).run true (List.replicate 8 (0, true) ++ List.replicate 14 (0, false) ++ [(0, true)])
    s.disk.objs [1] = some [7, 8, 9, 10] ∧ s.procs.head? = some (.ret (.error .permissionError)) := ⟨by decide, rfl⟩

/-- One store after the other: the second finds the file, removes its own and succeeds, on Windows too. -/
example : let s := (storeSystem true (fun _ => none) exJobs).run true (List.replicate 9 (0, true) ++ List.replicate 8 (1, true))
    s.disk.objs [1] = some [7, 8, 9, 10] ∧ s.disk.tmps 1 = none ∧ s.procs = [.ret (.ok ()), .ret (.ok ())] := ⟨by decide, by decide, rfl⟩

/-- A source that raises `ValueError`. -/
example : let s := (storeSystem true (fun _ => none) [⟨[1], [[7]], [10], some .valueError⟩]).run true (List.replicate 5 (0, true))
    s.disk.objs [1] = none ∧ s.disk.tmps 0 = none ∧ s.procs = [.ret (.error .valueError)] := ⟨by decide, by decide, rfl⟩

end GitDB.Props
