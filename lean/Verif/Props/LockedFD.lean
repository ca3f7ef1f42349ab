import Verif.Proofs.LockedFD
/-!
# C48: lock files

Any number of processes use any number of `LockedFD` objects for one file, with any calls in any order, any
failures of system calls, and any interleaving; a process may stop for ever at any moment.
-/
set_option autoImplicit false

namespace GitDB.Props
open GitDB Spec

/-- The processes at the start: what they are going to do with lock files, and the file system. -/
def lockStart {ι : Type} (p : Path) (uses : ι → List (List LockOp)) (fs : Fs) : Sys ι :=
  { todo := fun i => lockEvents p (uses i), fs := fs }

theorem lockStart_inv {ι : Type} (p : Path) (uses : ι → List (List LockOp)) (fs : Fs) :
    LockInv (fun d => ∃ i, CommittedBy p (uses i) d) True p (content fs p) (lockStart p uses fs) := by
  refine ⟨.inl rfl, ?_⟩
  have h : ∀ i, LockProg (fun d => ∃ i, CommittedBy p (uses i) d) True p none (lockEvents p (uses i)) :=
    fun i => lockProg_events (uses i) (fun d hd => ⟨i, hd⟩) (.inl trivial)
  by_cases hf : fs (lockPath p) = none
  · exact .inl ⟨hf, h⟩
  · exact .inr (.inr ⟨trivial, hf, h⟩)

/-- **C48, all or nothing.**  At every moment the file has its old content, or exactly the data which some
process wrote after opening it and then committed. -/
theorem C48_atomic {ι : Type} [DecidableEq ι] (p : Path) (uses : ι → List (List LockOp)) (fs : Fs)
    (t : Sys ι) (hr : Sys.Reach (lockStart p uses fs) t) :
    content t.fs p = content fs p ∨ ∃ i d, CommittedBy p (uses i) d ∧ content t.fs p = some d := by
  rcases (lockInv_reach (lockStart_inv p uses fs) hr).1 with h | ⟨w, ⟨i, hi⟩, hw⟩
  · exact .inl h
  · exact .inr ⟨i, w, hi, hw⟩

/-- **C48, exclusive.**  Process `i` takes the lock and since then did nothing but write the data `ds` (a
reader: nothing).  Then nobody else has the lock or can take it, the lock file contains exactly `ds` (nobody
removed or replaced it), and the content of the file is what it was when the lock was taken. -/
theorem C48_exclusive {ι : Type} [DecidableEq ι] (p : Path) (uses : ι → List (List LockOp)) (fs fs1 : Fs)
    (s t : Sys ι) (i : ι) (rest : List Ev) (ds : List Bytes)
    (hr : Sys.Reach (lockStart p uses fs) s) (_hi : s.todo i = .create (lockPath p) :: rest)
    (hc : s.fs.step (.create (lockPath p)) = some fs1)
    (hr' : Sys.Reach { todo := fun j => if j = i then rest else s.todo j, fs := fs1 } t)
    (ht : rest = ds.map (.append (lockPath p)) ++ t.todo i) :
    content t.fs (lockPath p) = some ds.flatten ∧ content t.fs p = content s.fs p ∧
      t.fs.step (.create (lockPath p)) = none := by
  have hinv := (lockInv_reach (lockStart_inv p uses fs) hr).2
  simp only [Fs.step] at hc
  split at hc
  · next hn =>
    cases hc
    rcases hinv with ⟨_, ho⟩ | ⟨_, _, _, hf, _⟩ | ⟨_, hf, _⟩
    · have := lock_held (W := fun d => ∃ i, CommittedBy p (uses i) d) (leak := True) (p := p) (i := i)
        (todo := rest) (by simp) ⟨0o600, by simp [Fs.set]⟩
        (fun j hj => by simpa [hj] using ho j) hr'
      obtain ⟨before, hb, hd⟩ := this
      have hbd : before = ds.map (.append (lockPath p)) :=
        List.append_cancel_right (hb.symm.trans ht)
      obtain ⟨⟨m, hm⟩, hcp, _⟩ := hd ds hbd
      refine ⟨by simp [content, hm], ?_, by simp [Fs.step, hm]⟩
      rw [hcp]
      exact content_set_other _ _ (Ne.symm (lockPath_ne p))
    · rw [hn] at hf; cases hf
    · exact absurd hn hf
  · cases hc

/-- **C48, released.**  If every use ends with `commit`, `rollback` or the destruction of the object, and no
`close`, `remove` or `rename` fails, then the lock is free when all processes are done. -/
theorem C48_released {ι : Type} [DecidableEq ι] (p : Path) (uses : ι → List (List LockOp)) (fs : Fs)
    (t : Sys ι) (hf : fs (lockPath p) = none)
    (hu : ∀ i, ∀ ops ∈ uses i, (∀ op ∈ ops, NoLockFault op) ∧ LockEnded ops)
    (hr : Sys.Reach (lockStart p uses fs) t) (ht : ∀ i, t.todo i = []) :
    t.fs (lockPath p) = none := by
  have h0 : LockInv (fun d => ∃ i, CommittedBy p (uses i) d) False p (content fs p)
      (lockStart p uses fs) :=
    ⟨.inl rfl, .inl ⟨hf, fun i =>
      lockProg_events (uses i) (fun d hd => ⟨i, hd⟩) (.inr (hu i))⟩⟩
  rcases (lockInv_reach h0 hr).2 with ⟨h, _⟩ | ⟨i, w, m, _, hp, _⟩ | ⟨h, _⟩
  · exact h
  · rw [ht i] at hp
    cases hp with
    | leak hl _ => exact hl.elim
  · exact h.elim

/-! ### One process alone -/

theorem run_append (fs fs1 : Fs) (a b : List Ev) (h : fs.run a = some fs1) :
    fs.run (a ++ b) = fs1.run b := by
  induction a generalizing fs with
  | nil => simp only [Fs.run] at h; cases h; rfl
  | cons e a ih =>
    simp only [Fs.run, List.cons_append] at h ⊢
    split at h
    · exact ih _ h
    · cases h

/-- Writing through the descriptor. -/
theorem calls_puts (p : Path) (ds : List (Bytes × Nat)) (more : List LockOp) :
    (LockedFD.calls p ⟨true, some true⟩ (ds.map (fun x => .put x.1 x.2) ++ more)) =
      ((LockedFD.calls p ⟨true, some true⟩ more).1,
        ds.map (fun x => .append (lockPath p) (x.1.take x.2)) ++
          (LockedFD.calls p ⟨true, some true⟩ more).2.1,
        ds.map (fun x => .ok (x.1.take x.2).length) ++ (LockedFD.calls p ⟨true, some true⟩ more).2.2) := by
  induction ds with
  | nil => simp
  | cons x ds ih =>
    rw [List.map_cons, List.cons_append, calls_cons]
    have : LockedFD.call p ⟨true, some true⟩ (.put x.1 x.2) =
      (⟨true, some true⟩, [.append (lockPath p) (x.1.take x.2)], .ok (x.1.take x.2).length) := rfl
    rw [this]
    simp [ih]

theorem calls_reads (p : Path) (ds : List (Bytes × Nat)) (more : List LockOp) :
    (LockedFD.calls p ⟨true, some false⟩ (ds.map (fun x => .put x.1 x.2) ++ more)) =
      ((LockedFD.calls p ⟨true, some false⟩ more).1, (LockedFD.calls p ⟨true, some false⟩ more).2.1,
        ds.map (fun _ => .error .osError) ++ (LockedFD.calls p ⟨true, some false⟩ more).2.2) := by
  induction ds with
  | nil => simp
  | cons x ds ih =>
    rw [List.map_cons, List.cons_append, calls_cons]
    have : LockedFD.call p ⟨true, some false⟩ (.put x.1 x.2) =
      (⟨true, some false⟩, [], .error .osError) := rfl
    rw [this]
    simp [ih]

theorem run_appends (q : Path) (ds : List (Bytes × Nat)) :
    ∀ (fs : Fs) (c : Bytes) (m : Nat), fs q = some (.file c m) →
      fs.run (ds.map fun x => .append q (x.1.take x.2)) =
        some (fs.set q (some (.file (c ++ (ds.flatMap fun x => x.1.take x.2)) m))) := by
  induction ds with
  | nil =>
    intro fs c m h
    simp only [List.map_nil, Fs.run, List.flatMap_nil, List.append_nil, Option.some.injEq]
    funext r
    by_cases hr : r = q
    · simp [Fs.set, hr, h]
    · simp [Fs.set, hr]
  | cons x ds ih =>
    intro fs c m h
    simp only [List.map_cons, Fs.run, Fs.step, h]
    rw [ih _ (c ++ x.1.take x.2) m (by simp [Fs.set])]
    simp only [List.flatMap_cons, List.append_assoc, Option.some.injEq]
    funext r
    by_cases hr : r = q
    · simp [Fs.set, hr]
    · simp [Fs.set, hr]

/-- The system calls up to the end of writing. -/
theorem run_writing (p : Path) (ds : List (Bytes × Nat)) (fs : Fs) (h : fs (lockPath p) = none) :
    fs.run (.create (lockPath p) :: ds.map fun x => .append (lockPath p) (x.1.take x.2)) =
      some (fs.set (lockPath p) (some (.file (ds.flatMap fun x => x.1.take x.2) 0o600))) := by
  simp only [Fs.run, Fs.step, h]
  rw [run_appends _ ds _ [] 0o600 (by simp [Fs.set])]
  simp only [List.nil_append, Option.some.injEq]
  funext r
  by_cases hr : r = lockPath p
  · simp [Fs.set, hr]
  · simp [Fs.set, hr]

/-- The rename of a commit. -/
theorem run_rename_lock (p : Path) (fs : Fs) (d : Bytes) (hl : fs (lockPath p) = none)
    (hp : fs p ≠ some .dir) (hd : p.length ≤ 1 ∨ fs p.dropLast = some .dir) :
    (fs.set (lockPath p) (some (.file d 0o600))).step (.rename (lockPath p) p) = some
      (((fs.set (lockPath p) (some (.file d 0o600))).set (lockPath p) none).set p (some (.file d 0o600))) := by
  have hne := lockPath_ne p
  have hdl : ¬ (lockPath p = p.dropLast ∧ ¬ p.length ≤ 1) := by
    rintro ⟨h, hlen⟩
    rcases hd with hd | hd
    · exact hlen hd
    · rw [← h, hl] at hd; cases hd
  have hcond : p.length ≤ 1 ∨
      (fs.set (lockPath p) (some (.file d 0o600))) p.dropLast =
        some .dir := by
    rcases hd with hd | hd
    · exact .inl hd
    · by_cases hlen : p.length ≤ 1
      · exact .inl hlen
      · right
        have : p.dropLast ≠ lockPath p := fun h => hdl ⟨h.symm, hlen⟩
        simp [Fs.set, this, hd]
  simp only [Fs.step]
  split
  · next h1 h2 =>
    simp only [Fs.set, Ne.symm hne, if_false] at h2
    exact absurd h2 hp
  · next c m h1 _ =>
    simp only [Fs.set, if_true, Option.some.injEq, Node.file.injEq] at h1
    obtain ⟨rfl, rfl⟩ := h1
    rw [if_pos hcond]
  · next h1 _ =>
    exact (h1 d 0o600 (by simp [Fs.set])).elim

/-- **C48, commit.**  Opening for writing, writing, and committing replaces the file by the data written,
readable for all, removes the lock, and touches nothing else.  Every call succeeds. -/
theorem C48_commit (p : Path) (fs : Fs) (ds : List (Bytes × Nat)) (oe : OpenEnv) (ee : EndEnv)
    (hl : fs (lockPath p) = none) (hp : fs p ≠ some .dir) (hd : p.length ≤ 1 ∨ fs p.dropLast = some .dir)
    (ho : oe.lock = true) (he : ee.close = true ∧ ee.rename = true ∧ ee.chmod = true) :
    ∃ fs', fs.run (LockedFD.init.calls p
        (.open_ true oe :: (ds.map (fun x => .put x.1 x.2) ++ [.commit ee]))).2.1 = some fs' ∧
      fs' p = some (.file (ds.flatMap fun x => x.1.take x.2) 0o644) ∧ fs' (lockPath p) = none ∧
      (∀ q, q ≠ p → q ≠ lockPath p → fs' q = fs q) ∧
      (∀ r ∈ (LockedFD.init.calls p
        (.open_ true oe :: (ds.map (fun x => .put x.1 x.2) ++ [.commit ee]))).2.2, ∃ n, r = .ok n) := by
  obtain ⟨close, rename, chmod, remove⟩ := ee
  obtain ⟨h1, h2, h3⟩ := he
  simp only at h1 h2 h3
  subst h1 h2 h3
  have hopen : LockedFD.call p .init (.open_ true oe) =
      (⟨true, some true⟩, [.create (lockPath p)], .ok 0) := by
    simp [LockedFD.call, LockedFD.open_, LockedFD.init, ho, Except.map]
  rw [calls_cons, hopen]
  simp only
  rw [calls_puts]
  have hend : LockedFD.calls p ⟨true, some true⟩ [.commit ⟨true, true, true, remove⟩] =
      (⟨false, some true⟩, [.rename (lockPath p) p, .chmod p 0o644], [.ok 0]) := by
    simp [LockedFD.calls, LockedFD.call, LockedFD.endWriting, Except.map]
  rw [hend]
  simp only [List.cons_append, List.nil_append]
  rw [← List.cons_append, run_append _ _ _ _ (run_writing p ds fs hl)]
  have hne := lockPath_ne p
  have hr1 := run_rename_lock p fs (ds.flatMap fun x => x.1.take x.2) hl hp hd
  have hgp : (((fs.set (lockPath p) (some (.file (ds.flatMap fun x => x.1.take x.2) 0o600))).set
      (lockPath p) none).set p (some (.file (ds.flatMap fun x => x.1.take x.2) 0o600))) p =
      some (.file (ds.flatMap fun x => x.1.take x.2) 0o600) := by simp [Fs.set]
  simp only [Fs.run, hr1]
  simp only [Fs.step, hgp]
  refine ⟨_, rfl, by simp [Fs.set], by simp [Fs.set, hne], ?_, ?_⟩
  · intro q h1 h2
    simp [Fs.set, h1, h2]
  · intro r hr
    simp only [List.mem_cons, List.mem_append, List.mem_map, List.not_mem_nil, or_false] at hr
    rcases hr with rfl | ⟨x, _, rfl⟩ | rfl
    · exact ⟨_, rfl⟩
    · exact ⟨_, rfl⟩
    · exact ⟨_, rfl⟩

/-- **C48, rollback.**  Opening in any mode, writing anything, and rolling back (or dropping the object)
leaves the whole file system as it was; so does committing in read mode. -/
theorem C48_rollback (p : Path) (fs : Fs) (ds : List (Bytes × Nat)) (w : Bool) (oe : OpenEnv) (ee : EndEnv)
    (last : LockOp) (hlast : last = .rollback ee ∨ last = .drop ee ∨ last = .commit ee ∧ w = false)
    (hl : fs (lockPath p) = none) (ho : oe.lock = true ∧ oe.close = true ∧ oe.file = true)
    (he : ee.close = true ∧ ee.remove = true) :
    fs.run (LockedFD.init.calls p
        (.open_ w oe :: (ds.map (fun x => .put x.1 x.2) ++ [last]))).2.1 = some fs := by
  obtain ⟨close, rename, chmod, remove⟩ := ee
  obtain ⟨h1, h2⟩ := he
  simp only at h1 h2
  subst h1 h2
  obtain ⟨ho1, ho2, ho3⟩ := ho
  have hopen : LockedFD.call p .init (.open_ w oe) =
      (⟨true, some w⟩, [.create (lockPath p)], .ok 0) := by
    cases w <;> simp [LockedFD.call, LockedFD.open_, LockedFD.init, ho1, ho2, ho3, Except.map]
  rw [calls_cons, hopen]
  simp only
  have hend : (LockedFD.calls p ⟨true, some w⟩ [last]).2.1 = [.remove (lockPath p)] := by
    rcases hlast with rfl | rfl | ⟨rfl, rfl⟩ <;>
      simp [LockedFD.calls, LockedFD.call, LockedFD.endWriting]
  have hback : ∀ d, (fs.set (lockPath p) (some (.file d 0o600))).run [.remove (lockPath p)] = some fs := by
    intro d
    have hg : (fs.set (lockPath p) (some (.file d 0o600))) (lockPath p) = some (.file d 0o600) := by
      simp [Fs.set]
    simp only [Fs.run, Fs.step, hg, Option.some.injEq]
    funext q
    by_cases hq : q = lockPath p
    · simp [Fs.set, hq, hl]
    · simp [Fs.set, hq]
  cases w with
  | true =>
    rw [calls_puts, hend]
    simp only [List.cons_append, List.nil_append]
    rw [← List.cons_append, run_append _ _ _ _ (run_writing p ds fs hl)]
    exact hback _
  | false =>
    rw [calls_reads, hend]
    simp only [List.cons_append, List.nil_append]
    have := run_writing p [] fs hl
    simp only [List.map_nil, List.flatMap_nil] at this
    rw [show ([.create (lockPath p), .remove (lockPath p)] : List Ev) =
      [.create (lockPath p)] ++ [.remove (lockPath p)] from rfl, run_append _ _ _ _ this]
    exact hback _

/-! ### Findings -/

/-- **C48, finding.**  After `open` failed, for whatever reason, the object is dead: `open` cannot be
retried (`AssertionError`), nothing any call does has an effect, and `commit` reports success although
there was never a lock. -/
theorem C48_failed_open (p : Path) (w : Bool) (oe : OpenEnv) (x : Err)
    (h : (LockedFD.init.open_ p w oe).2.2 = .error x) (ops : List LockOp) (ee : EndEnv) (w' : Bool)
    (oe' : OpenEnv) :
    let l := (LockedFD.init.open_ p w oe).1
    (l.calls p ops).2.1 = [] ∧ ((l.calls p ops).1.call p (.commit ee)).2.2 = .ok 0 ∧
      ((l.calls p ops).1.call p (.open_ w' oe')).2.2 = .error .assertionError := by
  have hl : (LockedFD.init.open_ p w oe).1 = ⟨false, some w⟩ := by
    obtain ⟨lock, close, file, remove⟩ := oe
    cases lock <;> cases w <;> cases close <;> cases file <;> cases remove <;>
      simp_all [LockedFD.open_, LockedFD.init]
  simp only [hl, calls_spent]
  exact ⟨trivial, rfl, rfl⟩

/-- **C48, finding.**  If the `rename` of a commit fails, the lock is left behind: `commit` raises, the
file is unchanged, and neither `rollback` nor any other call on the object removes the lock file any more. -/
theorem C48_rename_fails (p : Path) (fs : Fs) (ds : List (Bytes × Nat)) (oe : OpenEnv) (ee : EndEnv)
    (after : List LockOp) (hl : fs (lockPath p) = none) (ho : oe.lock = true)
    (he : ee.close = true ∧ ee.rename = false) :
    ∃ fs', fs.run (LockedFD.init.calls p
        (.open_ true oe :: (ds.map (fun x => .put x.1 x.2) ++ .commit ee :: after))).2.1 = some fs' ∧
      fs' p = fs p ∧ fs' (lockPath p) = some (.file (ds.flatMap fun x => x.1.take x.2) 0o600) := by
  obtain ⟨close, rename, chmod, remove⟩ := ee
  obtain ⟨h1, h2⟩ := he
  simp only at h1 h2
  subst h1 h2
  have hopen : LockedFD.call p .init (.open_ true oe) =
      (⟨true, some true⟩, [.create (lockPath p)], .ok 0) := by
    simp [LockedFD.call, LockedFD.open_, LockedFD.init, ho, Except.map]
  rw [calls_cons, hopen]
  simp only
  rw [calls_puts]
  have hend : (LockedFD.calls p ⟨true, some true⟩ (.commit ⟨true, false, chmod, remove⟩ :: after)).2.1 =
      [] := by
    rw [calls_cons]
    simp [LockedFD.call, LockedFD.endWriting, calls_spent]
  rw [hend, List.append_nil]
  exact ⟨_, run_writing p ds fs hl, by simp [Fs.set, Ne.symm (lockPath_ne p)], by simp [Fs.set]⟩

/-- **C48, finding.**  If a reader's `close` of the lock file fails, `open` raises, the lock file is left
behind, and no later call on the object removes it. -/
theorem C48_close_fails (p : Path) (fs : Fs) (oe : OpenEnv) (after : List LockOp)
    (hl : fs (lockPath p) = none) (ho : oe.lock = true ∧ oe.close = false) :
    (LockedFD.init.open_ p false oe).2.2 = .error .osError ∧
      ∃ fs', fs.run (LockedFD.init.calls p (.open_ false oe :: after)).2.1 = some fs' ∧
        fs' (lockPath p) = some (.file [] 0o600) ∧ (∀ q, q ≠ lockPath p → fs' q = fs q) ∧
        fs'.step (.create (lockPath p)) = none := by
  obtain ⟨lock, close, file, remove⟩ := oe
  obtain ⟨h1, h2⟩ := ho
  simp only at h1 h2
  subst h1 h2
  refine ⟨rfl, fs.set (lockPath p) (some (.file [] 0o600)), ?_, by simp [Fs.set],
    fun q hq => by simp [Fs.set, hq], by simp [Fs.step, Fs.set]⟩
  rw [calls_cons]
  have hopen : LockedFD.call p .init (.open_ false ⟨true, false, file, remove⟩) =
      (⟨false, some false⟩, [.create (lockPath p)], .error .osError) := rfl
  rw [hopen]
  simp only [calls_spent, List.append_nil]
  simp [Fs.run, Fs.step, hl]

/-- **C48, finding.**  If the `chmod` of a commit fails, `commit` raises although the file has been
replaced by the data written, readable for its owner only; the lock is gone, and no later call on the
object undoes this. -/
theorem C48_chmod_fails (p : Path) (fs : Fs) (ds : List (Bytes × Nat)) (oe : OpenEnv) (ee : EndEnv)
    (after : List LockOp) (hl : fs (lockPath p) = none) (hp : fs p ≠ some .dir)
    (hd : p.length ≤ 1 ∨ fs p.dropLast = some .dir) (ho : oe.lock = true)
    (he : ee.close = true ∧ ee.rename = true ∧ ee.chmod = false) :
    (LockedFD.call p ⟨true, some true⟩ (.commit ee)).2.2 = .error .osError ∧
    ∃ fs', fs.run (LockedFD.init.calls p
        (.open_ true oe :: (ds.map (fun x => .put x.1 x.2) ++ .commit ee :: after))).2.1 = some fs' ∧
      fs' p = some (.file (ds.flatMap fun x => x.1.take x.2) 0o600) ∧ fs' (lockPath p) = none ∧
      (∀ q, q ≠ p → q ≠ lockPath p → fs' q = fs q) := by
  obtain ⟨close, rename, chmod, remove⟩ := ee
  obtain ⟨h1, h2, h3⟩ := he
  simp only at h1 h2 h3
  subst h1 h2 h3
  refine ⟨rfl, ?_⟩
  have hopen : LockedFD.call p .init (.open_ true oe) =
      (⟨true, some true⟩, [.create (lockPath p)], .ok 0) := by
    simp [LockedFD.call, LockedFD.open_, LockedFD.init, ho, Except.map]
  rw [calls_cons, hopen]
  simp only
  rw [calls_puts]
  have hend : (LockedFD.calls p ⟨true, some true⟩ (.commit ⟨true, true, false, remove⟩ :: after)).2.1 =
      [.rename (lockPath p) p] := by
    rw [calls_cons]
    simp [LockedFD.call, LockedFD.endWriting, calls_spent]
  rw [hend]
  simp only [List.cons_append, List.nil_append]
  rw [← List.cons_append, run_append _ _ _ _ (run_writing p ds fs hl)]
  have hne := lockPath_ne p
  have hr1 := run_rename_lock p fs (ds.flatMap fun x => x.1.take x.2) hl hp hd
  simp only [Fs.run, hr1]
  refine ⟨_, rfl, by simp [Fs.set], by simp [Fs.set, hne], ?_⟩
  intro q h1 h2
  simp [Fs.set, h1, h2]

/-! ### A concrete system: a writer, a reader, and a writer which gives up -/

/-- Everything succeeds. -/
def allOpen : OpenEnv := ⟨true, true, true, true⟩

/-- Everything succeeds. -/
def allEnd : EndEnv := ⟨true, true, true, true⟩

/-- The file `d/f`. -/
def lockedFile : Path := [[0x64], [0x66]]

/-- The directory `d` with the file `f` containing one byte. -/
def lockedFs : Fs := fun q =>
  if q = [[0x64]] then some .dir else if q = lockedFile then some (.file [1] 0o644) else none

/-- Process 0 commits two bytes, process 1 reads, process 2 writes one byte and rolls back. -/
def lockUses : Fin 3 → List (List LockOp)
  | 0 => [[.open_ true allOpen, .put [2, 3, 4] 2, .put [5] 1, .commit allEnd]]
  | 1 => [[.open_ false allOpen, .rollback allEnd], [.open_ false allOpen, .drop allEnd]]
  | 2 => [[.open_ true allOpen, .put [9] 1, .rollback allEnd]]

theorem lock_reach_run {ι : Type} [DecidableEq ι] (i : ι) (es rest : List Ev) :
    ∀ (s : Sys ι) (fs' : Fs), s.todo i = es ++ rest → s.fs.run es = some fs' →
      ∃ t, Sys.Reach s t ∧ t.fs = fs' ∧ t.todo = fun j => if j = i then rest else s.todo j := by
  have snoc : ∀ {a b c : Sys ι}, Sys.Step a b → Sys.Reach b c → Sys.Reach a c := by
    intro a b c h1 h2
    induction h2 with
    | refl => exact .step .refl h1
    | step _ h ih => exact .step ih h
  induction es with
  | nil =>
    intro s fs' ht hr
    simp only [Fs.run, Option.some.injEq] at hr
    refine ⟨s, .refl, hr, ?_⟩
    funext j
    by_cases hj : j = i
    · simp [hj, ht]
    · simp [hj]
  | cons e es ih =>
    intro s fs' ht hr
    simp only [Fs.run] at hr
    split at hr
    · next fs1 hs =>
      have hst := Sys.Step.call s i e (es ++ rest) fs1 ht hs
      obtain ⟨t, h1, h2, h3⟩ :=
        ih { todo := fun j => if j = i then es ++ rest else s.todo j, fs := fs1 } fs' (by simp) hr
      refine ⟨t, snoc hst h1, h2, ?_⟩
      rw [h3]
      funext j
      by_cases hj : j = i
      · simp [hj]
      · simp [hj]
    · cases hr

/-- The hypotheses of `C48_atomic` and `C48_released` can be met, and a commit really shows: after all
processes ran, the file contains the three bytes accepted from process 0 and the lock is gone. -/
example : ∃ t, Sys.Reach (lockStart lockedFile lockUses lockedFs) t ∧ (∀ i, t.todo i = []) ∧
    content t.fs lockedFile = some [2, 3, 5] ∧ t.fs (lockPath lockedFile) = none ∧
    (∀ i, ∀ ops ∈ lockUses i, (∀ op ∈ ops, NoLockFault op) ∧ LockEnded ops) ∧
    CommittedBy lockedFile (lockUses 0) [2, 3, 5] := by
  have hall : ((((lockedFs.run (lockEvents lockedFile (lockUses 0))).bind
      fun fs => fs.run (lockEvents lockedFile (lockUses 1))).bind
      fun fs => fs.run (lockEvents lockedFile (lockUses 2))).map
      fun fs => (content fs lockedFile, fs (lockPath lockedFile))) = some (some [2, 3, 5], none) := by
    decide +kernel
  rcases h0 : lockedFs.run (lockEvents lockedFile (lockUses 0)) with _ | fs0
  · simp [h0] at hall
  rcases h1 : fs0.run (lockEvents lockedFile (lockUses 1)) with _ | fs1
  · simp [h0, h1] at hall
  rcases h2 : fs1.run (lockEvents lockedFile (lockUses 2)) with _ | fs2
  · simp [h0, h1, h2] at hall
  simp only [h0, h1, h2, Option.bind_some, Option.map_some, Option.some.injEq, Prod.mk.injEq] at hall
  obtain ⟨t0, r0, f0, d0⟩ := lock_reach_run (0 : Fin 3) _ []
    (lockStart lockedFile lockUses lockedFs) fs0 (by simp [lockStart]) h0
  obtain ⟨t1, r1, f1, d1⟩ := lock_reach_run (1 : Fin 3) (lockEvents lockedFile (lockUses 1)) []
    t0 fs1 (by simp [d0, lockStart]) (by rw [f0]; exact h1)
  obtain ⟨t2, r2, f2, d2⟩ := lock_reach_run (2 : Fin 3) (lockEvents lockedFile (lockUses 2)) []
    t1 fs2 (by simp [d1, d0, lockStart]) (by rw [f1]; exact h2)
  have trans : ∀ {a b c : Sys (Fin 3)}, Sys.Reach a b → Sys.Reach b c → Sys.Reach a c := by
    intro a b c h1 h2
    induction h2 with
    | refl => exact h1
    | step _ h ih => exact .step ih h
  refine ⟨t2, trans (trans r0 r1) r2, ?_, by rw [f2]; exact hall.1, by rw [f2]; exact hall.2, ?_, ?_⟩
  · intro i
    rw [d2, d1, d0]
    match i with
    | 0 => rfl
    | 1 => rfl
    | 2 => rfl
  · intro i ops ho
    match i with
    | 0 =>
      simp only [lockUses, List.mem_singleton] at ho
      subst ho
      simp [NoLockFault, LockEnded, EndsLock, allOpen, allEnd]
    | 1 =>
      simp only [lockUses, List.mem_cons, List.not_mem_nil, or_false] at ho
      rcases ho with rfl | rfl <;> simp [NoLockFault, LockEnded, EndsLock, allOpen, allEnd]
    | 2 =>
      simp only [lockUses, List.mem_singleton] at ho
      subst ho
      simp [NoLockFault, LockEnded, EndsLock, allOpen, allEnd]
  · exact ⟨_, List.mem_singleton.2 rfl, [.open_ true allOpen, .put [2, 3, 4] 2, .put [5] 1], allEnd, [],
      rfl, rfl, rfl, _, rfl, ⟨allOpen, by decide⟩, by decide⟩

/-- The hypotheses of `C48_commit` and `C48_rollback` can be met. -/
example : lockedFs (lockPath lockedFile) = none ∧ lockedFs lockedFile ≠ some .dir ∧
    lockedFs lockedFile.dropLast = some .dir ∧ allOpen.lock = true ∧ allEnd.rename = true := by
  decide

/-- What `C48_chmod_fails` and `C48_close_fails` say happens to this file. -/
example : (((lockedFs.run (LockedFD.init.calls lockedFile
      [.open_ true allOpen, .put [2, 3] 2, .commit ⟨true, true, false, true⟩, .rollback allEnd]).2.1).map
      fun fs => (fs lockedFile, fs (lockPath lockedFile))) = some (some (.file [2, 3] 0o600), none)) ∧
    (((lockedFs.run (LockedFD.init.calls lockedFile
      [.open_ false ⟨true, false, true, true⟩, .rollback allEnd]).2.1).map
      fun fs => fs (lockPath lockedFile)) = some (some (.file [] 0o600))) := by
  decide +kernel

/-- The hypothesis of `C48_failed_open` can be met: the lock is taken by somebody else. -/
example : (LockedFD.init.open_ lockedFile true ⟨false, true, true, true⟩).2.2 = .error .osError := by
  decide

end GitDB.Props
