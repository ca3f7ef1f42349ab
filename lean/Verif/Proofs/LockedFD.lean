import Verif.Spec.LockedFD
/-!
# Lock files: the protocol followed by every process, and its invariant
-/
set_option autoImplicit false

namespace GitDB
open Spec

theorem lockPath_ne (p : Path) : lockPath p ≠ p := by
  unfold lockPath
  rcases hp : p.getLast? with _ | n
  · intro h
    simp only [List.getLast?_eq_none_iff] at hp
    simp [hp] at h
  · intro h
    simp only at h
    have hl : p.dropLast ++ [n] = p := by
      rw [List.getLast?_eq_some_iff] at hp
      obtain ⟨ys, rfl⟩ := hp
      simp
    have h2 := h.trans hl.symm
    have h3 := List.append_cancel_left h2
    simp [dotLock] at h3

/-- What the system calls of a process may look like.  `none`: it does not have the lock; `some w`: it
has the lock and wrote `w` into the lock file.  `W`: data which may be committed; `leak`: it may happen
that the lock is never released. -/
inductive LockProg (W : Bytes → Prop) (leak : Prop) (p : Path) : Option Bytes → List Ev → Prop
  | nil : LockProg W leak p none []
  | mode {m : Nat} {es : List Ev} (h : LockProg W leak p none es) :
      LockProg W leak p none (.chmod p m :: es)
  | lock {es : List Ev} (h : LockProg W leak p (some []) es) :
      LockProg W leak p none (.create (lockPath p) :: es)
  | more {w d : Bytes} {es : List Ev} (h : LockProg W leak p (some (w ++ d)) es) :
      LockProg W leak p (some w) (.append (lockPath p) d :: es)
  | undo {w : Bytes} {es : List Ev} (h : LockProg W leak p none es) :
      LockProg W leak p (some w) (.remove (lockPath p) :: es)
  | done {w : Bytes} {es : List Ev} (hw : W w) (h : LockProg W leak p none es) :
      LockProg W leak p (some w) (.rename (lockPath p) p :: es)
  | leak {w : Bytes} {es : List Ev} (hl : leak) (h : LockProg W leak p none es) :
      LockProg W leak p (some w) es

/-- The invariant of the concurrent system. -/
def LockInv {ι : Type} (W : Bytes → Prop) (leak : Prop) (p : Path) (c : Option Bytes) (s : Sys ι) :
    Prop :=
  (content s.fs p = c ∨ ∃ w, W w ∧ content s.fs p = some w) ∧
  ((s.fs (lockPath p) = none ∧ ∀ i, LockProg W leak p none (s.todo i)) ∨
   (∃ i w m, s.fs (lockPath p) = some (.file w m) ∧ LockProg W leak p (some w) (s.todo i) ∧
      ∀ j, j ≠ i → LockProg W leak p none (s.todo j)) ∨
   (leak ∧ s.fs (lockPath p) ≠ none ∧ ∀ i, LockProg W leak p none (s.todo i)))

theorem content_set_same (fs : Fs) (p : Path) (d : Bytes) (m : Nat) :
    content (fs.set p (some (.file d m))) p = some d := by simp [content, Fs.set]

theorem content_set_other (fs : Fs) {p q : Path} (n : Option Node) (h : q ≠ p) :
    content (fs.set p n) q = content fs q := by simp [content, Fs.set, h]

/-- A process without the lock: it can change the permissions of the file, or take the lock. -/
theorem lockProg_none_step {W : Bytes → Prop} {leak : Prop} {p : Path} {e : Ev} {es : List Ev}
    {fs fs' : Fs} (h : LockProg W leak p none (e :: es)) (hs : fs.step e = some fs') :
    (LockProg W leak p none es ∧ fs' (lockPath p) = fs (lockPath p) ∧ content fs' p = content fs p) ∨
    (e = .create (lockPath p) ∧ fs (lockPath p) = none ∧ fs' (lockPath p) = some (.file [] 0o600) ∧
      LockProg W leak p (some []) es ∧ content fs' p = content fs p) := by
  cases h with
  | mode h =>
    left
    refine ⟨h, ?_⟩
    simp only [Fs.step] at hs
    split at hs
    · next c m hc =>
      cases hs
      refine ⟨by simp [Fs.set, lockPath_ne p], ?_⟩
      rw [content_set_same]
      simp [content, hc]
    · cases hs
  | lock h =>
    right
    simp only [Fs.step] at hs
    split at hs
    · next hc =>
      cases hs
      exact ⟨rfl, hc, by simp [Fs.set], h, content_set_other _ _ (Ne.symm (lockPath_ne p))⟩
    · cases hs

theorem lockInv_step {ι : Type} [DecidableEq ι] {W : Bytes → Prop} {leak : Prop} {p : Path}
    {c : Option Bytes} {s t : Sys ι} (h : LockInv W leak p c s) (hst : Sys.Step s t) :
    LockInv W leak p c t := by
  obtain ⟨i, e, es, fs', hi, hs⟩ := hst
  obtain ⟨hc, h⟩ := h
  -- a process without the lock makes a step while nobody can take the lock, or takes it
  have quiet : ∀ (hn : LockProg W leak p none (e :: es)),
      (LockProg W leak p none es ∧ fs' (lockPath p) = s.fs (lockPath p) ∧
        (content fs' p = c ∨ ∃ w, W w ∧ content fs' p = some w)) ∨
      (s.fs (lockPath p) = none ∧ fs' (lockPath p) = some (.file [] 0o600) ∧
        LockProg W leak p (some []) es ∧ (content fs' p = c ∨ ∃ w, W w ∧ content fs' p = some w)) := by
    intro hn
    rcases lockProg_none_step hn hs with ⟨h1, h2, h3⟩ | ⟨_, h1, h2, h3, h4⟩
    · left; exact ⟨h1, h2, by rw [h3]; exact hc⟩
    · right; exact ⟨h1, h2, h3, by rw [h4]; exact hc⟩
  have others : ∀ (P : List Ev → Prop), (∀ j, j ≠ i → P (s.todo j)) → P es →
      ∀ j, P (if j = i then es else s.todo j) := by
    intro P h1 h2 j
    by_cases hj : j = i
    · simpa [hj] using h2
    · simpa [hj] using h1 j hj
  rcases h with ⟨hf, ho⟩ | ⟨k, w, m, hf, hk, ho⟩ | ⟨hl, hf, ho⟩
  · -- the lock is free
    rcases quiet (hi ▸ ho i) with ⟨h1, h2, h3⟩ | ⟨_, h2, h3, h4⟩
    · exact ⟨h3, .inl ⟨h2.trans hf, others _ (fun j _ => ho j) h1⟩⟩
    · refine ⟨h4, .inr (.inl ⟨i, [], 0o600, h2, by simpa using h3, ?_⟩)⟩
      intro j hj
      simpa [hj] using ho j
  · by_cases hik : i = k
    · -- the holder
      subst hik
      rw [hi] at hk
      cases hk with
      | more hk =>
        simp only [Fs.step, hf] at hs
        cases hs
        refine ⟨?_, .inr (.inl ⟨i, _, m, by simp [Fs.set]; rfl, by simpa using hk, ?_⟩)⟩
        · rw [content_set_other _ _ (Ne.symm (lockPath_ne p))]; exact hc
        · intro j hj
          simpa [hj] using ho j hj
      | undo hk =>
        simp only [Fs.step, hf] at hs
        cases hs
        refine ⟨?_, .inl ⟨by simp [Fs.set], others _ ho hk⟩⟩
        rw [content_set_other _ _ (Ne.symm (lockPath_ne p))]; exact hc
      | done hw hk =>
        simp only [Fs.step, hf] at hs
        split at hs
        · cases hs
        · next c' m' hc' _ =>
          split at hs
          · cases hs
            injection hc' with hc'
            injection hc' with hc' hm'
            subst hc'
            refine ⟨.inr ⟨w, hw, content_set_same _ _ _ _⟩, .inl ⟨?_, others _ ho hk⟩⟩
            simp [Fs.set, lockPath_ne p]
          · cases hs
        · cases hs
      | leak hl hk =>
        rcases quiet hk with ⟨h1, h2, h3⟩ | ⟨h1, _⟩
        · exact ⟨h3, .inr (.inr ⟨hl, by simp [h2, hf], others _ ho h1⟩)⟩
        · rw [hf] at h1; cases h1
    · rcases quiet (hi ▸ ho i hik) with ⟨h1, h2, h3⟩ | ⟨h1, _⟩
      · refine ⟨h3, .inr (.inl ⟨k, w, m, h2.trans hf, ?_, ?_⟩)⟩
        · simpa [Ne.symm hik] using hk
        · intro j hj
          by_cases hji : j = i
          · simpa [hji] using h1
          · simpa [hji] using ho j hj
      · rw [hf] at h1; cases h1
  · rcases quiet (hi ▸ ho i) with ⟨h1, h2, h3⟩ | ⟨h1, _⟩
    · exact ⟨h3, .inr (.inr ⟨hl, by simp only [h2]; exact hf, others _ (fun j _ => ho j) h1⟩)⟩
    · exact absurd h1 hf

theorem lockInv_reach {ι : Type} [DecidableEq ι] {W : Bytes → Prop} {leak : Prop} {p : Path}
    {c : Option Bytes} {s t : Sys ι} (h : LockInv W leak p c s) (hr : Sys.Reach s t) :
    LockInv W leak p c t := by
  induction hr with
  | refl => exact h
  | step _ h' ih => exact lockInv_step ih h'

/-! ### The events of a `LockedFD` follow the protocol -/

theorem calls_cons (p : Path) (l : LockedFD) (op : LockOp) (ops : List LockOp) :
    l.calls p (op :: ops) = (((l.call p op).1.calls p ops).1,
      (l.call p op).2.1 ++ ((l.call p op).1.calls p ops).2.1,
      (l.call p op).2.2 :: ((l.call p op).1.calls p ops).2.2) := rfl

/-- The data of a commit further down the list is in `W`. -/
def WOk (W : Bytes → Prop) (p : Path) (l : LockedFD) (w : Bytes) (ops : List LockOp) : Prop :=
  ∀ before env after, ops = before ++ .commit env :: after → env.close = true → env.rename = true →
    ((l.fd = true ∧ l.write = some true) ∨
      ∃ e, (LockOp.open_ true e, Except.ok 0) ∈ before.zip (l.calls p before).2.2) →
    W (w ++ acceptedData (before.zip (l.calls p before).2.2))

theorem wOk_tail {W : Bytes → Prop} {p : Path} {l : LockedFD} {w w' : Bytes} {op : LockOp}
    {ops : List LockOp} (h : WOk W p l w (op :: ops))
    (hw : ∀ cs, w ++ acceptedData ((op, (l.call p op).2.2) :: cs) = w' ++ acceptedData cs)
    (ho : ((l.call p op).1.fd = true ∧ (l.call p op).1.write = some true) →
      (l.fd = true ∧ l.write = some true) ∨ ∃ e, (op, (l.call p op).2.2) = (.open_ true e, .ok 0)) :
    WOk W p (l.call p op).1 w' ops := by
  intro before env after hops hc hr hopen
  have := h (op :: before) env after (by rw [hops]; rfl) hc hr ?_
  · rw [calls_cons] at this
    simp only [List.zip_cons_cons] at this
    rwa [hw] at this
  · rw [calls_cons]
    simp only [List.zip_cons_cons, List.mem_cons]
    rcases hopen with h1 | ⟨e, he⟩
    · rcases ho h1 with h2 | ⟨e, he⟩
      · exact .inl h2
      · exact .inr ⟨e, .inl he.symm⟩
    · exact .inr ⟨e, .inr he⟩

/-- What is known about the rest of a use, when no leak is allowed. -/
def Tidy (leak : Prop) (l : LockedFD) (ops : List LockOp) : Prop :=
  leak ∨ ((∀ op ∈ ops, NoLockFault op) ∧ LockEnded ops ∧ (l.fd = true → ops ≠ []))

theorem lockEnded_tail {op : LockOp} {ops : List LockOp} (h : LockEnded (op :: ops)) :
    LockEnded ops := by
  intro o ho
  apply h
  cases ops with
  | nil => simp at ho
  | cons a as => simpa [List.getLast?_cons_cons] using ho

theorem tidy_tail {leak : Prop} {l l' : LockedFD} {op : LockOp} {ops : List LockOp}
    (h : Tidy leak l (op :: ops)) (hl : NoLockFault op → EndsLock op → l'.fd = false) : Tidy leak l' ops := by
  rcases h with h | ⟨h1, h2, h3⟩
  · exact .inl h
  · right
    refine ⟨fun o ho => h1 o (List.mem_cons_of_mem _ ho), lockEnded_tail h2, ?_⟩
    intro hf hn
    subst hn
    have := hl (h1 op (by simp)) (h2 op (by simp))
    rw [this] at hf
    cases hf

/-- An object which was opened and has no descriptor (any more) is out of use: no call changes anything. -/
theorem calls_spent (p : Path) (b : Bool) (ops : List LockOp) :
    (LockedFD.calls p ⟨false, some b⟩ ops).1 = ⟨false, some b⟩ ∧
    (LockedFD.calls p ⟨false, some b⟩ ops).2.1 = [] := by
  induction ops with
  | nil => exact ⟨rfl, rfl⟩
  | cons op ops ih =>
    have h : LockedFD.call p ⟨false, some b⟩ op =
        (⟨false, some b⟩, [], (LockedFD.call p ⟨false, some b⟩ op).2.2) := by
      cases op <;> rfl
    rw [calls_cons, h]
    exact ⟨ih.1, by simpa using ih.2⟩

theorem lockProg_calls {W : Bytes → Prop} {leak : Prop} {p : Path} {rest : List Ev}
    (hrest : LockProg W leak p none rest) (ops : List LockOp) :
    ∀ (l : LockedFD) (w : Bytes), Tidy leak l ops → WOk W p l w ops →
      (l.fd = false → w = [] → LockProg W leak p none ((l.calls p ops).2.1 ++ rest)) ∧
      (l.fd = true → l.write ≠ none → LockProg W leak p (some w) ((l.calls p ops).2.1 ++ rest)) := by
  induction ops with
  | nil =>
    intro l w ht _
    refine ⟨fun _ _ => hrest, fun hf _ => ?_⟩
    rcases ht with ht | ⟨_, _, ht⟩
    · exact .leak ht hrest
    · exact absurd rfl (ht hf)
  | cons op ops ih =>
    intro l w ht hw
    -- a call without effect
    have idle : ∀ (hst : (l.call p op).1.fd = l.fd) (hwr : (l.call p op).1.write = l.write)
        (hev : (l.call p op).2.1 = [])
        (hd : ∀ cs, acceptedData ((op, (l.call p op).2.2) :: cs) = acceptedData cs)
        (hend : NoLockFault op → EndsLock op → l.fd = false),
        (l.fd = false → w = [] → LockProg W leak p none ((l.calls p (op :: ops)).2.1 ++ rest)) ∧
        (l.fd = true → l.write ≠ none →
          LockProg W leak p (some w) ((l.calls p (op :: ops)).2.1 ++ rest)) := by
      intro hst hwr hev hd hend
      have := ih (l.call p op).1 w (tidy_tail ht (by rw [hst]; exact hend))
        (wOk_tail hw (fun cs => by rw [hd]) (by rw [hst, hwr]; exact .inl))
      rw [calls_cons]
      simp only [hev, List.nil_append]
      rw [hst, hwr] at this
      exact this
    have stepTo : ∀ w', Tidy leak (l.call p op).1 ops →
        (∀ cs, w ++ acceptedData ((op, (l.call p op).2.2) :: cs) = w' ++ acceptedData cs) →
        (((l.call p op).1.fd = true ∧ (l.call p op).1.write = some true) →
          (l.fd = true ∧ l.write = some true) ∨ ∃ e, (op, (l.call p op).2.2) = (.open_ true e, .ok 0)) → _ :=
      fun w' h1 h2 h3 => ih (l.call p op).1 w' h1 (wOk_tail hw h2 h3)
    rw [calls_cons] at idle ⊢
    obtain ⟨fd, write⟩ := l
    cases op with
    | put d n =>
      cases fd with
      | false => exact idle rfl rfl rfl (fun _ => rfl) (by simp [EndsLock])
      | true =>
        rcases write with _ | w0
        · exact idle rfl rfl rfl (fun _ => rfl) (by simp [EndsLock])
        · cases w0 with
          | false => exact idle rfl rfl rfl (fun _ => rfl) (by simp [EndsLock])
          | true =>
            have := stepTo (w ++ d.take n) (tidy_tail ht (by simp [EndsLock]))
              (fun cs => by simp [LockedFD.call, acceptedData]) (fun _ => .inl ⟨rfl, rfl⟩)
            refine ⟨by simp, fun _ _ => ?_⟩
            exact .more (this.2 rfl (by simp [LockedFD.call]))
    | open_ wr env =>
      rcases write with _ | w0
      · cases fd with
        | true => exact ⟨by simp, by simp⟩
        | false =>
          refine ⟨fun _ hw0 => ?_, by simp⟩
          subst hw0
          obtain ⟨lock, close, file, remove⟩ := env
          cases lock with
          | false =>
            have := calls_spent p wr ops
            simpa [LockedFD.call, LockedFD.open_, this.2] using hrest
          | true =>
          cases wr with
          | true =>
            have := stepTo [] (tidy_tail ht (by simp [EndsLock]))
              (fun cs => by simp [acceptedData]) (fun _ => .inr ⟨_, rfl⟩)
            exact .lock (this.2 rfl (by simp [LockedFD.call, LockedFD.open_]))
          | false =>
            have hsp := (calls_spent p false ops).2
            cases close with
            | false =>
              have hl : leak := by
                rcases ht with ht | ⟨ht, _⟩
                · exact ht
                · have := ht (.open_ false ⟨true, false, file, remove⟩) (by simp)
                  simp [NoLockFault] at this
              simp [LockedFD.call, LockedFD.open_, hsp]
              exact .lock (.leak hl hrest)
            | true =>
              cases file with
              | true =>
                have := stepTo [] (tidy_tail ht (by simp [EndsLock]))
                  (fun cs => by simp [acceptedData]) (by simp [LockedFD.call, LockedFD.open_])
                exact .lock (this.2 rfl (by simp [LockedFD.call, LockedFD.open_]))
              | false =>
                cases remove with
                | true =>
                  simp [LockedFD.call, LockedFD.open_, hsp]
                  exact .lock (.undo hrest)
                | false =>
                  have hl : leak := by
                    rcases ht with ht | ⟨ht, _⟩
                    · exact ht
                    · have := ht (.open_ false ⟨true, true, false, false⟩) (by simp)
                      simp [NoLockFault] at this
                  simp [LockedFD.call, LockedFD.open_, hsp]
                  exact .lock (.leak hl hrest)
      · exact idle rfl rfl rfl (fun _ => rfl) (by simp [EndsLock])
    | commit env =>
      cases fd with
      | false =>
        rcases write with _ | w0
        · exact idle rfl rfl rfl (fun _ => rfl) (by simp)
        · exact idle rfl rfl rfl (fun _ => rfl) (by simp)
      | true =>
        rcases write with _ | w0
        · exact ⟨by simp, by simp⟩
        · obtain ⟨close, rename, chmod, remove⟩ := env
          cases close with
          | false => exact idle rfl rfl rfl (fun _ => rfl) (by simp [NoLockFault])
          | true =>
            refine ⟨by simp, fun _ _ => ?_⟩
            have hsp := (calls_spent p w0 ops).2
            have hleak : (rename = false ∨ remove = false) → leak := by
              intro hf
              rcases ht with ht | ⟨ht, _⟩
              · exact ht
              · have := ht (.commit ⟨true, rename, chmod, remove⟩) (by simp)
                simp only [NoLockFault] at this
                rcases hf with hf | hf <;> simp [hf] at this
            cases w0 with
            | true =>
              cases rename with
              | false =>
                simp [LockedFD.call, LockedFD.endWriting, hsp]
                exact .leak (hleak (.inl rfl)) hrest
              | true =>
                have hww := hw [] _ ops rfl rfl rfl (.inl ⟨rfl, rfl⟩)
                simp only [LockedFD.calls, List.zip_nil_left, acceptedData, List.append_nil] at hww
                cases chmod with
                | false =>
                  simp [LockedFD.call, LockedFD.endWriting, hsp]
                  exact .done hww hrest
                | true =>
                  simp [LockedFD.call, LockedFD.endWriting, hsp]
                  exact .done hww (.mode hrest)
            | false =>
              cases remove with
              | false =>
                simp [LockedFD.call, LockedFD.endWriting, hsp]
                exact .leak (hleak (.inr rfl)) hrest
              | true =>
                simp [LockedFD.call, LockedFD.endWriting, hsp]
                exact .undo hrest
    | rollback env =>
      cases fd with
      | false =>
        rcases write with _ | w0
        · exact idle rfl rfl rfl (fun _ => rfl) (by simp)
        · exact idle rfl rfl rfl (fun _ => rfl) (by simp)
      | true =>
        rcases write with _ | w0
        · exact ⟨by simp, by simp⟩
        · obtain ⟨close, rename, chmod, remove⟩ := env
          cases close with
          | false => exact idle rfl rfl rfl (fun _ => rfl) (by simp [NoLockFault])
          | true =>
            refine ⟨by simp, fun _ _ => ?_⟩
            have hsp := (calls_spent p w0 ops).2
            cases remove with
            | false =>
              have hl : leak := by
                rcases ht with ht | ⟨ht, _⟩
                · exact ht
                · have := ht (.rollback ⟨true, rename, chmod, false⟩) (by simp)
                  simp [NoLockFault] at this
              simp [LockedFD.call, LockedFD.endWriting, hsp]
              exact .leak hl hrest
            | true =>
              simp [LockedFD.call, LockedFD.endWriting, hsp]
              exact .undo hrest
    | drop env =>
      cases fd with
      | false =>
        rcases write with _ | w0
        · exact idle rfl rfl rfl (fun _ => rfl) (by simp)
        · exact idle rfl rfl rfl (fun _ => rfl) (by simp)
      | true =>
        rcases write with _ | w0
        · exact ⟨by simp, by simp⟩
        · obtain ⟨close, rename, chmod, remove⟩ := env
          cases close with
          | false => exact idle rfl rfl rfl (fun _ => rfl) (by simp [NoLockFault])
          | true =>
            refine ⟨by simp, fun _ _ => ?_⟩
            have hsp := (calls_spent p w0 ops).2
            cases remove with
            | false =>
              have hl : leak := by
                rcases ht with ht | ⟨ht, _⟩
                · exact ht
                · have := ht (.drop ⟨true, rename, chmod, false⟩) (by simp)
                  simp [NoLockFault] at this
              simp [LockedFD.call, LockedFD.endWriting, hsp]
              exact .leak hl hrest
            | true =>
              simp [LockedFD.call, LockedFD.endWriting, hsp]
              exact .undo hrest

/-- All uses of a process, one after the other. -/
theorem lockProg_events {W : Bytes → Prop} {leak : Prop} {p : Path} (uses : List (List LockOp))
    (hw : ∀ d, CommittedBy p uses d → W d)
    (ht : leak ∨ ∀ ops ∈ uses, (∀ op ∈ ops, NoLockFault op) ∧ LockEnded ops) :
    LockProg W leak p none (lockEvents p uses) := by
  induction uses with
  | nil => exact .nil
  | cons ops uses ih =>
    have h1 := ih (fun d hd => hw d (by
        obtain ⟨o, ho, rest⟩ := hd
        exact ⟨o, List.mem_cons_of_mem _ ho, rest⟩))
      (ht.imp id fun h o ho => h o (List.mem_cons_of_mem _ ho))
    have h2 := lockProg_calls h1 ops .init [] ?_ ?_
    · exact h2.1 rfl rfl
    · rcases ht with ht | ht
      · exact .inl ht
      · exact .inr ⟨(ht ops (by simp)).1, (ht ops (by simp)).2, by simp [LockedFD.init]⟩
    · intro before env after hops hc hr hopen
      rcases hopen with h | ⟨e, he⟩
      · simp [LockedFD.init] at h
      · exact hw _ ⟨ops, by simp, before, env, after, hops, hc, hr, _, rfl, ⟨e, he⟩, by simp⟩

/-! ### Isolation -/

/-- As long as a process which took the lock only writes to the lock file, the lock file contains what it
wrote, and nobody changes the file. -/
theorem lock_held {ι : Type} [DecidableEq ι] {W : Bytes → Prop} {leak : Prop} {p : Path}
    {s t : Sys ι} {i : ι} {todo : List Ev} (hi : s.todo i = todo)
    (hf : ∃ m, s.fs (lockPath p) = some (.file [] m))
    (ho : ∀ j, j ≠ i → LockProg W leak p none (s.todo j)) (hr : Sys.Reach s t) :
    ∃ before, todo = before ++ t.todo i ∧
      ∀ ds : List Bytes, before = ds.map (.append (lockPath p)) →
        (∃ m, t.fs (lockPath p) = some (.file ds.flatten m)) ∧ content t.fs p = content s.fs p ∧
        ∀ j, j ≠ i → LockProg W leak p none (t.todo j) := by
  induction hr with
  | refl =>
    refine ⟨[], by simp [hi], ?_⟩
    intro ds hd
    have : ds = [] := by simpa using hd.symm
    subst this
    exact ⟨by simpa using hf, rfl, ho⟩
  | @step t u _ hst ih =>
    obtain ⟨before, hb, ih⟩ := ih
    obtain ⟨k, e, es, fs', hk, hs⟩ := hst
    by_cases hki : k = i
    · subst hki
      refine ⟨before ++ [e], by simp [hb, hk], ?_⟩
      intro ds hd
      rcases List.eq_nil_or_concat ds with hn | ⟨ds', d, hn⟩
      · subst hn
        simp at hd
      · subst hn
        simp only [List.concat_eq_append, List.map_append, List.map_cons, List.map_nil] at hd
        obtain ⟨h1, h2⟩ := List.append_inj' hd rfl
        injection h2 with h2
        subst h2
        obtain ⟨⟨m, hm⟩, hc, hj⟩ := ih ds' h1
        simp only [Fs.step, hm] at hs
        cases hs
        refine ⟨⟨m, by simp [Fs.set]⟩, ?_, ?_⟩
        · rw [content_set_other _ _ (Ne.symm (lockPath_ne p))]; exact hc
        · intro j hjk
          simpa [hjk] using hj j hjk
    · refine ⟨before, by simp [hb, Ne.symm hki], ?_⟩
      intro ds hd
      obtain ⟨⟨m, hm⟩, hc, hj⟩ := ih ds hd
      rcases lockProg_none_step (hk ▸ hj k hki) hs with ⟨h1, h2, h3⟩ | ⟨_, h1, _⟩
      · refine ⟨⟨m, h2.trans hm⟩, h3.trans hc, ?_⟩
        intro j hji
        by_cases hjk : j = k
        · simpa [hjk] using h1
        · simpa [hjk] using hj j hji
      · rw [hm] at h1; cases h1

end GitDB
