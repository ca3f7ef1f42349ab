import Verif.Model.WinLock
import Verif.Spec.LockedFD
/-!
# C111: lock files on Windows
-/
set_option autoImplicit false

namespace GitDB.Props
open GitDB Spec

/-! ## The protocol -/

/-- What a process has: nothing, or the lock file, with its content and whether the process removed the file. -/
abbrev Held := Option (Bytes × Bool)

/-- Programs that touch the file only while they have the lock, replace it only by data of `C`, and end with `Q`. -/
def Obeys (win : Bool) (C : Bytes → Prop) {α : Type} (Q : α → Held → Prop) : WinAct α → Held → Prop
  | .ret a, h => Q a h
  | .sys .createLock k, h => (h = none → Obeys win C Q (k true) (some ([], false))) ∧ Obeys win C Q (k false) h
  | .sys .openFile k, h => (∃ d, h = some (d, false)) ∧ Obeys win C Q (k true) h ∧ Obeys win C Q (k false) h
  | .sys (.append e) k, h => ∃ d, h = some (d, false) ∧ Obeys win C Q (k true) (some (d ++ e, false)) ∧ Obeys win C Q (k false) h
  | .sys .close k, h => Obeys win C Q (k true) h ∧ Obeys win C Q (k false) h
  | .sys .isFile k, h => Obeys win C Q (k true) h ∧ Obeys win C Q (k false) h
  | .sys .chmod k, h => Obeys win C Q (k true) h ∧ Obeys win C Q (k false) h
  | .sys .removeFile k, h => win = true ∧ ∃ d g, h = some (d, g) ∧ C d ∧ Obeys win C Q (k true) (some (d, true)) ∧ Obeys win C Q (k false) h
  | .sys .rename k, h => ∃ d g, h = some (d, g) ∧ C d ∧ Obeys win C Q (k true) none ∧ Obeys win C Q (k false) h
  | .sys .removeLock k, h => ∃ d, h = some (d, false) ∧ Obeys win C Q (k true) none ∧ Obeys win C Q (k false) h

theorem obeys_bind {win : Bool} {C : Bytes → Prop} {α β : Type} {Q : α → Held → Prop} {Q' : β → Held → Prop} (f : α → WinAct β)
    (hf : ∀ a h, Q a h → Obeys win C Q' (f a) h) : ∀ (l : WinAct α) (h : Held), Obeys win C Q l h → Obeys win C Q' (l.bind f) h
  | .ret a, h, hl => hf a h hl
  | .sys .createLock k, _, ⟨h1, h2⟩ => ⟨fun e => obeys_bind f hf _ _ (h1 e), obeys_bind f hf _ _ h2⟩
  | .sys .openFile k, _, ⟨h0, h1, h2⟩ => ⟨h0, obeys_bind f hf _ _ h1, obeys_bind f hf _ _ h2⟩
  | .sys (.append e) k, _, ⟨d, h0, h1, h2⟩ => ⟨d, h0, obeys_bind f hf _ _ h1, obeys_bind f hf _ _ h2⟩
  | .sys .close k, _, ⟨h1, h2⟩ => ⟨obeys_bind f hf _ _ h1, obeys_bind f hf _ _ h2⟩
  | .sys .isFile k, _, ⟨h1, h2⟩ => ⟨obeys_bind f hf _ _ h1, obeys_bind f hf _ _ h2⟩
  | .sys .chmod k, _, ⟨h1, h2⟩ => ⟨obeys_bind f hf _ _ h1, obeys_bind f hf _ _ h2⟩
  | .sys .removeFile k, _, ⟨hw, d, g, h0, hc, h1, h2⟩ => ⟨hw, d, g, h0, hc, obeys_bind f hf _ _ h1, obeys_bind f hf _ _ h2⟩
  | .sys .rename k, _, ⟨d, g, h0, hc, h1, h2⟩ => ⟨d, g, h0, hc, obeys_bind f hf _ _ h1, obeys_bind f hf _ _ h2⟩
  | .sys .removeLock k, _, ⟨d, h0, h1, h2⟩ => ⟨d, h0, obeys_bind f hf _ _ h1, obeys_bind f hf _ _ h2⟩

/-- What holds between the disk and the processes: those of `C i` are the data process `i` may put in place; at first the file was `file0`. -/
structure WinInv (win : Bool) (C : Nat → Bytes → Prop) (file0 : Option Bytes) {α : Type} (Q : Nat → α → Held → Prop) (s : WinSys α)
    (σ : Nat → Held) : Prop where
  obeys : ∀ (i : Nat) t, s.procs[i]? = some t → Obeys win (C i) (Q i) t (σ i)
  beyond : ∀ i, s.procs.length ≤ i → σ i = none
  lock : ∀ i d g, σ i = some (d, g) → s.disk.lock = some d
  one : ∀ i j, σ i ≠ none → σ j ≠ none → i = j
  gone : s.disk.file = none → file0 = none ∨ ∃ i d, σ i = some (d, true)
  removed : ∀ i d, σ i = some (d, true) → C i d ∧ win = true ∧ s.disk.file = none
  content : ∀ c, s.disk.file = some c → file0 = some c ∨ ∃ i, i < s.procs.length ∧ C i c

/-- A process gets what it has after a step. -/
def upd (σ : Nat → Held) (i : Nat) (h : Held) : Nat → Held := fun j => if j = i then h else σ j

section
variable {win : Bool} {C : Nat → Bytes → Prop} {file0 : Option Bytes} {α : Type} {Q : Nat → α → Held → Prop}

theorem winInv_set {s : WinSys α} {σ : Nat → Held} (h : WinInv win C file0 Q s σ) {i : Nat} (hi : i < s.procs.length) (w : WinDisk) (t : WinAct α)
    (x : Held) (ho : Obeys win (C i) (Q i) t x) (hlock : ∀ d g, x = some (d, g) → w.lock = some d)
    (hother : ∀ j, j ≠ i → σ j ≠ none → x = none ∧ w.lock = s.disk.lock ∧ w.file = s.disk.file)
    (hgone : w.file = none → file0 = none ∨ (∃ d, x = some (d, true)) ∨ ∃ j d, j ≠ i ∧ σ j = some (d, true))
    (hrem : ∀ d, x = some (d, true) → C i d ∧ win = true ∧ w.file = none)
    (hcont : ∀ c, w.file = some c → s.disk.file = some c ∨ C i c) :
    WinInv win C file0 Q ⟨w, s.procs.set i t⟩ (upd σ i x) where
  obeys := by
    intro j u hu
    dsimp only at hu
    rw [List.getElem?_set] at hu
    unfold upd
    split at hu
    · rename_i e
      subst e
      rw [if_pos rfl]
      cases hu
      exact ho
    · rename_i e
      rw [if_neg (fun e' => e e'.symm)]
      exact h.obeys j u hu
  beyond := by
    intro j hj
    rw [List.length_set] at hj
    unfold upd
    rw [if_neg (by omega)]
    exact h.beyond j hj
  lock := by
    intro j d g hj
    unfold upd at hj
    split at hj
    · exact hlock d g hj
    · rename_i e
      exact (hother j e (by rw [hj]; nofun)).2.1.trans (h.lock j d g hj)
  one := by
    intro j k hj hk
    unfold upd at hj hk
    split at hj
    · split at hk
      · rename_i e1 e2; rw [e1, e2]
      · rename_i e1 e2; exact absurd (hother k e2 hk).1 hj
    · split at hk
      · rename_i e1 e2; exact absurd (hother j e1 hj).1 hk
      · exact h.one j k hj hk
  gone := by
    intro hf
    rcases hgone hf with e | ⟨d, e⟩ | ⟨j, d, hj, e⟩
    · exact .inl e
    · exact .inr ⟨i, d, by rw [upd, if_pos rfl, e]⟩
    · exact .inr ⟨j, d, by rw [upd, if_neg hj, e]⟩
  removed := by
    intro j d hj
    unfold upd at hj
    split at hj
    · rename_i e; rw [e]; exact hrem d hj
    · rename_i e
      obtain ⟨h1, h2, h3⟩ := h.removed j d hj
      exact ⟨h1, h2, (hother j e (by rw [hj]; nofun)).2.2.trans h3⟩
  content := by
    intro c hc
    dsimp only at hc ⊢
    rw [List.length_set]
    rcases hcont c hc with e | e
    · exact h.content c e
    · exact .inr ⟨i, hi, e⟩

theorem winInv_step {s : WinSys α} {σ : Nat → Held} (h : WinInv win C file0 Q s σ) (e : Nat × Bool) :
    ∃ σ', WinInv win C file0 Q (s.step win e) σ' := by
  unfold WinSys.step
  rcases hs : s.procs[e.1]? with _ | t
  · exact ⟨σ, h⟩
  obtain ⟨hi, -⟩ := List.getElem?_eq_some_iff.mp hs
  have ho := h.obeys e.1 t hs
  rcases t with a | ⟨c, k⟩
  · exact ⟨σ, h⟩
  dsimp only
  generalize e.1 = i at *
  generalize e.2 = ok at *
  -- nothing changes on the disk
  have same : ∀ b, Obeys win (C i) (Q i) (k b) (σ i) → WinInv win C file0 Q ⟨s.disk, s.procs.set i (k b)⟩ (upd σ i (σ i)) := by
    intro b hb
    refine winInv_set h hi _ _ _ hb (fun d g hd => h.lock i d g hd) ?_ ?_ ?_ (fun c hc => .inl hc)
    · intro j hj hn
      refine ⟨?_, rfl, rfl⟩
      rcases hx : σ i with _ | y
      · rfl
      · exact absurd (h.one j i hn (by rw [hx]; nofun)) hj
    · intro hf
      rcases h.gone hf with e | ⟨j, d, e⟩
      · exact .inl e
      · by_cases hj : j = i
        · exact .inr (.inl ⟨d, by rw [← hj, e]⟩)
        · exact .inr (.inr ⟨j, d, hj, e⟩)
    · exact fun d hd => h.removed i d hd
  -- the process has the lock, so no other has
  have winAlone : σ i ≠ none → ∀ j, j ≠ i → σ j = none := by
    intro hn j hj
    rcases hx : σ j with _ | y
    · rfl
    · exact absurd (h.one j i (by rw [hx]; nofun) hn) hj
  have both : ∀ b, Obeys win (C i) (Q i) (k true) (σ i) → Obeys win (C i) (Q i) (k false) (σ i) → Obeys win (C i) (Q i) (k b) (σ i) := by
    intro b h1 h2
    cases b
    · exact h2
    · exact h1
  rcases c with _ | _ | d | _ | _ | _ | _ | _ | _
  · dsimp only [WinCall.run]
    split
    · rename_i hc
      simp only [Bool.and_eq_true, Option.isNone_iff_eq_none] at hc
      have free : ∀ j, σ j = none := by
        intro j
        rcases hx : σ j with _ | ⟨d, g⟩
        · rfl
        · exact absurd ((h.lock j d g hx).symm.trans hc.2) nofun
      refine ⟨_, winInv_set h hi _ _ _ (ho.1 (free i)) (fun d g hd => by cases hd; rfl) (fun j _ hn => absurd (free j) hn) ?_ nofun
        (fun c hc => .inl hc)⟩
      intro hf
      rcases h.gone hf with e | ⟨j, d, e⟩
      · exact .inl e
      · exact absurd ((free j).symm.trans e) nofun
    · exact ⟨_, same _ ho.2⟩
  · exact ⟨_, same _ (both _ ho.2.1 ho.2.2)⟩
  · obtain ⟨d', hd, h1, h2⟩ := ho
    dsimp only [WinCall.run]
    split
    · have hn : σ i ≠ none := by rw [hd]; nofun
      refine ⟨_, winInv_set h hi _ _ _ h1 (fun d g hd' => ?_) (fun j hj hx => absurd (winAlone hn j hj) hx) ?_ nofun (fun c hc => .inl hc)⟩
      · cases hd'
        dsimp only
        rw [h.lock i _ _ hd]
        rfl
      · intro hf
        rcases h.gone hf with e | ⟨j, d, e⟩
        · exact .inl e
        · by_cases hj : j = i
          · rw [hj, hd] at e; cases e
          · exact absurd ((winAlone hn j hj).symm.trans e) nofun
    · exact ⟨_, same _ h2⟩
  · exact ⟨_, same _ (both _ ho.1 ho.2)⟩
  · exact ⟨_, same _ (both _ ho.1 ho.2)⟩
  · obtain ⟨hw, d, g, hd, hc, h1, h2⟩ := ho
    dsimp only [WinCall.run]
    split
    · have hn : σ i ≠ none := by rw [hd]; nofun
      exact ⟨_, winInv_set h hi _ _ _ h1 (fun d' g' hd' => by cases hd'; exact h.lock i _ _ hd) (fun j hj hx => absurd (winAlone hn j hj) hx)
        (fun _ => .inr (.inl ⟨d, rfl⟩)) (fun d' hd' => by cases hd'; exact ⟨hc, hw, rfl⟩) nofun⟩
    · exact ⟨_, same _ h2⟩
  · obtain ⟨d, g, hd, hc, h1, h2⟩ := ho
    dsimp only [WinCall.run]
    split
    · have hn : σ i ≠ none := by rw [hd]; nofun
      refine ⟨_, winInv_set h hi _ _ _ h1 nofun (fun j hj hx => absurd (winAlone hn j hj) hx) ?_ nofun ?_⟩
      · intro hf
        exact absurd (hf.symm.trans (h.lock i _ _ hd)) nofun
      · intro c hc'
        have := (h.lock i _ _ hd).symm.trans hc'
        cases this
        exact .inr hc
    · exact ⟨_, same _ h2⟩
  · exact ⟨_, same _ (both _ ho.1 ho.2)⟩
  · obtain ⟨d, hd, h1, h2⟩ := ho
    dsimp only [WinCall.run]
    split
    · have hn : σ i ≠ none := by rw [hd]; nofun
      refine ⟨_, winInv_set h hi _ _ _ h1 nofun (fun j hj hx => absurd (winAlone hn j hj) hx) ?_ nofun (fun c hc => .inl hc)⟩
      intro hf
      rcases h.gone hf with e | ⟨j, d, e⟩
      · exact .inl e
      · by_cases hj : j = i
        · rw [hj, hd] at e; cases e
        · exact absurd ((winAlone hn j hj).symm.trans e) nofun
    · exact ⟨_, same _ h2⟩

theorem winInv_run (sched : List (Nat × Bool)) : ∀ (s : WinSys α) (σ : Nat → Held), WinInv win C file0 Q s σ →
    ∃ σ', WinInv win C file0 Q (s.run win sched) σ' := by
  induction sched with
  | nil => exact fun s σ h => ⟨σ, h⟩
  | cons e l ih =>
    intro s σ h
    obtain ⟨σ', h'⟩ := winInv_step h e
    exact ih _ σ' h'
end

/-! ## `LockedFD` follows it -/

/-- The data of the writes among some calls. -/
def winPuts : List WinOp → List Bytes
  | [] => []
  | .put d :: ops => d :: winPuts ops
  | _ :: ops => winPuts ops

/-- Calls that opened the file for writing, and wrote `d`, in which only whole writes are missing. -/
def WinWritten (ops : List WinOp) (d : Bytes) : Prop := .open_ true ∈ ops ∧ ∃ parts : List Bytes, parts.Sublist (winPuts ops) ∧ d = parts.flatten

/-- Some use of a `LockedFD` wrote `d` and then called `commit`. -/
def WinCommits (uses : List (List WinOp)) (d : Bytes) : Prop :=
  ∃ ops ∈ uses, ∃ before after, ops = before ++ .commit :: after ∧ WinWritten before d

theorem winPuts_append (a b : List WinOp) : winPuts (a ++ b) = winPuts a ++ winPuts b := by
  induction a with
  | nil => rfl
  | cons op a ih => cases op <;> simp [winPuts, ih]

theorem winWritten_more {a : List WinOp} {d : Bytes} (h : WinWritten a d) (op : WinOp) : WinWritten (a ++ [op]) d := by
  obtain ⟨h1, parts, h2, h3⟩ := h
  refine ⟨List.mem_append_left _ h1, parts, ?_, h3⟩
  rw [winPuts_append]
  exact h2.trans (List.sublist_append_left _ _)

theorem winWritten_put {a : List WinOp} {d : Bytes} (h : WinWritten a d) (e : Bytes) : WinWritten (a ++ [.put e]) (d ++ e) := by
  obtain ⟨h1, parts, h2, h3⟩ := h
  refine ⟨List.mem_append_left _ h1, parts ++ [e], ?_, by rw [h3, List.flatten_append]; simp⟩
  rw [winPuts_append]
  exact List.Sublist.append h2 (List.Sublist.refl _)

theorem winWritten_open (a : List WinOp) : WinWritten (a ++ [.open_ true]) [] := ⟨by simp, [], List.nil_sublist _, rfl⟩

/-- What an object has, after some calls. -/
structure HasLock (before : List WinOp) (l : LockedFD) (h : Held) : Prop where
  closed : l.write = none → l.fd = false
  writing : l.fd = true → l.write = some true → ∃ d, h = some (d, false) ∧ WinWritten before d
  reading : l.fd = true → l.write = some false → ∃ d, h = some (d, false)

theorem hasLock_closed (before : List WinOp) (w : Option Bool) (h : Held) : HasLock before ⟨false, w⟩ h := ⟨fun _ => rfl, nofun, nofun⟩

theorem hasLock_more {before : List WinOp} {l : LockedFD} {h : Held} (hl : HasLock before l h) (op : WinOp) : HasLock (before ++ [op]) l h :=
  ⟨hl.closed, fun h1 h2 => by obtain ⟨d, e, hd⟩ := hl.writing h1 h2; exact ⟨d, e, winWritten_more hd op⟩, hl.reading⟩

section
variable {win : Bool} {C : Bytes → Prop}

theorem obeys_removeLock (d : Bytes) : ∀ n, Obeys win C (fun _ _ => True) (retryCall .removeLock n) (some (d, false))
  | 0 => ⟨d, rfl, trivial, trivial⟩
  | n + 1 => ⟨d, rfl, trivial, obeys_removeLock d n⟩

theorem obeys_removeFile (hw : win = true) {d : Bytes} (hc : C d) (g : Bool) : ∀ n,
    Obeys win C (fun _ h => ∃ g, h = some (d, g)) (retryCall .removeFile n) (some (d, g))
  | 0 => ⟨hw, d, g, rfl, hc, ⟨_, rfl⟩, ⟨_, rfl⟩⟩
  | n + 1 => ⟨hw, d, g, rfl, hc, ⟨_, rfl⟩, obeys_removeFile hw hc g n⟩

theorem obeys_rename {before : List WinOp} {w : Option Bool} {d : Bytes} (hc : C d) (g : Bool) :
    Obeys win C (fun r h => HasLock before r.1 h) (winRename ⟨false, w⟩) (some (d, g)) :=
  ⟨d, g, rfl, hc, ⟨hasLock_closed .., hasLock_closed ..⟩, hasLock_closed ..⟩

theorem obeys_end {before : List WinOp} {l : LockedFD} {h : Held} (hl : HasLock before l h) (successful : Bool)
    (hc : successful = true → ∀ d, WinWritten before d → C d) : Obeys win C (fun r h => HasLock before r.1 h) (winEnd win successful l) h := by
  unfold winEnd
  rcases hw : l.write with _ | w
  · exact hl
  dsimp only
  rcases hf : l.fd with _ | _
  · exact hl
  refine ⟨?_, hl⟩
  by_cases hs : (w && successful) = true
  · rw [Bool.and_eq_true] at hs
    obtain ⟨d, rfl, hd⟩ := hl.writing hf (by rw [hw, hs.1])
    have hcd := hc hs.2 d hd
    simp only [hs.1, hs.2, Bool.and_self, if_true, Bool.not_true]
    by_cases hwin : win = true
    · rw [if_pos hwin]
      refine ⟨?_, obeys_rename hcd _⟩
      simp only [if_true]
      refine obeys_bind _ ?_ _ _ (obeys_removeFile hwin hcd false _)
      rintro b h ⟨g, rfl⟩
      cases b
      · exact hasLock_closed ..
      · exact obeys_rename hcd _
    · rw [if_neg hwin]
      exact obeys_rename hcd _
  · have hs' : (w && successful) = false := by simpa using hs
    simp only [hs', Bool.not_true, Bool.false_eq_true, if_false]
    have : ∃ d, h = some (d, false) := by
      cases w
      · exact hl.reading hf hw
      · obtain ⟨d, hd, -⟩ := hl.writing hf hw; exact ⟨d, hd⟩
    obtain ⟨d, rfl⟩ := this
    refine obeys_bind _ ?_ _ _ (obeys_removeLock d _)
    intro b h _
    exact hasLock_closed ..

theorem obeys_op {before : List WinOp} {l : LockedFD} {h : Held} (hl : HasLock before l h) (op : WinOp)
    (hc : op = .commit → ∀ d, WinWritten before d → C d) :
    Obeys win C (fun r h => HasLock (before ++ [op]) r.1 h) (winOp win l op) h := by
  have more : ∀ (t : WinAct (LockedFD × Res Unit)), Obeys win C (fun r h => HasLock before r.1 h) t h →
      Obeys win C (fun r h => HasLock (before ++ [op]) r.1 h) (t.bind .ret) h :=
    fun t ht => by
      refine obeys_bind _ ?_ t h ht
      intro a h ha
      exact hasLock_more ha op
  have bindRet : ∀ t : WinAct (LockedFD × Res Unit), t.bind .ret = t := by
    intro t
    induction t with
    | ret a => rfl
    | sys c k ih => simp only [WinAct.bind, ih]
  simp only [bindRet] at more
  rcases op with write | d | _ | _ | _
  · unfold winOp winOpen
    rcases hw : l.write with _ | w
    · have hf := hl.closed hw
      refine ⟨?_, by rw [hf]; exact hasLock_closed ..⟩
      rintro rfl
      cases write
      · refine ⟨⟨⟨_, rfl⟩, ?_, ?_⟩, by rw [hf]; exact hasLock_closed ..⟩
        · exact ⟨nofun, nofun, fun _ _ => ⟨_, rfl⟩⟩
        · refine obeys_bind _ (fun b h _ => ?_) _ _ (obeys_removeLock [] _)
          rw [hf]
          exact hasLock_closed ..
      · exact ⟨nofun, fun _ _ => ⟨_, rfl, winWritten_open before⟩, nofun⟩
    · exact hasLock_more hl _
  · unfold winOp
    rcases hf : l.fd with _ | _
    · exact hasLock_more hl _
    · dsimp only [Bool.not_true, Bool.false_eq_true, if_false]
      by_cases hw : l.write = some true
      · simp only [hw, if_true, Bool.false_eq_true, if_false]
        obtain ⟨x, rfl, hx⟩ := hl.writing hf hw
        refine ⟨x, rfl, ?_, hasLock_more hl _⟩
        exact ⟨hl.closed, fun _ _ => ⟨_, rfl, winWritten_put hx d⟩, fun _ h2 => absurd (hw.symm.trans h2) (by decide)⟩
      · simp only [hw, if_false, Bool.false_eq_true]
        exact hasLock_more hl _
  · exact more _ (obeys_end hl true fun _ => hc rfl)
  · exact more _ (obeys_end hl false nofun)
  · unfold winOp
    by_cases hf : l.fd = true
    · rw [if_pos hf]
      refine obeys_bind _ ?_ _ _ (obeys_end hl false nofun)
      intro a h ha
      exact hasLock_more ha _
    · rw [if_neg hf]
      exact hasLock_more hl _

theorem obeys_use (all : List WinOp) (hC : ∀ before after d, all = before ++ .commit :: after → WinWritten before d → C d) :
    ∀ (ops before : List WinOp) (l : LockedFD) (h : Held), all = before ++ ops → HasLock before l h →
      Obeys win C (fun _ _ => True) (winUse win l ops) h
  | [], _, _, _, _, _ => trivial
  | op :: ops, before, l, h, e, hl => by
    refine obeys_bind _ (fun r h hr => ?_) _ _ (obeys_op hl op fun ho d hd => hC before ops d (by rw [e, ho]) hd)
    refine obeys_bind (Q := fun _ _ => True) _ (fun _ _ _ => ?_) _ _ ?_
    · exact trivial
    exact (obeys_use all hC ops (before ++ [op]) r.1 h (by rw [e]; simp) hr)

theorem obeys_process (uses : List (List WinOp)) : ∀ (l : List (List WinOp)) (h : Held), (∀ ops ∈ l, ops ∈ uses) →
    Obeys win (WinCommits uses) (fun _ _ => True) (winProcess win l) h
  | [], _, _ => trivial
  | ops :: l, h, hl => by
    refine obeys_bind _ (fun r h _ => ?_) _ _ (obeys_use (C := WinCommits uses) ops
      (fun before after d e hd => ⟨ops, hl ops (by simp), before, after, e, hd⟩) ops [] .init h rfl (hasLock_closed ..))
    refine obeys_bind (Q := fun _ _ => True) _ (fun _ _ _ => ?_) _ _ ?_
    · exact trivial
    exact (obeys_process uses l h fun o ho => hl o (by simp [ho]))
end

/-! ## Any number of processes -/

/-- Processes, and a file that was `file0` before; nobody has the lock. -/
def winSystem (win : Bool) (file0 : Option Bytes) (procs : List (List (List WinOp))) : WinSys (List (List (Res Unit))) :=
  ⟨⟨file0, none⟩, procs.map (winProcess win)⟩

theorem winSystem_inv (win : Bool) (file0 : Option Bytes) (procs : List (List (List WinOp))) (sched : List (Nat × Bool)) :
    ∃ σ, WinInv win (fun i d => ∃ uses, procs[i]? = some uses ∧ WinCommits uses d) file0 (fun _ _ _ => True)
      ((winSystem win file0 procs).run win sched) σ := by
  refine winInv_run sched _ (fun _ => none) ⟨?_, fun _ _ => rfl, nofun, fun i j h => absurd rfl h, fun h => .inl h, nofun, fun c h => .inl h⟩
  intro i t ht
  dsimp only [winSystem] at ht
  rw [List.getElem?_map] at ht
  rcases hi : procs[i]? with _ | uses
  · rw [hi] at ht; cases ht
  · rw [hi] at ht
    cases ht
    have := obeys_process (win := win) uses uses none fun _ h => h
    have weaken : ∀ {α : Type} (t : WinAct α) (h : Held) (C C' : Bytes → Prop) (Q : α → Held → Prop), (∀ d, C d → C' d) → Obeys win C Q t h → Obeys win C' Q t h := by
      intro α t h C C' Q hC ht
      induction t generalizing h with
      | ret a => exact ht
      | sys c k ih =>
        rcases c with _ | _ | d | _ | _ | _ | _ | _ | _
        · exact ⟨fun e => ih _ _ (ht.1 e), ih _ _ ht.2⟩
        · exact ⟨ht.1, ih _ _ ht.2.1, ih _ _ ht.2.2⟩
        · obtain ⟨d, h0, h1, h2⟩ := ht
          exact ⟨d, h0, ih _ _ h1, ih _ _ h2⟩
        · exact ⟨ih _ _ ht.1, ih _ _ ht.2⟩
        · exact ⟨ih _ _ ht.1, ih _ _ ht.2⟩
        · obtain ⟨hw, d, g, h0, hc, h1, h2⟩ := ht
          exact ⟨hw, d, g, h0, hC d hc, ih _ _ h1, ih _ _ h2⟩
        · obtain ⟨d, g, h0, hc, h1, h2⟩ := ht
          exact ⟨d, g, h0, hC d hc, ih _ _ h1, ih _ _ h2⟩
        · exact ⟨ih _ _ ht.1, ih _ _ ht.2⟩
        · obtain ⟨d, h0, h1, h2⟩ := ht
          exact ⟨d, h0, ih _ _ h1, ih _ _ h2⟩
    exact weaken _ _ _ _ _ (fun d hd => ⟨uses, rfl, hd⟩) this

/-- Some process committed `d`. -/
def SomeCommits (procs : List (List (List WinOp))) (d : Bytes) : Prop := ∃ uses ∈ procs, WinCommits uses d

/-- C111: processes using `LockedFD`s on one path, on Windows or elsewhere, with calls failing anywhere and processes stopping anywhere.  The file has
its old content or that of a commit, or it did not exist before, or, on Windows only, it is missing and the lock file has the content of a commit. -/
theorem C111_content (win : Bool) (file0 : Option Bytes) (procs : List (List (List WinOp))) (sched : List (Nat × Bool)) (w : WinDisk)
    (hw : ((winSystem win file0 procs).run win sched).disk = w) :
    (∃ c, w.file = some c ∧ (file0 = some c ∨ SomeCommits procs c)) ∨ (w.file = none ∧ file0 = none) ∨
      (win = true ∧ w.file = none ∧ ∃ d, w.lock = some d ∧ SomeCommits procs d) := by
  obtain ⟨σ, h⟩ := winSystem_inv win file0 procs sched
  have get : ∀ {i : Nat} {d : Bytes}, (∃ uses, procs[i]? = some uses ∧ WinCommits uses d) → SomeCommits procs d :=
    fun ⟨uses, hu, hd⟩ => ⟨uses, List.mem_of_getElem? hu, hd⟩
  have h1 := h.gone
  have h2 := h.content
  have h3 := h.removed
  have h4 := h.lock
  rw [hw] at h1 h2 h3 h4
  rcases hf : w.file with _ | c
  · rcases h1 hf with e | ⟨i, d, e⟩
    · exact .inr (.inl ⟨rfl, e⟩)
    · obtain ⟨a, b, -⟩ := h3 i d e
      exact .inr (.inr ⟨b, rfl, d, h4 i d _ e, get a⟩)
  · refine .inl ⟨c, rfl, ?_⟩
    rcases h2 c hf with e | ⟨i, -, e⟩
    · exact .inl e
    · exact .inr (get e)

/-- Calls that need the lock. -/
def NeedsLock : WinCall → Prop
  | .openFile | .append _ | .removeFile | .rename | .removeLock => True
  | _ => False

theorem obeys_needs {win : Bool} {C : Bytes → Prop} {α : Type} {Q : α → Held → Prop} {c : WinCall} {k : Bool → WinAct α} {h : Held}
    (ho : Obeys win C Q (.sys c k) h) (hn : NeedsLock c) : h ≠ none := by
  rcases c with _ | _ | d | _ | _ | _ | _ | _ | _
  · exact hn.elim
  · obtain ⟨⟨d, rfl⟩, -⟩ := ho; nofun
  · obtain ⟨d, rfl, -⟩ := ho; nofun
  · exact hn.elim
  · exact hn.elim
  · obtain ⟨-, d, g, rfl, -⟩ := ho; nofun
  · obtain ⟨d, g, rfl, -⟩ := ho; nofun
  · exact hn.elim
  · obtain ⟨d, rfl, -⟩ := ho; nofun

/-- C111: no two processes are about to read, write, remove or replace the file, or to release the lock. -/
theorem C111_exclusive (win : Bool) (file0 : Option Bytes) (procs : List (List (List WinOp))) (sched : List (Nat × Bool)) (i j : Nat) (c c' : WinCall) (k k')
    (hi : ((winSystem win file0 procs).run win sched).procs[i]? = some (.sys c k)) (hc : NeedsLock c)
    (hj : ((winSystem win file0 procs).run win sched).procs[j]? = some (.sys c' k')) (hc' : NeedsLock c') : i = j := by
  obtain ⟨σ, h⟩ := winSystem_inv win file0 procs sched
  exact h.one i j (obeys_needs (h.obeys i _ hi) hc) (obeys_needs (h.obeys j _ hj) hc')

/-- C111: that the file is missing for some time on Windows is not seen by readers that use `LockedFD`: when one of them opens the file, it exists. -/
theorem C111_readers (win : Bool) (old : Bytes) (procs : List (List (List WinOp))) (sched : List (Nat × Bool)) (i : Nat) (k)
    (hi : ((winSystem win (some old) procs).run win sched).procs[i]? = some (.sys .openFile k)) :
    ∃ c, ((winSystem win (some old) procs).run win sched).disk.file = some c ∧ (c = old ∨ SomeCommits procs c) := by
  obtain ⟨σ, h⟩ := winSystem_inv win (some old) procs sched
  obtain ⟨⟨d, hd⟩, -⟩ := h.obeys i _ hi
  rcases C111_content win (some old) procs sched _ rfl with ⟨c, hc, e⟩ | ⟨-, e⟩ | ⟨-, hf, -⟩
  · exact ⟨c, hc, e.imp (fun e => by cases e; rfl) id⟩
  · cases e
  · rcases h.gone hf with e | ⟨j, d', e⟩
    · cases e
    · have := h.one i j (by rw [hd]; nofun) (by rw [e]; nofun)
      rw [← this, hd] at e
      cases e

/-- Nobody has the lock, though there is a lock file: every process is at a point where it obeys without having anything. -/
def AllIdle (win : Bool) (s : WinSys (List (List (Res Unit)))) : Prop :=
  ∀ (i : Nat) t, s.procs[i]? = some t → ∃ C, Obeys win C (fun _ _ => True) t none

theorem allIdle_step {win : Bool} {s : WinSys (List (List (Res Unit)))} (h : AllIdle win s) (hl : s.disk.lock.isSome = true) (e : Nat × Bool) :
    (s.step win e).disk = s.disk ∧ AllIdle win (s.step win e) := by
  unfold WinSys.step
  rcases hi : s.procs[e.1]? with _ | t | ⟨c, k⟩
  · exact ⟨rfl, h⟩
  · exact ⟨rfl, h⟩
  dsimp only
  obtain ⟨C, ho⟩ := h e.1 _ hi
  have next : ∀ b, Obeys win C (fun _ _ => True) (k b) none → AllIdle win ⟨s.disk, s.procs.set e.1 (k b)⟩ := by
    intro b hb j u hu
    dsimp only at hu
    rw [List.getElem?_set] at hu
    split at hu
    · split at hu
      · cases hu; exact ⟨C, hb⟩
      · cases hu
    · exact h j u hu
  have hn : ¬ NeedsLock c := fun hc => obeys_needs ho hc rfl
  have both : ∀ b, Obeys win C (fun _ _ => True) (k true) none ∧ Obeys win C (fun _ _ => True) (k false) none → Obeys win C (fun _ _ => True) (k b) none := by
    intro b hb
    cases b
    · exact hb.2
    · exact hb.1
  rcases c with _ | _ | d | _ | _ | _ | _ | _ | _
  · have : WinCall.run win e.2 s.disk .createLock = (s.disk, false) := by
      unfold WinCall.run
      rw [if_neg]
      rw [Option.isNone_eq_false_iff.2 hl]
      simp
    rw [this]
    exact ⟨rfl, next _ ho.2⟩
  · exact (hn trivial).elim
  · exact (hn trivial).elim
  · exact ⟨rfl, next _ (both _ ho)⟩
  · exact ⟨rfl, next _ (both _ ho)⟩
  · exact (hn trivial).elim
  · exact (hn trivial).elim
  · exact ⟨rfl, next _ (both _ ho)⟩
  · exact (hn trivial).elim

/-- C111: when a lock file is left behind, by a crash say, no process gets the lock, nothing on the disk changes, and nobody removes the lock file. -/
theorem C111_stale (win : Bool) (file0 : Option Bytes) (d : Bytes) (procs : List (List (List WinOp))) (sched : List (Nat × Bool))
    (s : WinSys (List (List (Res Unit)))) (hs : s = (⟨⟨file0, some d⟩, procs.map (winProcess win)⟩ : WinSys _).run win sched) :
    s.disk = ⟨file0, some d⟩ ∧ ∀ (i : Nat) c k, s.procs[i]? = some (.sys c k) → ¬ NeedsLock c := by
  have start : AllIdle win ⟨⟨file0, some d⟩, procs.map (winProcess win)⟩ := by
    intro i t ht
    dsimp only at ht
    rw [List.getElem?_map] at ht
    rcases hi : procs[i]? with _ | uses
    · rw [hi] at ht; cases ht
    · rw [hi] at ht
      cases ht
      exact ⟨_, obeys_process uses uses none fun _ h => h⟩
  have go : ∀ (sched : List (Nat × Bool)) (s : WinSys (List (List (Res Unit)))), s.disk = ⟨file0, some d⟩ → AllIdle win s →
      (s.run win sched).disk = ⟨file0, some d⟩ ∧ AllIdle win (s.run win sched) := by
    intro sched
    induction sched with
    | nil => exact fun s h1 h2 => ⟨h1, h2⟩
    | cons e l ih =>
      intro s h1 h2
      obtain ⟨h3, h4⟩ := allIdle_step h2 (by rw [h1]; rfl) e
      exact ih _ (h3.trans h1) h4
  obtain ⟨h1, h2⟩ := go sched _ rfl start
  subst hs
  refine ⟨h1, fun i c k hi hn => ?_⟩
  obtain ⟨C, ho⟩ := h2 i _ hi
  exact obeys_needs ho hn rfl

/-! ## One process alone -/

/-- What a program does when it runs alone and the calls that are not among `ok` fail. -/
def winAlone (win : Bool) (ok : WinCall → Bool) {α : Type} (w : WinDisk) : WinAct α → WinDisk × α
  | .ret a => (w, a)
  | .sys c k => winAlone win ok (c.run win (ok c) w).1 (k (c.run win (ok c) w).2)

theorem winAlone_bind (win : Bool) (ok : WinCall → Bool) {α β : Type} (f : α → WinAct β) (t : WinAct α) : ∀ w,
    winAlone win ok w (t.bind f) = winAlone win ok (winAlone win ok w t).1 (f (winAlone win ok w t).2) := by
  induction t with
  | ret a => exact fun w => rfl
  | sys c k ih => exact fun w => ih _ _

theorem winAlone_run (win : Bool) (ok : WinCall → Bool) {α : Type} (t : WinAct α) : ∀ w, ∃ sched : List (Nat × Bool),
    (⟨w, [t]⟩ : WinSys α).run win sched = ⟨(winAlone win ok w t).1, [.ret (winAlone win ok w t).2]⟩ ∧ ((∀ c, ok c = true) → ∀ e ∈ sched, e = (0, true)) := by
  induction t with
  | ret a => exact fun w => ⟨[], rfl, nofun⟩
  | sys c k ih =>
    intro w
    obtain ⟨l, hl, h2⟩ := ih (c.run win (ok c) w).2 (c.run win (ok c) w).1
    refine ⟨(0, ok c) :: l, hl, fun hok e he => ?_⟩
    rcases List.mem_cons.1 he with rfl | he
    · rw [hok]
    · exact h2 hok e he

theorem winAlone_puts (win : Bool) (ok : WinCall → Bool) (hok : ∀ d, ok (.append d) = true) (f : Option Bytes) (rest : List WinOp) :
    ∀ (parts : List Bytes) (x : Bytes), winAlone win ok ⟨f, some x⟩ (winUse win ⟨true, some true⟩ (parts.map .put ++ rest)) =
      ((winAlone win ok ⟨f, some (x ++ parts.flatten)⟩ (winUse win ⟨true, some true⟩ rest)).1,
        List.replicate parts.length (.ok ()) ++ (winAlone win ok ⟨f, some (x ++ parts.flatten)⟩ (winUse win ⟨true, some true⟩ rest)).2)
  | [], x => by simp
  | d :: parts, x => by
    have h1 : winAlone win ok ⟨f, some x⟩ (winOp win ⟨true, some true⟩ (.put d)) = (⟨f, some (x ++ d)⟩, (⟨true, some true⟩, .ok ())) := by
      simp [winOp, winAlone, WinCall.run, hok]
    rw [List.map_cons, List.cons_append, winUse, winAlone_bind, h1]
    dsimp only
    rw [winAlone_bind, winAlone_puts win ok hok f rest parts]
    simp [winAlone, List.replicate_succ]

/-- The calls of a caller that writes and commits, and then lets the object go. -/
def winWriting (parts : List Bytes) : List WinOp := .open_ true :: (parts.map .put ++ [.commit, .drop])

/-- C111: without failures a commit replaces the file and releases the lock, on both platforms, whether the file existed or not. -/
theorem C111_commit (win : Bool) (file0 : Option Bytes) (parts : List Bytes) : ∃ sched : List (Nat × Bool), (∀ e ∈ sched, e = (0, true)) ∧
    (winSystem win file0 [[winWriting parts]]).run win sched =
      ⟨⟨some parts.flatten, none⟩, [.ret [.ok () :: (List.replicate parts.length (.ok ()) ++ [.ok (), .ok ()])]]⟩ := by
  obtain ⟨sched, h1, h2⟩ := winAlone_run win (fun _ => true) (winProcess win [winWriting parts]) ⟨file0, none⟩
  refine ⟨sched, h2 fun _ => rfl, h1.trans ?_⟩
  have ho : winAlone win (fun _ => true) ⟨file0, none⟩ (winOp win .init (.open_ true)) = (⟨file0, some []⟩, (⟨true, some true⟩, .ok ())) := rfl
  have hc : winAlone win (fun _ => true) ⟨file0, some parts.flatten⟩ (winUse win ⟨true, some true⟩ [.commit, .drop]) = (⟨some parts.flatten, none⟩, [.ok (), .ok ()]) := by
    cases win <;> cases file0 <;>
      simp [winUse, winOp, winEnd, winRename, winAlone, WinAct.bind, WinCall.run, winRemove, retryCall]
  have hall : winAlone win (fun _ => true) ⟨file0, none⟩ (winUse win .init (winWriting parts)) =
      (⟨some parts.flatten, none⟩, .ok () :: (List.replicate parts.length (.ok ()) ++ [.ok (), .ok ()])) := by
    rw [winWriting, winUse, winAlone_bind, ho]
    dsimp only
    rw [winAlone_bind, winAlone_puts win _ (fun _ => rfl)]
    simp only [List.nil_append, hc, winAlone]
  simp only [winProcess, winAlone_bind, hall, winAlone]

/-- C111: on Windows, when the file cannot be replaced after it was removed, `commit` raises `OSError`, the file is gone and the data stays in the lock
file: dropping the object, which has no descriptor any more, changes nothing. -/
theorem C111_rename_fails (old : Bytes) (parts : List Bytes) : ∃ sched : List (Nat × Bool),
    (winSystem true (some old) [[winWriting parts]]).run true sched =
      ⟨⟨none, some parts.flatten⟩, [.ret [.ok () :: (List.replicate parts.length (.ok ()) ++ [.error .osError, .ok ()])]]⟩ := by
  obtain ⟨sched, h1, -⟩ := winAlone_run true (fun c => decide (c ≠ .rename)) (winProcess true [winWriting parts]) ⟨some old, none⟩
  refine ⟨sched, h1.trans ?_⟩
  have ho : winAlone true (fun c => decide (c ≠ .rename)) ⟨some old, none⟩ (winOp true .init (.open_ true)) = (⟨some old, some []⟩, (⟨true, some true⟩, .ok ())) := rfl
  have hc : winAlone true (fun c => decide (c ≠ .rename)) ⟨some old, some parts.flatten⟩ (winUse true ⟨true, some true⟩ [.commit, .drop]) =
      (⟨none, some parts.flatten⟩, [.error .osError, .ok ()]) := by
    simp [winUse, winOp, winEnd, winRename, winAlone, WinAct.bind, WinCall.run, winRemove, retryCall]
  have hall : winAlone true (fun c => decide (c ≠ .rename)) ⟨some old, none⟩ (winUse true .init (winWriting parts)) =
      (⟨none, some parts.flatten⟩, .ok () :: (List.replicate parts.length (.ok ()) ++ [.error .osError, .ok ()])) := by
    rw [winWriting, winUse, winAlone_bind, ho]
    dsimp only
    rw [winAlone_bind, winAlone_puts true _ (fun _ => by simp)]
    simp only [List.nil_append, hc, winAlone]
  simp only [winProcess, winAlone_bind, hall, winAlone]

/-- C111: elsewhere the same failure leaves the old file in place; the data stays in the lock file as well. -/
theorem C111_rename_fails_posix (old : Bytes) (parts : List Bytes) : ∃ sched : List (Nat × Bool),
    (winSystem false (some old) [[winWriting parts]]).run false sched =
      ⟨⟨some old, some parts.flatten⟩, [.ret [.ok () :: (List.replicate parts.length (.ok ()) ++ [.error .osError, .ok ()])]]⟩ := by
  obtain ⟨sched, h1, -⟩ := winAlone_run false (fun c => decide (c ≠ .rename)) (winProcess false [winWriting parts]) ⟨some old, none⟩
  refine ⟨sched, h1.trans ?_⟩
  have ho : winAlone false (fun c => decide (c ≠ .rename)) ⟨some old, none⟩ (winOp false .init (.open_ true)) = (⟨some old, some []⟩, (⟨true, some true⟩, .ok ())) := rfl
  have hc : winAlone false (fun c => decide (c ≠ .rename)) ⟨some old, some parts.flatten⟩ (winUse false ⟨true, some true⟩ [.commit, .drop]) =
      (⟨some old, some parts.flatten⟩, [.error .osError, .ok ()]) := by
    simp [winUse, winOp, winEnd, winRename, winAlone, WinAct.bind, WinCall.run]
  have hall : winAlone false (fun c => decide (c ≠ .rename)) ⟨some old, none⟩ (winUse false .init (winWriting parts)) =
      (⟨some old, some parts.flatten⟩, .ok () :: (List.replicate parts.length (.ok ()) ++ [.error .osError, .ok ()])) := by
    rw [winWriting, winUse, winAlone_bind, ho]
    dsimp only
    rw [winAlone_bind, winAlone_puts false _ (fun _ => by simp)]
    simp only [List.nil_append, hc, winAlone]
  simp only [winProcess, winAlone_bind, hall, winAlone]

/-- What happens when a removal fails `k` times and then works. -/
theorem retry_run (win : Bool) (c : WinCall) (w w' : WinDisk) (hf : c.run win false w = (w, false)) (ht : c.run win true w = (w', true)) :
    ∀ k n, k ≤ n → (⟨w, [retryCall c n]⟩ : WinSys Bool).run win (List.replicate k (0, false) ++ [(0, true)]) = ⟨w', [.ret true]⟩
  | 0, 0, _ => by simp [WinSys.run, WinSys.step, retryCall, ht]
  | 0, n + 1, _ => by simp [WinSys.run, WinSys.step, retryCall, ht]
  | k + 1, n + 1, h => by
    have := retry_run win c w w' hf ht k n (by omega)
    rw [List.replicate_succ, List.cons_append]
    rw [← this]
    simp [WinSys.run, WinSys.step, retryCall, hf]

theorem retry_fail (win : Bool) (c : WinCall) (w : WinDisk) (hf : c.run win false w = (w, false)) :
    ∀ n, (⟨w, [retryCall c n]⟩ : WinSys Bool).run win (List.replicate (n + 1) (0, false)) = ⟨w, [.ret false]⟩
  | 0 => by simp [WinSys.run, WinSys.step, retryCall, hf]
  | n + 1 => by
    rw [List.replicate_succ, ← retry_fail win c w hf n]
    simp [WinSys.run, WinSys.step, retryCall, hf]

/-- C111: on Windows a removal that fails up to ten times is made again; after eleven failures it is given up, with nothing changed. -/
theorem C111_retry (f l : Bytes) :
    (∀ k ≤ 10, (⟨⟨some f, some l⟩, [winRemove true .removeFile]⟩ : WinSys Bool).run true (List.replicate k (0, false) ++ [(0, true)]) = ⟨⟨none, some l⟩, [.ret true]⟩) ∧
    (∀ k ≤ 10, (⟨⟨some f, some l⟩, [winRemove true .removeLock]⟩ : WinSys Bool).run true (List.replicate k (0, false) ++ [(0, true)]) = ⟨⟨some f, none⟩, [.ret true]⟩) ∧
    (⟨⟨some f, some l⟩, [winRemove true .removeFile]⟩ : WinSys Bool).run true (List.replicate 11 (0, false)) = ⟨⟨some f, some l⟩, [.ret false]⟩ ∧
    (⟨⟨some f, some l⟩, [winRemove true .removeLock]⟩ : WinSys Bool).run true (List.replicate 11 (0, false)) = ⟨⟨some f, some l⟩, [.ret false]⟩ :=
  ⟨fun k hk => retry_run _ _ _ _ rfl rfl k 10 hk, fun k hk => retry_run _ _ _ _ rfl rfl k 10 hk, retry_fail _ _ _ rfl 10, retry_fail _ _ _ rfl 10⟩

/-- C111: elsewhere the first failure is final. -/
theorem C111_no_retry (f l : Bytes) (k : Nat) :
    (⟨⟨some f, some l⟩, [winRemove false .removeLock]⟩ : WinSys Bool).run false ((0, false) :: List.replicate k (0, true)) = ⟨⟨some f, some l⟩, [.ret false]⟩ := by
  have : ∀ (s : WinSys Bool), s.procs = [.ret false] → s.run false (List.replicate k (0, true)) = s := by
    intro s hs
    induction k with
    | zero => rfl
    | succ k ih => rw [List.replicate_succ]; show WinSys.run false (s.step false (0, true)) _ = s; rw [show s.step false (0, true) = s by simp [WinSys.step, hs]]; exact ih
  exact this ⟨⟨some f, some l⟩, [.ret false]⟩ rfl

/-! ## Examples -/

/-- Windows, with a writer and a reader: the writer is stopped after it removed the file; the reader cannot get the lock, and the data is in the lock file. -/
example : ((winSystem true (some [1]) [[winWriting [[2], [3]]], [[.open_ false, .rollback]]]).run true
    (List.replicate 6 (0, true) ++ List.replicate 5 (1, true))).disk = ⟨none, some [2, 3]⟩ := by decide

/-- The reader first: it keeps the lock while the writer fails; then the writer's file is what it was. -/
example : ((winSystem true (some [1]) [[winWriting [[2], [3]]], [[.open_ false, .rollback]]]).run true
    (List.replicate 3 (1, true) ++ List.replicate 6 (0, true) ++ List.replicate 5 (1, true))).disk = ⟨some [1], none⟩ := by decide

/-- Ten failures to remove the file on Windows, and the commit still ends well. -/
example : ((winSystem true (some [1]) [[winWriting [[2]]]]).run true
    (List.replicate 4 (0, true) ++ List.replicate 10 (0, false) ++ List.replicate 3 (0, true))).disk = ⟨some [2], none⟩ := by decide

/-- `[2, 3]` is something the writer may commit. -/
example : WinCommits [winWriting [[2], [3]]] [2, 3] :=
  ⟨_, List.mem_singleton.2 rfl, [.open_ true, .put [2], .put [3]], [.drop], rfl, by decide, [[2], [3]], List.Sublist.refl _, rfl⟩

/-- After `rollback` nothing is committed. -/
example : ¬ WinCommits [[.open_ true, .put [2], .put [3], .rollback]] [2, 3] := by
  rintro ⟨ops, ho, before, after, e, -⟩
  rw [List.mem_singleton] at ho
  subst ho
  have : WinOp.commit ∈ [WinOp.open_ true, .put [2], .put [3], .rollback] := by rw [e]; simp
  exact absurd this (by decide)

end GitDB.Props
