import Verif.Props.CreateAgain
import Verif.Props.LockedFD
import Verif.Props.Loose
import Verif.Proofs.LooseRun
/-!
# C115: permissions of the files that are made

Files are made with mode 0600 and renamed; `store` and `commit` change the mode afterwards (0444 and 0644), `create` does not.
-/
set_option autoImplicit false

namespace GitDB

/-- System calls of a process that renames only files it created; `chm`: the modes it may set.  `made`: what it has created. -/
def ModeProg (chm : Path → Nat → Prop) : List Path → List Ev → Prop
  | _, [] => True
  | made, .create p :: es => (∀ m, ¬ chm p m) ∧ ModeProg chm (p :: made) es
  | made, .rename a _ :: es => a ∈ made ∧ ModeProg chm made es
  | made, .chmod p m :: es => chm p m ∧ ModeProg chm made es
  | made, .append _ _ :: es => ModeProg chm made es
  | made, .mkdir _ :: es => ModeProg chm made es
  | made, .isfile _ _ :: es => ModeProg chm made es
  | made, .remove _ :: es => ModeProg chm made es

theorem modeProg_mono {chm : Path → Nat → Prop} : ∀ {es : List Ev} {l l' : List Path}, (∀ x ∈ l, x ∈ l') → ModeProg chm l es → ModeProg chm l' es
  | [], _, _, _, _ => trivial
  | .create p :: es, l, l', h, hp => ⟨hp.1, modeProg_mono (fun x hx => by
      rcases List.mem_cons.1 hx with rfl | hx
      · exact List.mem_cons_self
      · exact List.mem_cons_of_mem _ (h x hx)) hp.2⟩
  | .rename _ _ :: es, _, _, h, hp => ⟨h _ hp.1, modeProg_mono h hp.2⟩
  | .chmod _ _ :: es, _, _, h, hp => ⟨hp.1, modeProg_mono h hp.2⟩
  | .append _ _ :: es, _, _, h, hp => modeProg_mono (es := es) h hp
  | .mkdir _ :: es, _, _, h, hp => modeProg_mono (es := es) h hp
  | .isfile _ _ :: es, _, _, h, hp => modeProg_mono (es := es) h hp
  | .remove _ :: es, _, _, h, hp => modeProg_mono (es := es) h hp

theorem modeProg_prefix {chm : Path → Nat → Prop} : ∀ {es fs : List Ev} {l : List Path}, ModeProg chm l (es ++ fs) → ModeProg chm l es
  | [], _, _, _ => trivial
  | .create _ :: es, _, _, hp => ⟨hp.1, modeProg_prefix (es := es) hp.2⟩
  | .rename _ _ :: es, _, _, hp => ⟨hp.1, modeProg_prefix (es := es) hp.2⟩
  | .chmod _ _ :: es, _, _, hp => ⟨hp.1, modeProg_prefix (es := es) hp.2⟩
  | .append _ _ :: es, _, _, hp => modeProg_prefix (es := es) hp
  | .mkdir _ :: es, _, _, hp => modeProg_prefix (es := es) hp
  | .isfile _ _ :: es, _, _, hp => modeProg_prefix (es := es) hp
  | .remove _ :: es, _, _, hp => modeProg_prefix (es := es) hp

theorem modeProg_appends {chm : Path → Nat → Prop} (p : Path) : ∀ (ds : List Bytes) {l : List Path} {es : List Ev}, ModeProg chm l es →
    ModeProg chm l (ds.map (.append p) ++ es)
  | [], _, _, h => h
  | _ :: ds, _, _, h => modeProg_appends p ds h

/-- Every file has mode 0600, one of the modes that are set, or the one it had; files made by a process have 0600. -/
structure ModeInv {ι : Type} (chm : Path → Nat → Prop) (fs0 : Fs) (made : ι → List Path) (s : Sys ι) : Prop where
  file : ∀ q d m, s.fs q = some (.file d m) → m = 0o600 ∨ chm q m ∨ ∃ d', fs0 q = some (.file d' m)
  own : ∀ i, ∀ p ∈ made i, (∀ m, ¬ chm p m) ∧ ∀ d m, s.fs p = some (.file d m) → m = 0o600
  prog : ∀ i, ModeProg chm (made i) (s.todo i)

theorem modeInv_step {ι : Type} [DecidableEq ι] {chm : Path → Nat → Prop} {fs0 : Fs} {made : ι → List Path} {s t : Sys ι} (h : ModeInv chm fs0 made s)
    (hs : Sys.Step s t) : ∃ made', ModeInv chm fs0 made' t := by
  obtain ⟨i, e, es, fs, hi, hf⟩ := hs
  have hp := h.prog i
  rw [hi] at hp
  -- the same set of own files, and modes that do not get worse
  have keep : ModeProg chm (made i) es → (∀ q d m, fs q = some (.file d m) → m = 0o600 ∨ (chm q m ∧ (chm q m → ∀ j, q ∉ made j)) ∨ ∃ d', s.fs q = some (.file d' m)) →
      ∃ made', ModeInv chm fs0 made' { todo := fun j => if j = i then es else s.todo j, fs := fs } := by
    intro h1 h2
    refine ⟨made, ⟨fun q d m hq => ?_, fun j p hj => ⟨(h.own j p hj).1, fun d m hq => ?_⟩, fun j => ?_⟩⟩
    · rcases h2 q d m hq with h3 | h3 | ⟨d', h3⟩
      · exact .inl h3
      · exact .inr (.inl h3.1)
      · exact h.file q d' m h3
    · rcases h2 p d m hq with h3 | h3 | ⟨d', h3⟩
      · exact h3
      · exact absurd h3.1 ((h.own j p hj).1 m)
      · exact (h.own j p hj).2 d' m h3
    · by_cases hj : j = i
      · subst hj; simpa using h1
      · simpa [hj] using h.prog j
  have notmade : ∀ q m, chm q m → ∀ j, q ∉ made j := fun q m hc j hj => (h.own j q hj).1 m hc
  cases e with
  | create p =>
    simp only [Fs.step] at hf
    split at hf <;> cases hf
    refine ⟨fun j => if j = i then p :: made j else made j, ⟨fun q d m hq => ?_, fun j p' hj => ?_, fun j => ?_⟩⟩
    · by_cases hqp : q = p
      · subst hqp
        dsimp only at hq
        rw [Fs.set_same] at hq
        cases hq
        exact .inl rfl
      · dsimp only at hq
        rw [Fs.set_other _ _ hqp] at hq
        exact h.file q d m hq
    · have own' : (∀ m, ¬ chm p' m) ∧ (p' = p ∨ ∀ d m, s.fs p' = some (.file d m) → m = 0o600) := by
        by_cases hji : j = i
        · subst hji
          simp only [if_pos] at hj
          rcases List.mem_cons.1 hj with rfl | hj
          · exact ⟨hp.1, .inl rfl⟩
          · exact ⟨(h.own j p' hj).1, .inr (h.own j p' hj).2⟩
        · simp only [if_neg hji] at hj
          exact ⟨(h.own j p' hj).1, .inr (h.own j p' hj).2⟩
      refine ⟨own'.1, fun d m hq => ?_⟩
      dsimp only at hq
      by_cases hqp : p' = p
      · subst hqp
        rw [Fs.set_same] at hq
        cases hq
        rfl
      · rw [Fs.set_other _ _ hqp] at hq
        exact (own'.2.resolve_left hqp) d m hq
    · by_cases hj : j = i
      · subst hj; simpa using hp.2
      · simpa [hj] using h.prog j
  | append p d =>
    simp only [Fs.step] at hf
    split at hf <;> cases hf
    rename_i c m hc
    refine keep hp fun q d' m' hq => ?_
    by_cases hqp : q = p
    · subst hqp
      rw [Fs.set_same] at hq
      cases hq
      exact .inr (.inr ⟨c, hc⟩)
    · rw [Fs.set_other _ _ hqp] at hq
      exact .inr (.inr ⟨d', hq⟩)
  | mkdir p =>
    simp only [Fs.step] at hf
    split at hf <;> cases hf
    · refine keep hp fun q d' m' hq => ?_
      by_cases hqp : q = p
      · subst hqp
        rw [Fs.set_same] at hq
        cases hq
      · rw [Fs.set_other _ _ hqp] at hq
        exact .inr (.inr ⟨d', hq⟩)
    · exact keep hp fun q d' m' hq => .inr (.inr ⟨d', hq⟩)
  | isfile p b =>
    simp only [Fs.step] at hf
    split at hf <;> cases hf
    · exact keep hp fun q d' m' hq => .inr (.inr ⟨d', hq⟩)
    · exact keep hp fun q d' m' hq => .inr (.inr ⟨d', hq⟩)
  | rename a b =>
    simp only [Fs.step] at hf
    split at hf
    · cases hf
    · rename_i _ c m hc _
      split at hf <;> cases hf
      have hm := (h.own i a hp.1).2 c m hc
      subst hm
      refine keep hp.2 fun q d' m' hq => ?_
      by_cases hqp : q = b
      · subst hqp
        rw [Fs.set_same] at hq
        cases hq
        exact .inl rfl
      · rw [Fs.set_other _ _ hqp] at hq
        by_cases hqa : q = a
        · subst hqa
          rw [Fs.set_same] at hq
          cases hq
        · rw [Fs.set_other _ _ hqa] at hq
          exact .inr (.inr ⟨d', hq⟩)
    · cases hf
  | remove p =>
    simp only [Fs.step] at hf
    split at hf <;> cases hf
    refine keep hp fun q d' m' hq => ?_
    by_cases hqp : q = p
    · subst hqp
      rw [Fs.set_same] at hq
      cases hq
    · rw [Fs.set_other _ _ hqp] at hq
      exact .inr (.inr ⟨d', hq⟩)
  | chmod p m =>
    simp only [Fs.step] at hf
    split at hf <;> cases hf
    refine keep hp.2 fun q d' m' hq => ?_
    by_cases hqp : q = p
    · subst hqp
      rw [Fs.set_same] at hq
      cases hq
      exact .inr (.inl ⟨hp.1, notmade _ _⟩)
    · rw [Fs.set_other _ _ hqp] at hq
      exact .inr (.inr ⟨d', hq⟩)

theorem modes_reach {ι : Type} [DecidableEq ι] {chm : Path → Nat → Prop} {s t : Sys ι} (h : ∀ i, ModeProg chm [] (s.todo i)) (hr : Sys.Reach s t) :
    ∀ q d m, t.fs q = some (.file d m) → m = 0o600 ∨ chm q m ∨ ∃ d', s.fs q = some (.file d' m) := by
  have : ∃ made, ModeInv chm s.fs made t := by
    induction hr with
    | refl => exact ⟨fun _ => [], ⟨fun q d m hq => .inr (.inr ⟨d, hq⟩), fun _ _ hx => absurd hx List.not_mem_nil, h⟩⟩
    | step _ h' ih =>
      obtain ⟨made, hi⟩ := ih
      exact modeInv_step hi h'
  obtain ⟨made, hi⟩ := this
  exact hi.file

/-! ## Who sets the mode at last -/

/-- A call that leaves the file at `q` alone, except for renaming another file to `q` or setting its mode to `m`. -/
def Careful (q : Path) (m : Nat) : Ev → Prop
  | .create p => p ≠ q
  | .append p _ => p ≠ q
  | .mkdir p => p ≠ q
  | .isfile _ _ => True
  | .rename a _ => a ≠ q
  | .remove p => p ≠ q
  | .chmod p m' => p = q → m' = m

/-- Each renaming to `q` is followed by setting the mode. -/
def SetsMode (q : Path) (m : Nat) : List Ev → Prop
  | [] => True
  | .rename _ b :: es => (b = q → .chmod q m ∈ es) ∧ SetsMode q m es
  | .create _ :: es => SetsMode q m es
  | .append _ _ :: es => SetsMode q m es
  | .mkdir _ :: es => SetsMode q m es
  | .isfile _ _ :: es => SetsMode q m es
  | .remove _ :: es => SetsMode q m es
  | .chmod _ _ :: es => SetsMode q m es

theorem setsMode_tail {q : Path} {m : Nat} {e : Ev} {es : List Ev} (h : SetsMode q m (e :: es)) : SetsMode q m es := by
  cases e <;> first | exact h.2 | exact h

/-- The mode is still to be set, or is right, or (`X`) nothing has happened. -/
structure LastInv {ι : Type} (q : Path) (m : Nat) (X : Prop) (fs0 : Fs) (s : Sys ι) : Prop where
  now : (∃ j, .chmod q m ∈ s.todo j) ∨ (∃ d, s.fs q = some (.file d m)) ∨ (X ∧ s.fs q = fs0 q)
  sets : ∀ j, SetsMode q m (s.todo j)
  careful : ∀ j, ∀ e ∈ s.todo j, Careful q m e

theorem lastInv_step {ι : Type} [DecidableEq ι] {q : Path} {m : Nat} {X : Prop} {fs0 : Fs} {s t : Sys ι} (h : LastInv q m X fs0 s) (hs : Sys.Step s t) :
    LastInv q m X fs0 t := by
  obtain ⟨i, e, es, fs, hi, hf⟩ := hs
  have hset := h.sets i
  rw [hi] at hset
  have hcar := h.careful i
  rw [hi] at hcar
  have hce := hcar e List.mem_cons_self
  refine ⟨?_, fun j => ?_, fun j => ?_⟩
  · -- either the file is as it was, or a call to set the mode is left, or it has just been set
    have key : (fs q = s.fs q ∧ e ≠ .chmod q m) ∨ .chmod q m ∈ es ∨ ∃ d, fs q = some (.file d m) := by
      cases e with
      | create p =>
        simp only [Fs.step] at hf
        split at hf <;> cases hf
        exact .inl ⟨Fs.set_other _ _ (Ne.symm hce), by simp⟩
      | append p d =>
        simp only [Fs.step] at hf
        split at hf <;> cases hf
        exact .inl ⟨Fs.set_other _ _ (Ne.symm hce), by simp⟩
      | mkdir p =>
        simp only [Fs.step] at hf
        split at hf <;> cases hf
        · exact .inl ⟨Fs.set_other _ _ (Ne.symm hce), by simp⟩
        · exact .inl ⟨rfl, by simp⟩
      | isfile p b =>
        simp only [Fs.step] at hf
        split at hf <;> cases hf <;> exact .inl ⟨rfl, by simp⟩
      | rename a b =>
        by_cases hb : b = q
        · exact .inr (.inl (hset.1 hb))
        simp only [Fs.step] at hf
        split at hf
        · cases hf
        · split at hf <;> cases hf
          refine .inl ⟨?_, by simp⟩
          rw [Fs.set_other _ _ (Ne.symm hb), Fs.set_other _ _ (Ne.symm hce)]
        · cases hf
      | remove p =>
        simp only [Fs.step] at hf
        split at hf <;> cases hf
        exact .inl ⟨Fs.set_other _ _ (Ne.symm hce), by simp⟩
      | chmod p m' =>
        simp only [Fs.step] at hf
        split at hf <;> cases hf
        rename_i c _ _
        by_cases hp : p = q
        · have := hce hp
          subst this hp
          exact .inr (.inr ⟨c, Fs.set_same _ _ _⟩)
        · exact .inl ⟨Fs.set_other _ _ (Ne.symm hp), by simp [hp]⟩
    rcases key with ⟨h1, h2⟩ | h1 | h1
    · rcases h.now with ⟨j, hj⟩ | hj | hj
      · refine .inl ⟨j, ?_⟩
        by_cases hji : j = i
        · subst hji
          rw [hi] at hj
          simp only [if_pos]
          exact (List.mem_cons.1 hj).resolve_left fun h => h2 h.symm
        · simpa [hji] using hj
      · exact .inr (.inl (by dsimp only; rw [h1]; exact hj))
      · exact .inr (.inr ⟨hj.1, h1.trans hj.2⟩)
    · exact .inl ⟨i, by simpa using h1⟩
    · exact .inr (.inl h1)
  · by_cases hj : j = i
    · subst hj; simpa using setsMode_tail hset
    · simpa [hj] using h.sets j
  · by_cases hj : j = i
    · subst hj
      simp only [if_pos]
      exact fun e he => hcar e (List.mem_cons_of_mem _ he)
    · simpa [hj] using h.careful j

theorem lastInv_reach {ι : Type} [DecidableEq ι] {q : Path} {m : Nat} {X : Prop} {fs0 : Fs} {s t : Sys ι} (h : LastInv q m X fs0 s) (hr : Sys.Reach s t) :
    LastInv q m X fs0 t := by
  induction hr with
  | refl => exact h
  | step _ h' ih => exact lastInv_step ih h'

end GitDB

namespace GitDB.Props
open GitDB Spec

variable {σ : Type}

/-! ## Loose objects -/

/-- The paths of objects are set to mode 0444. -/
def ObjectMode (q : Path) (m : Nat) : Prop := q.length = 2 ∧ m = 0o444

theorem chmodLoop_cases (p : Path) (n : Nat) (cs : List ChmodOutcome) : (chmodLoop p n cs).1 = [] ∨ (chmodLoop p n cs).1 = [.chmod p newObjectsMode] := by
  rcases h : (chmodLoop p n cs).2 with e | ⟨⟩
  · exact .inl (chmodLoop_error h)
  · exact .inr (chmodLoop_ok h)

/-- The calls of a store: `mv` is removing or renaming the temporary file. -/
theorem store_calls (H : Hash) (zl : Zlib) (fuel : Nat) (env : StoreEnv) (read : σ → Int → σ × Res Bytes) (i : IStream σ) (rnd : Bytes) (hr : env.tmp = some rnd) :
    (∃ (ds : List Bytes) (tail : List Ev), (looseStore H zl fuel env read i).1 = .create (tmpPath rnd) :: (ds.map (.append (tmpPath rnd)) ++ tail) ∧
      (tail = [] ∨ tail = [.remove (tmpPath rnd)] ∨ ∃ hex, tail = (publish env (tmpPath rnd) (objectPath hex)).1)) ∧
    ((looseStore H zl fuel env read i).2.2 = .ok () → ∃ (b : Bytes) (ds : List Bytes), (looseStore H zl fuel env read i).2.1.binsha = some b ∧
      (looseStore H zl fuel env read i).1 = .create (tmpPath rnd) :: (ds.map (.append (tmpPath rnd)) ++
        [.mkdir [(binToHex b).take 2], .isfile (objectPath (binToHex b)) env.isfile,
          if env.isfile then .remove (tmpPath rnd) else .rename (tmpPath rnd) (objectPath (binToHex b)), .chmod (objectPath (binToHex b)) 0o444])) := by
  rw [looseStore_eq H zl fuel env read i rnd hr]
  dsimp only
  split
  · split
    · exact ⟨⟨(looseWrite H zl fuel env read i).1, [.remove (tmpPath rnd)], by simp, .inr (.inl rfl)⟩, nofun⟩
    · exact ⟨⟨(looseWrite H zl fuel env read i).1, [], by simp, .inl rfl⟩, nofun⟩
  · rename_i hw
    split
    · exact ⟨⟨(looseWrite H zl fuel env read i).1, [], by simp, .inl rfl⟩, nofun⟩
    · rename_i hex hn
      have hx : ∃ x, hex = binToHex x := by
        rcases storedName_shape hn with h | h
        · rcases hb : i.binsha with _ | y
          · have : ∃ x, (looseWrite H zl fuel env read i).2.2.2 = binToHex x := by
              unfold looseWrite
              rw [hb]
              exact ⟨_, rfl⟩
            exact this.imp fun x hx => h.trans hx
          · unfold storedName at hn
            rw [hb] at hn
            rcases y with _ | ⟨a, y⟩
            · cases hn
            · exact ⟨_, (Except.ok.inj hn).symm⟩
        · exact h
      split
      · exact ⟨⟨_, _, rfl, .inr (.inr ⟨hex, rfl⟩)⟩, nofun⟩
      · rename_i hp
        have shape : (publish env (tmpPath rnd) (objectPath hex)).1 = [.mkdir [hex.take 2], .isfile (objectPath hex) env.isfile,
            if env.isfile then .remove (tmpPath rnd) else .rename (tmpPath rnd) (objectPath hex), .chmod (objectPath hex) 0o444] := by
          unfold publish at hp ⊢
          split at hp
          · cases hp
          rename_i h1
          rw [if_neg h1]
          dsimp only at hp ⊢
          split at hp
          · cases hp
          rename_i h2
          rw [if_neg h2]
          dsimp only at hp ⊢
          rw [chmodLoop_ok hp]
          rfl
        split
        · exact ⟨⟨_, _, rfl, .inr (.inr ⟨hex, rfl⟩)⟩, nofun⟩
        · rename_i b hb
          refine ⟨⟨_, _, rfl, .inr (.inr ⟨hex, rfl⟩)⟩, fun _ => ⟨b, (looseWrite H zl fuel env read i).1, rfl, ?_⟩⟩
          obtain ⟨x, rfl⟩ := hx
          rw [hexToBin_binToHex] at hb
          cases hb
          rw [shape]
          rfl

theorem tmp_not_object (rnd : Bytes) (m : Nat) : ¬ ObjectMode (tmpPath rnd) m := fun h => absurd h.1 (by simp [tmpPath])

theorem store_modeProg (H : Hash) (zl : Zlib) (fuel : Nat) (env : StoreEnv) (read : σ → Int → σ × Res Bytes) (i : IStream σ) :
    ModeProg ObjectMode [] (looseStore H zl fuel env read i).1 := by
  rcases hr : env.tmp with _ | rnd
  · unfold looseStore
    rw [hr]
    trivial
  obtain ⟨⟨ds, tail, e, ht⟩, -⟩ := store_calls H zl fuel env read i rnd hr
  rw [e]
  refine ⟨tmp_not_object rnd, modeProg_appends _ ds ?_⟩
  rcases ht with rfl | rfl | ⟨hex, rfl⟩
  · trivial
  · trivial
  · unfold publish
    split
    · trivial
    dsimp only
    split
    · trivial
    have hm : ModeProg ObjectMode [tmpPath rnd] (chmodLoop (objectPath hex) 14 env.chmods).1 := by
      rcases chmodLoop_cases (objectPath hex) 14 env.chmods with h | h <;> rw [h]
      · trivial
      · exact ⟨⟨rfl, rfl⟩, trivial⟩
    rcases env.isfile with _ | _
    · exact ⟨List.mem_cons_self, hm⟩
    · exact hm

/-- C115: any number of stores, interleaved and failing in any way, stopped anywhere: at every moment a file has mode 0600, or is at the place of an object and has mode 0444, or
has a mode the file at its place had at first. -/
theorem C115_store {ι : Type} [DecidableEq ι] (H : Hash) (zl : Zlib) (fuel : ι → Nat) (env : ι → StoreEnv) (read : ι → σ → Int → σ × Res Bytes) (i : ι → IStream σ) (s t : Sys ι)
    (hs : ∀ k, s.todo k = (looseStore H zl (fuel k) (env k) (read k) (i k)).1) (hr : Sys.Reach s t) (q : Path) (d : Bytes) (m : Nat) (h : t.fs q = some (.file d m)) :
    m = 0o600 ∨ (q.length = 2 ∧ m = 0o444) ∨ ∃ d', s.fs q = some (.file d' m) :=
  modes_reach (chm := ObjectMode) (fun k => by rw [hs]; exact store_modeProg _ _ _ _ _ _) hr q d m h

theorem setsMode_appends (q : Path) (m : Nat) (p : Path) : ∀ (ds : List Bytes) {es : List Ev}, SetsMode q m es → SetsMode q m (ds.map (.append p) ++ es)
  | [], _, h => h
  | _ :: ds, _, h => setsMode_appends q m p ds h

/-- C115: if every store succeeds, and those of object `b k` have ended, the object is there with mode 0444, whatever mode it had. -/
theorem C115_store_done {ι : Type} [DecidableEq ι] (H : Hash) (zl : Zlib) (fuel : ι → Nat) (env : ι → StoreEnv) (read : ι → σ → Int → σ × Res Bytes) (i : ι → IStream σ)
    (s t : Sys ι) (b : ι → Bytes) (hs : ∀ k, s.todo k = (looseStore H zl (fuel k) (env k) (read k) (i k)).1)
    (hok : ∀ k, (looseStore H zl (fuel k) (env k) (read k) (i k)).2.2 = .ok () ∧ (looseStore H zl (fuel k) (env k) (read k) (i k)).2.1.binsha = some (b k))
    (hr : Sys.Reach s t) (k : ι) (hend : ∀ j, b j = b k → t.todo j = []) : ∃ d, t.fs (objectPath (binToHex (b k))) = some (.file d 0o444) := by
  have shape : ∀ j, ∃ (rnd : Bytes) (ds : List Bytes), s.todo j = .create (tmpPath rnd) :: (ds.map (.append (tmpPath rnd)) ++
        [.mkdir [(binToHex (b j)).take 2], .isfile (objectPath (binToHex (b j))) (env j).isfile,
          if (env j).isfile then .remove (tmpPath rnd) else .rename (tmpPath rnd) (objectPath (binToHex (b j))), .chmod (objectPath (binToHex (b j))) 0o444]) := by
    intro j
    rcases hr : (env j).tmp with _ | rnd
    · have := (hok j).1
      unfold looseStore at this
      rw [hr] at this
      cases this
    · obtain ⟨b', ds, h1, h2⟩ := (store_calls H zl (fuel j) (env j) (read j) (i j) rnd hr).2 (hok j).1
      rw [(hok j).2] at h1
      cases h1
      exact ⟨rnd, ds, by rw [hs, h2]⟩
  have same : ∀ x y : Bytes, objectPath (binToHex x) = objectPath (binToHex y) → x = y := by
    intro x y h
    unfold objectPath at h
    simp only [List.cons.injEq, and_true] at h
    have h3 : binToHex x = binToHex y := by rw [← List.take_append_drop 2 (binToHex x), ← List.take_append_drop 2 (binToHex y), h.1, h.2]
    have h4 := hexToBin_binToHex x
    rw [h3, hexToBin_binToHex] at h4
    exact (Except.ok.inj h4).symm
  have hi : LastInv (objectPath (binToHex (b k))) 0o444 False s.fs s := by
    refine ⟨.inl ⟨k, ?_⟩, fun j => ?_, fun j e he => ?_⟩
    · obtain ⟨rnd, ds, h⟩ := shape k
      rw [h]
      simp
    · obtain ⟨rnd, ds, h⟩ := shape j
      rw [h]
      refine setsMode_appends (es := _) _ _ _ ds ?_
      rcases (env j).isfile with _ | _
      · exact ⟨fun h => by rw [h]; exact List.mem_cons_self, trivial⟩
      · trivial
    · obtain ⟨rnd, ds, h⟩ := shape j
      rw [h] at he
      have h1 : tmpPath rnd ≠ objectPath (binToHex (b k)) := by simp [tmpPath, objectPath]
      simp only [List.mem_cons, List.mem_append, List.mem_map, List.not_mem_nil, or_false] at he
      rcases he with rfl | ⟨d, -, rfl⟩ | rfl | rfl | rfl | rfl
      · exact h1
      · exact h1
      · simp [Careful, objectPath]
      · trivial
      · split
        · exact h1
        · exact h1
      · exact fun _ => rfl
  have hj := lastInv_reach hi hr
  rcases hj.now with ⟨j, h⟩ | h | h
  · exfalso
    by_cases hb : b j = b k
    · rw [hend j hb] at h
      cases h
    · -- the calls left are among those of the store
      have sub : ∀ (u : Sys ι), Sys.Reach s u → ∀ e ∈ u.todo j, e ∈ s.todo j := by
        intro u hu
        induction hu with
        | refl => exact fun _ h => h
        | step _ h' ih =>
          obtain ⟨i', e', es', fs', hi', -⟩ := h'
          intro e he
          by_cases hji : j = i'
          · subst hji
            simp only [if_pos] at he
            exact ih e (by rw [hi']; exact List.mem_cons_of_mem _ he)
          · simp only [if_neg hji] at he
            exact ih e he
      have h5 := sub t hr _ h
      obtain ⟨rnd, ds, h6⟩ := shape j
      rw [h6] at h5
      simp only [List.mem_cons, List.mem_append, List.mem_map, List.not_mem_nil, or_false, reduceCtorEq, false_or, and_false, exists_false] at h5
      rcases h5 with h5 | h5
      · split at h5 <;> cases h5
      · injection h5 with h7 _
        exact hb (same _ _ h7).symm
  · exact h
  · exact h.1.elim

/-- C115: a successful store of an object that was not seen, stopped before its last call, leaves the object with mode 0600: only its owner can read it. -/
theorem C115_store_stopped (H : Hash) (zl : Zlib) (fuel : Nat) (env : StoreEnv) (read : σ → Int → σ × Res Bytes) (i : IStream σ)
    (hok : (looseStore H zl fuel env read i).2.2 = .ok ()) (b : Bytes) (hb : (looseStore H zl fuel env read i).2.1.binsha = some b) (hf : env.isfile = false) (fs fs' : Fs)
    (hr : fs.run (looseStore H zl fuel env read i).1.dropLast = some fs') : ∃ d, fs' (objectPath (binToHex b)) = some (.file d 0o600) := by
  rcases ht : env.tmp with _ | rnd
  · unfold looseStore at hok
    rw [ht] at hok
    cases hok
  obtain ⟨b', ds, h1, h2⟩ := (store_calls H zl fuel env read i rnd ht).2 hok
  rw [hb] at h1
  cases h1
  rw [h2, hf, if_neg (by simp)] at hr
  have e : (Ev.create (tmpPath rnd) :: (ds.map (.append (tmpPath rnd)) ++ [.mkdir [(binToHex b).take 2], .isfile (objectPath (binToHex b)) false,
      .rename (tmpPath rnd) (objectPath (binToHex b)), .chmod (objectPath (binToHex b)) 0o444])).dropLast =
      (Ev.create (tmpPath rnd) :: ds.map (.append (tmpPath rnd))) ++ [.mkdir [(binToHex b).take 2], .isfile (objectPath (binToHex b)) false,
      .rename (tmpPath rnd) (objectPath (binToHex b))] := by
    have : ∀ (a : Ev) (l : List Ev) (x y z w : Ev), (a :: (l ++ [x, y, z, w])).dropLast = (a :: l) ++ [x, y, z] := by
      intro a l x y z w
      rw [show a :: (l ++ [x, y, z, w]) = ((a :: l) ++ [x, y, z]) ++ [w] by simp, List.dropLast_concat]
    exact this _ _ _ _ _ _
  rw [e, Fs.run_append] at hr
  rcases h3 : fs.run (.create (tmpPath rnd) :: ds.map (.append (tmpPath rnd))) with _ | fs1
  · rw [h3] at hr; cases hr
  rw [h3] at hr
  dsimp only at hr
  obtain ⟨-, rfl⟩ := run_tmp h3
  obtain ⟨hr, -⟩ := run_mkdir hr
  obtain ⟨hr, -⟩ := run_isfile hr
  simp only [Fs.run] at hr
  split at hr
  · rename_i fs2 h4
    cases hr
    simp only [Fs.step] at h4
    have hne : tmpPath rnd ≠ [(binToHex b).take 2] := short_ne_tmp _ _ (by simp; omega)
    rw [Fs.set_other _ _ hne, Fs.set_same] at h4
    split at h4
    · cases h4
    · rename_i hc _
      split at h4 <;> cases h4
      cases hc
      exact ⟨_, Fs.set_same _ _ _⟩
    · cases h4
  · cases hr

/-! ## Packs -/

theorem create_modeProg (H : Hash) (zl : Zlib) (fuel : Nat) (env : CreateEnv) (read : σ → Int → σ × Res Bytes) (objs : List (PackIn σ)) (n : Option Nat) (level : Int) :
    ModeProg (fun _ _ => False) [] (createPack H zl fuel env read objs n level).1 := by
  unfold createPack
  rcases env.packTmp with _ | tp
  · trivial
  rcases env.idxTmp with _ | ti
  · exact ⟨fun _ h => h, trivial⟩
  dsimp only
  have key : ∀ (cs ds : List Bytes) (tail : List Ev), ModeProg (fun _ _ => False) [idxTmpPath ti, packTmpPath tp] tail →
      ModeProg (fun _ _ => False) [] ([.create (packTmpPath tp), .create (idxTmpPath ti)] ++ cs.map (.append (packTmpPath tp)) ++ ds.map (.append (idxTmpPath ti)) ++ tail) := by
    intro cs ds tail h
    rw [List.append_assoc, List.append_assoc]
    exact ⟨fun _ h => h, fun _ h => h, modeProg_appends _ cs (modeProg_appends _ ds h)⟩
  split
  · have := key (writePack H zl fuel read Fd.write (some Fd.write) objs n level { plan := env.packPlan } { plan := env.idxPlan }).1.chunks
      (writePack H zl fuel read Fd.write (some Fd.write) objs n level { plan := env.packPlan } { plan := env.idxPlan }).2.1.chunks [] trivial
    rwa [List.append_nil] at this
  · split
    · have := key (writePack H zl fuel read Fd.write (some Fd.write) objs n level { plan := env.packPlan } { plan := env.idxPlan }).1.chunks
        (writePack H zl fuel read Fd.write (some Fd.write) objs n level { plan := env.packPlan } { plan := env.idxPlan }).2.1.chunks [] trivial
      rwa [List.append_nil] at this
    · split
      · exact key _ _ _ ⟨by simp, trivial⟩
      · exact key _ _ _ ⟨by simp, by simp, trivial⟩

/-- C115: calls of `create`, interleaved and failing in any way, stopped anywhere: every file has mode 0600, or a mode the file at its place had at first; no other mode is ever
set. -/
theorem C115_create {ι : Type} [DecidableEq ι] (H : Hash) (zl : Zlib) (fuel : ι → Nat) (env : ι → CreateEnv) (read : ι → σ → Int → σ × Res Bytes) (objs : ι → List (PackIn σ))
    (n : ι → Option Nat) (level : ι → Int) (s t : Sys ι) (hs : ∀ k, s.todo k = (createPack H zl (fuel k) (env k) (read k) (objs k) (n k) (level k)).1) (hr : Sys.Reach s t)
    (q : Path) (d : Bytes) (m : Nat) (h : t.fs q = some (.file d m)) : m = 0o600 ∨ ∃ d', s.fs q = some (.file d' m) := by
  rcases modes_reach (chm := fun _ _ => False) (fun k => by rw [hs]; exact create_modeProg _ _ _ _ _ _ _ _) hr q d m h with h | h | h
  · exact .inl h
  · exact h.elim
  · exact .inr h

/-- C115: a pack that `create` has made can be read by its owner only, and so can its index, whatever files were there. -/
theorem C115_create_done (H : Hash) (zl : Zlib) (fuel : Nat) (env : CreateEnv) (read : σ → Int → σ × Res Bytes) (objs : List (PackIn σ)) (n : Option Nat) (level : Int)
    (tr : List Ev) (new : Bytes) (h : createPack H zl fuel env read objs n level = (tr, .ok new)) (fs fs' : Fs) (hr : fs.run tr = some fs') :
    ∃ base c d, new = base ++ packSuffix ∧ fs' [base ++ packSuffix] = some (.file c 0o600) ∧ fs' [base ++ idxSuffix] = some (.file d 0o600) := by
  obtain ⟨w, iw, sha, isha, tp, ti, -, rfl, -, -, rfl⟩ := createPack_ok H zl fuel env read objs n level h
  obtain ⟨h1, h2⟩ := full_run hr
  exact ⟨packPrefix ++ [0x62, 0x27] ++ binToHex sha ++ [0x27], _, _, rfl, h1, h2⟩

/-! ## Lock files -/

/-- What an object that has the lock for writing may do. -/
def MayCommit (p : Path) (made : List Path) (l : LockedFD) : Prop := l.fd = true → (l.write = some true ∧ lockPath p ∈ made) ∨ l.write = some false

theorem lock_call_modes (p : Path) (chm : Path → Nat → Prop) (hc : chm p 0o644) (hl : ∀ m, ¬ chm (lockPath p) m) (l : LockedFD) (op : LockOp) (made : List Path) (h : MayCommit p made l) :
    ∃ made', (∀ x ∈ made, x ∈ made') ∧ MayCommit p made' (l.call p op).1 ∧ ∀ rest, ModeProg chm made' rest → ModeProg chm made ((l.call p op).2.1 ++ rest) := by
  have ends : ∀ (b : Bool) (env : EndEnv), ∃ made', (∀ x ∈ made, x ∈ made') ∧ MayCommit p made' (l.endWriting p b env).1 ∧
      ∀ rest, ModeProg chm made' rest → ModeProg chm made ((l.endWriting p b env).2.1 ++ rest) := by
    intro b env
    refine ⟨made, fun _ h => h, ?_⟩
    unfold LockedFD.endWriting
    rcases hw : l.write with _ | w
    · exact ⟨h, fun _ h => h⟩
    dsimp only
    by_cases h1 : (!l.fd) = true
    · rw [if_pos h1]; exact ⟨h, fun _ h => h⟩
    rw [if_neg h1]
    by_cases h2 : (!env.close) = true
    · rw [if_pos h2]; exact ⟨h, fun _ h => h⟩
    rw [if_neg h2]
    have hfd : l.fd = true := by simpa using h1
    have no : ∀ x : Option Bool, MayCommit p made ⟨false, x⟩ := fun _ => nofun
    by_cases h3 : (w && b) = true
    · rw [if_pos h3]
      have hw' : w = true := by cases w <;> simp_all
      have hin : lockPath p ∈ made := by
        rcases h hfd with h | h
        · exact h.2
        · rw [hw, hw'] at h; cases h
      by_cases h4 : (!env.rename) = true
      · rw [if_pos h4]; exact ⟨nofun, fun _ h => h⟩
      rw [if_neg h4]
      by_cases h5 : (!env.chmod) = true
      · rw [if_pos h5]; exact ⟨nofun, fun _ h => ⟨hin, h⟩⟩
      · rw [if_neg h5]; exact ⟨nofun, fun _ h => ⟨hin, hc, h⟩⟩
    · rw [if_neg h3]
      by_cases h4 : (!env.remove) = true
      · rw [if_pos h4]; exact ⟨nofun, fun _ h => h⟩
      · rw [if_neg h4]; exact ⟨nofun, fun _ h => h⟩
  cases op with
  | open_ w env =>
    show ∃ made', _ ∧ MayCommit p made' (l.open_ p w env).1 ∧ ∀ rest, ModeProg chm made' rest → ModeProg chm made ((l.open_ p w env).2.1 ++ rest)
    unfold LockedFD.open_
    rcases hw : l.write with _ | w'
    · dsimp only
      have inn : ∀ (x y : Bool), MayCommit p (lockPath p :: made) ⟨x, some y⟩ := by
        intro x y _
        rcases y with _ | _
        · exact .inr rfl
        · exact .inl ⟨rfl, List.mem_cons_self⟩
      split
      · refine ⟨made, fun _ h => h, fun hfd => ?_, fun _ h => h⟩
        rcases h hfd with h | h
        · rw [hw] at h; cases h.1
        · rw [hw] at h; cases h
      · refine ⟨lockPath p :: made, fun x hx => List.mem_cons_of_mem _ hx, ?_⟩
        split
        · exact ⟨inn _ _, fun _ h => ⟨hl, h⟩⟩
        split
        · exact ⟨inn _ _, fun _ h => ⟨hl, h⟩⟩
        split
        · exact ⟨inn _ _, fun _ h => ⟨hl, h⟩⟩
        split
        · exact ⟨inn _ _, fun _ h => ⟨hl, h⟩⟩
        · exact ⟨inn _ _, fun _ h => ⟨hl, h⟩⟩
    · exact ⟨made, fun _ h => h, h, fun _ h => h⟩
  | put d n =>
    refine ⟨made, fun _ h => h, ?_⟩
    unfold LockedFD.call
    dsimp only
    split
    · exact ⟨h, fun _ h => h⟩
    · split
      · exact ⟨h, fun _ h => h⟩
      · exact ⟨h, fun _ h => h⟩
  | commit env => exact ends true env
  | rollback env => exact ends false env
  | drop env =>
    unfold LockedFD.call
    dsimp only
    split
    · exact ends false env
    · exact ⟨made, fun _ h => h, h, fun _ h => h⟩

theorem lock_calls_modes (p : Path) (chm : Path → Nat → Prop) (hc : chm p 0o644) (hl : ∀ m, ¬ chm (lockPath p) m) (rest : List Ev)
    (hrest : ∀ made, ModeProg chm made rest) : ∀ (ops : List LockOp) (l : LockedFD) (made : List Path), MayCommit p made l → ModeProg chm made ((l.calls p ops).2.1 ++ rest)
  | [], _, made, _ => hrest made
  | op :: ops, l, made, h => by
    obtain ⟨made', -, h2, h3⟩ := lock_call_modes p chm hc hl l op made h
    rw [calls_cons]
    dsimp only
    rw [List.append_assoc]
    exact h3 _ (lock_calls_modes p chm hc hl rest hrest ops _ made' h2)

theorem lock_modeProg (p : Path) (chm : Path → Nat → Prop) (hc : chm p 0o644) (hl : ∀ m, ¬ chm (lockPath p) m) : ∀ (uses : List (List LockOp)) (made : List Path),
    ModeProg chm made (lockEvents p uses)
  | [], _ => trivial
  | ops :: uses, made => by
    unfold lockEvents
    rw [List.flatMap_cons]
    exact lock_calls_modes p chm hc hl _ (fun made => lock_modeProg p chm hc hl uses made) ops _ made nofun

/-- C115: any uses of lock files for one file by any number of processes, stopped anywhere: at every moment every file has mode 0600, or is that file and has mode 0644, or has a
mode the file at its place had at first. -/
theorem C115_lock {ι : Type} [DecidableEq ι] (p : Path) (uses : ι → List (List LockOp)) (fs : Fs) (t : Sys ι) (hr : Sys.Reach (lockStart p uses fs) t)
    (q : Path) (d : Bytes) (m : Nat) (h : t.fs q = some (.file d m)) : m = 0o600 ∨ (q = p ∧ m = 0o644) ∨ ∃ d', fs q = some (.file d' m) :=
  modes_reach (chm := fun q m => q = p ∧ m = 0o644) (fun k => lock_modeProg p _ ⟨rfl, rfl⟩ (fun _ h => lockPath_ne p h.1) (uses k) []) hr q d m h

/-- Calls of `chmod` succeed. -/
def ChmodWorks : LockOp → Prop
  | .commit env => env.chmod = true
  | _ => True

theorem lock_call_last (p : Path) (l : LockedFD) (op : LockOp) (h : ChmodWorks op) : (∀ rest, SetsMode p 0o644 rest → SetsMode p 0o644 ((l.call p op).2.1 ++ rest)) ∧
    ∀ e ∈ (l.call p op).2.1, Careful p 0o644 e := by
  have hne := lockPath_ne p
  have ends : ∀ (b : Bool) (env : EndEnv), (b = true → env.chmod = true) → (∀ rest, SetsMode p 0o644 rest → SetsMode p 0o644 ((l.endWriting p b env).2.1 ++ rest)) ∧
      ∀ e ∈ (l.endWriting p b env).2.1, Careful p 0o644 e := by
    intro b env hb
    unfold LockedFD.endWriting
    rcases hw : l.write with _ | w
    · exact ⟨fun _ h => h, nofun⟩
    dsimp only
    by_cases h1 : (!l.fd) = true
    · rw [if_pos h1]; exact ⟨fun _ h => h, nofun⟩
    rw [if_neg h1]
    by_cases h2 : (!env.close) = true
    · rw [if_pos h2]; exact ⟨fun _ h => h, nofun⟩
    rw [if_neg h2]
    by_cases h3 : (w && b) = true
    · rw [if_pos h3]
      have hb' := hb (by cases b <;> simp_all)
      by_cases h4 : (!env.rename) = true
      · rw [if_pos h4]; exact ⟨fun _ h => h, nofun⟩
      rw [if_neg h4, if_neg (by rw [hb']; simp)]
      refine ⟨fun rest h => ⟨fun _ => List.mem_cons_self, h⟩, fun e he => ?_⟩
      simp only [List.mem_cons, List.not_mem_nil, or_false] at he
      rcases he with rfl | rfl
      · exact hne
      · exact fun _ => rfl
    · rw [if_neg h3]
      by_cases h4 : (!env.remove) = true
      · rw [if_pos h4]; exact ⟨fun _ h => h, nofun⟩
      · rw [if_neg h4]
        refine ⟨fun _ h => h, fun e he => ?_⟩
        simp only [List.mem_cons, List.not_mem_nil, or_false] at he
        subst he
        exact hne
  cases op with
  | open_ w env =>
    show (∀ rest, SetsMode p 0o644 rest → SetsMode p 0o644 ((l.open_ p w env).2.1 ++ rest)) ∧ ∀ e ∈ (l.open_ p w env).2.1, Careful p 0o644 e
    have one : ∀ e ∈ [Ev.create (lockPath p)], Careful p 0o644 e := by
      intro e he
      rw [List.mem_singleton] at he
      subst he
      exact hne
    unfold LockedFD.open_
    rcases hw : l.write with _ | w'
    · dsimp only
      split
      · exact ⟨fun _ h => h, nofun⟩
      split
      · exact ⟨fun _ h => h, one⟩
      split
      · exact ⟨fun _ h => h, one⟩
      split
      · exact ⟨fun _ h => h, one⟩
      split
      · refine ⟨fun _ h => h, fun e he => ?_⟩
        simp only [List.mem_cons, List.not_mem_nil, or_false] at he
        rcases he with rfl | rfl
        · exact hne
        · exact hne
      · exact ⟨fun _ h => h, one⟩
    · exact ⟨fun _ h => h, nofun⟩
  | put d n =>
    unfold LockedFD.call
    dsimp only
    split
    · exact ⟨fun _ h => h, nofun⟩
    · split
      · refine ⟨fun _ h => h, fun e he => ?_⟩
        rw [List.mem_singleton] at he
        subst he
        exact hne
      · exact ⟨fun _ h => h, nofun⟩
  | commit env => exact ends true env fun _ => h
  | rollback env => exact ends false env nofun
  | drop env =>
    unfold LockedFD.call
    dsimp only
    split
    · exact ends false env nofun
    · exact ⟨fun _ h => h, nofun⟩

theorem lock_calls_last (p : Path) (rest : List Ev) (hrest : SetsMode p 0o644 rest) : ∀ (ops : List LockOp) (l : LockedFD), (∀ op ∈ ops, ChmodWorks op) →
    SetsMode p 0o644 ((l.calls p ops).2.1 ++ rest) ∧ ∀ e ∈ (l.calls p ops).2.1, Careful p 0o644 e
  | [], _, _ => ⟨hrest, nofun⟩
  | op :: ops, l, h => by
    obtain ⟨h1, h2⟩ := lock_call_last p l op (h op List.mem_cons_self)
    obtain ⟨h3, h4⟩ := lock_calls_last p rest hrest ops (l.call p op).1 fun o ho => h o (List.mem_cons_of_mem _ ho)
    rw [calls_cons]
    dsimp only
    rw [List.append_assoc]
    exact ⟨h1 _ h3, fun e he => (List.mem_append.1 he).elim (h2 e) (h4 e)⟩

theorem lock_events_last (p : Path) : ∀ (uses : List (List LockOp)), (∀ ops ∈ uses, ∀ op ∈ ops, ChmodWorks op) →
    SetsMode p 0o644 (lockEvents p uses) ∧ ∀ e ∈ lockEvents p uses, Careful p 0o644 e
  | [], _ => ⟨trivial, nofun⟩
  | ops :: uses, h => by
    obtain ⟨h1, h2⟩ := lock_events_last p uses fun o ho => h o (List.mem_cons_of_mem _ ho)
    obtain ⟨h3, h4⟩ := lock_calls_last p _ h1 ops .init (h ops List.mem_cons_self)
    unfold lockEvents at h1 h2 h3 ⊢
    rw [List.flatMap_cons]
    exact ⟨h3, fun e he => (List.mem_append.1 he).elim (h4 e) (h2 e)⟩

/-- C115: if `chmod` never fails, and all processes have ended, the file is untouched or has mode 0644, whatever mode it had before. -/
theorem C115_lock_done {ι : Type} [DecidableEq ι] (p : Path) (uses : ι → List (List LockOp)) (fs : Fs) (t : Sys ι) (hw : ∀ k, ∀ ops ∈ uses k, ∀ op ∈ ops, ChmodWorks op)
    (hr : Sys.Reach (lockStart p uses fs) t) (hend : ∀ k, t.todo k = []) : t.fs p = fs p ∨ ∃ d, t.fs p = some (.file d 0o644) := by
  have hi : LastInv p 0o644 True fs (lockStart p uses fs) :=
    ⟨.inr (.inr ⟨trivial, rfl⟩), fun k => (lock_events_last p (uses k) (hw k)).1, fun k => (lock_events_last p (uses k) (hw k)).2⟩
  rcases (lastInv_reach hi hr).now with ⟨j, h⟩ | h | h
  · rw [hend j] at h
    cases h
  · exact .inr h
  · exact .inl h.2

/-! ## Examples -/

/-- Two stores of one object that do not see each other. -/
def modeStore (rnd : UInt8) : List Ev × IStream Bytes × Res Unit := looseStore exHash lightZlib 10 { tmp := some [rnd], isfile := false } bytesIORead smallStream

/-- The object they store. -/
def modeObject : Path := objectPath (binToHex ((modeStore 1).2.1.binsha.getD []))

/-- Both succeed. -/
example : (modeStore 1).2.2 = .ok () ∧ (modeStore 2).2.2 = .ok () ∧ (modeStore 1).2.1.binsha = (modeStore 2).2.1.binsha := by decide +kernel

/-- One after the other; and the second stopped before its last call: then the object that the first has made readable for all can be read by its owner only. -/
example : (emptyFs.run ((modeStore 1).1 ++ (modeStore 2).1)).map (fun fs => (fs modeObject).map fun n => match n with | .file _ m => m | .dir => 0) = some (some 0o444) ∧
    (emptyFs.run ((modeStore 1).1 ++ (modeStore 2).1.dropLast)).map (fun fs => (fs modeObject).map fun n => match n with | .file _ m => m | .dir => 0) = some (some 0o600) := by
  decide +kernel

/-- An object that is there with another mode gets mode 0444. -/
example : (((emptyFs.set modeObject.dropLast (some .dir)).set modeObject (some (.file [7] 0o640))).run
      (looseStore exHash lightZlib 10 { tmp := some [1], isfile := true } bytesIORead smallStream).1).map (fun fs => fs modeObject) = some (some (.file [7] 0o444)) := by
  decide +kernel

/-- A new pack with two objects, in a directory with another pack. -/
example (n : Nat) (hn : n < 2 ^ 59) : ∃ (fs' : Fs) (base c d : Bytes), onePack.run (createPack lenHash toyZlib (n + 2) exEnv bytesIORead ((twoBlobs n).map Prod.fst) none 1).1 = some fs' ∧
    fs' [base ++ packSuffix] = some (.file c 0o600) ∧ fs' [base ++ idxSuffix] = some (.file d 0o600) := by
  obtain ⟨cs, ds, sha, pk, names, htr, -⟩ := ex_trace hn
  obtain ⟨fs1, h⟩ := ex_runs (cs := cs) (ds := ds) (sha := sha)
  obtain ⟨new, hok⟩ : ∃ new, createPack lenHash toyZlib (n + 2) exEnv bytesIORead ((twoBlobs n).map Prod.fst) none 1 =
      (fullTrace [0x78] [0x79] cs ds sha, .ok new) := by
    obtain ⟨w', iw', es, isha, k1, k2, -⟩ :=
      written_spec toyZlib toyZlib_laws bytesIO_reads.toBoundedReads fd_stores fd_stores lenHash (n + 2) 1 (twoBlobs n)
        (twoBlobs_packable n hn) {} ⟨rfl, rfl, rfl⟩ {} ⟨rfl, rfl, rfl⟩
    refine ⟨newPackName (lenHash.digest (packBody es)), ?_⟩
    rw [← htr]
    simp [createPack, exEnv, k2]
  obtain ⟨base, c, d, -, h1, h2⟩ := C115_create_done lenHash toyZlib (n + 2) exEnv bytesIORead _ none 1 _ new hok onePack fs1 h
  exact ⟨fs1, base, c, d, by rw [htr]; exact h, h1, h2⟩

/-- A file that could be executed, and read by its group: after a commit it can be read by all and executed by nobody. -/
example : ((emptyFs.set [[1]] (some (.file [5] 0o750))).run (LockedFD.init.calls [[1]]
      [.open_ true ⟨true, true, true, true⟩, .put [2, 3] 2, .commit ⟨true, true, true, true⟩]).2.1).map (fun fs => fs [[1]]) = some (some (.file [2, 3] 0o644)) := by
  decide +kernel

end GitDB.Props
