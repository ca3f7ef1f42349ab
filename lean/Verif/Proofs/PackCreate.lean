import Verif.Model.PackCreate
import Verif.Proofs.PackedDB
import Verif.Proofs.LooseRun
import Verif.Spec.PackedDB
/-!
# Lemmas about `PackEntity.create`
-/
set_option autoImplicit false

namespace GitDB
open Spec

variable {σ : Type}

/-- All the system calls of a successful `create`. -/
def fullTrace (tp ti : Bytes) (cs ds : List Bytes) (sha : Bytes) : List Ev :=
  [.create (packTmpPath tp), .create (idxTmpPath ti)] ++ cs.map (.append (packTmpPath tp)) ++
    ds.map (.append (idxTmpPath ti)) ++ [.rename (packTmpPath tp) [newPackName sha], .rename (idxTmpPath ti) [newIdxName sha]]

/-- A random part of a name: no `-` (Python uses letters, digits and `_`). -/
def NoDash (rnd : Option Bytes) : Prop := ∀ r, rnd = some r → (0x2d : UInt8) ∉ r

theorem createPack_prefix (H : Hash) (zl : Zlib) (fuel : Nat) (env : CreateEnv) (read : σ → Int → σ × Res Bytes)
    (objs : List (PackIn σ)) (n : Option Nat) (level : Int) (h1 : NoDash env.packTmp) :
    ∃ tp ti cs ds sha, (0x2d : UInt8) ∉ tp ∧ (createPack H zl fuel env read objs n level).1 <+: fullTrace tp ti cs ds sha ∧
      (∀ tp', env.packTmp = some tp' → tp = tp') ∧ (∀ ti', env.idxTmp = some ti' → ti = ti') := by
  unfold createPack
  rcases hp : env.packTmp with _ | tp
  · rcases hi : env.idxTmp with _ | ti
    · exact ⟨[], [], [], [], [], by simp, List.nil_prefix, by simp, by simp⟩
    · exact ⟨[], ti, [], [], [], by simp, List.nil_prefix, by simp, by simp⟩
  · have hd := h1 tp hp
    rcases hi : env.idxTmp with _ | ti
    · exact ⟨tp, [], [], [], [], hd, ⟨_, rfl⟩, by simp, by simp⟩
    · simp only
      split
      · exact ⟨tp, ti, _, _, [], hd, ⟨_, rfl⟩, by simp, by simp⟩
      · rename_i sha _ _
        split
        · exact ⟨tp, ti, _, _, sha, hd, ⟨_, rfl⟩, by simp, by simp⟩
        · split
          · refine ⟨tp, ti, (writePack H zl fuel read Fd.write (some Fd.write) objs n level { plan := env.packPlan }
                { plan := env.idxPlan }).1.chunks, (writePack H zl fuel read Fd.write (some Fd.write) objs n level
                { plan := env.packPlan } { plan := env.idxPlan }).2.1.chunks, sha, hd,
              ⟨[.rename (idxTmpPath ti) [newIdxName sha]], ?_⟩, by simp, by simp⟩
            simp [fullTrace]
          · exact ⟨tp, ti, _, _, sha, hd, List.prefix_refl _, by simp, by simp⟩

theorem packTmp_ne_pack {tp sha : Bytes} (h : (0x2d : UInt8) ∉ tp) : packTmpPath tp ≠ [newPackName sha] := by
  intro e
  simp only [packTmpPath, newPackName, packPrefix, List.cons_append, List.nil_append, List.cons.injEq, and_true, true_and] at e
  rw [e] at h
  simp at h

theorem packTmp_ne_idx {tp sha : Bytes} (h : (0x2d : UInt8) ∉ tp) : packTmpPath tp ≠ [newIdxName sha] := by
  intro e
  simp only [packTmpPath, newIdxName, packPrefix, List.cons_append, List.nil_append, List.cons.injEq, and_true, true_and] at e
  rw [e] at h
  simp at h

theorem idxTmp_ne_pack (ti sha : Bytes) : idxTmpPath ti ≠ [newPackName sha] := by
  intro e
  simp [idxTmpPath, newPackName, packPrefix] at e

theorem idxTmp_ne_idx (ti sha : Bytes) : idxTmpPath ti ≠ [newIdxName sha] := by
  intro e
  simp [idxTmpPath, newIdxName, packPrefix] at e

theorem tmps_ne (tp ti : Bytes) : packTmpPath tp ≠ idxTmpPath ti := by
  intro e
  simp [idxTmpPath, packTmpPath] at e

theorem newIdxName_eq (sha : Bytes) : newIdxName sha = idxName (newPackName sha) := by
  unfold idxName newIdxName newPackName
  congr 1
  have : packSuffix.length = 5 := rfl
  rw [List.length_append, this, Nat.add_sub_cancel, List.take_left]

theorem newIdx_ne_newPack (sha sha' : Bytes) : newIdxName sha ≠ newPackName sha' := by
  intro e
  have h1 : (newIdxName sha).getLast? = some 0x78 := by
    rw [newIdxName, List.getLast?_append]; rfl
  have h2 : (newPackName sha').getLast? = some 0x6b := by
    rw [newPackName, List.getLast?_append]; rfl
  rw [e, h2] at h1
  simp at h1

theorem newPack_isPack (sha : Bytes) : IsPackName (newPackName sha) :=
  ⟨[0x62, 0x27] ++ binToHex sha ++ [0x27], by simp [newPackName, packPrefix, packSuffix]⟩

/-! ### one process -/

theorem run_prefix_some {fs fs' : Fs} {a b : List Ev} (h : fs.run (a ++ b) = some fs') : ∃ fs1, fs.run a = some fs1 ∧ fs1.run b = some fs' := by
  rw [Fs.run_append] at h
  rcases ha : fs.run a with _ | fs1
  · rw [ha] at h; simp at h
  · rw [ha] at h; exact ⟨fs1, rfl, h⟩

/-- Calls before the renames only touch the temporary files. -/
theorem run_tmps {tp ti : Path} : ∀ (es : List Ev) (fs fs' : Fs),
    (∀ e ∈ es, e = .create tp ∨ e = .create ti ∨ (∃ d, e = .append tp d) ∨ ∃ d, e = .append ti d) →
    fs.run es = some fs' → ∀ q, q ≠ tp → q ≠ ti → fs' q = fs q
  | [], fs, fs', _, h, q, _, _ => by
    simp only [Fs.run, Option.some.injEq] at h; rw [h]
  | e :: es, fs, fs', he, h, q, h1, h2 => by
    simp only [Fs.run] at h
    rcases hs : fs.step e with _ | fs1
    · rw [hs] at h; simp at h
    · rw [hs] at h
      rw [run_tmps es fs1 fs' (fun x hx => he x (by simp [hx])) h q h1 h2]
      rcases he e (by simp) with rfl | rfl | ⟨d, rfl⟩ | ⟨d, rfl⟩
      · simp only [Fs.step] at hs
        split at hs
        · simp only [Option.some.injEq] at hs; rw [← hs, Fs.set_other _ _ h1]
        · simp at hs
      · simp only [Fs.step] at hs
        split at hs
        · simp only [Option.some.injEq] at hs; rw [← hs, Fs.set_other _ _ h2]
        · simp at hs
      · simp only [Fs.step] at hs
        split at hs
        · simp only [Option.some.injEq] at hs; rw [← hs, Fs.set_other _ _ h1]
        · simp at hs
      · simp only [Fs.step] at hs
        split at hs
        · simp only [Option.some.injEq] at hs; rw [← hs, Fs.set_other _ _ h2]
        · simp at hs

/-- The writing part of the calls. -/
def writeTrace (tp ti : Bytes) (cs ds : List Bytes) : List Ev :=
  [.create (packTmpPath tp), .create (idxTmpPath ti)] ++ cs.map (.append (packTmpPath tp)) ++ ds.map (.append (idxTmpPath ti))

theorem writeTrace_mem {tp ti : Bytes} {cs ds : List Bytes} : ∀ e ∈ writeTrace tp ti cs ds,
    e = .create (packTmpPath tp) ∨ e = .create (idxTmpPath ti) ∨ (∃ d, e = .append (packTmpPath tp) d) ∨ ∃ d, e = .append (idxTmpPath ti) d := by
  intro e he
  simp only [writeTrace, List.mem_append, List.mem_cons, List.not_mem_nil, or_false, List.mem_map] at he
  rcases he with ((rfl | rfl) | ⟨d, -, rfl⟩) | ⟨d, -, rfl⟩
  · exact .inl rfl
  · exact .inr (.inl rfl)
  · exact .inr (.inr (.inl ⟨d, rfl⟩))
  · exact .inr (.inr (.inr ⟨d, rfl⟩))

theorem run_writeTrace {tp ti : Bytes} {cs ds : List Bytes} {fs fs' : Fs} (h : fs.run (writeTrace tp ti cs ds) = some fs') :
    fs' = (fs.set (packTmpPath tp) (some (.file cs.flatten 0o600))).set (idxTmpPath ti) (some (.file ds.flatten 0o600)) := by
  have hne := tmps_ne tp ti
  unfold writeTrace at h
  obtain ⟨fs1, h1, h2⟩ := run_prefix_some h
  obtain ⟨fs2, h3, h4⟩ := run_prefix_some h1
  simp only [Fs.run, Fs.step] at h3
  rcases hp : fs (packTmpPath tp) with _ | n
  · simp only [hp] at h3
    rcases hi : (fs.set (packTmpPath tp) (some (.file [] 0o600))) (idxTmpPath ti) with _ | n
    · simp only [hi, Option.some.injEq] at h3
      subst h3
      rw [run_appends (packTmpPath tp) cs _ [] 0o600 (by
        rw [Fs.set_other _ _ hne, Fs.set_same])] at h4
      simp only [List.nil_append, Option.some.injEq] at h4
      subst h4
      rw [run_appends (idxTmpPath ti) ds _ [] 0o600 (by
        rw [Fs.set_other _ _ (Ne.symm hne), Fs.set_same])] at h2
      simp only [List.nil_append, Option.some.injEq] at h2
      rw [← h2]
      rw [Fs.set_comm _ _ _ (Ne.symm hne), Fs.set_set, Fs.set_set]
    · simp [hi] at h3
  · simp [hp] at h3

theorem fullTrace_eq (tp ti : Bytes) (cs ds : List Bytes) (sha : Bytes) :
    fullTrace tp ti cs ds sha = writeTrace tp ti cs ds ++ [.rename (packTmpPath tp) [newPackName sha]] ++
      [.rename (idxTmpPath ti) [newIdxName sha]] := by simp [fullTrace, writeTrace]

/-- The three kinds of states a single `create` goes through. -/
theorem create_states {tp ti : Bytes} {cs ds : List Bytes} {sha : Bytes} {fs fs' : Fs} {pre : List Ev}
    (hpre : pre <+: fullTrace tp ti cs ds sha) (h : fs.run pre = some fs') :
    (pre <+: writeTrace tp ti cs ds ∧ ∀ q, q ≠ packTmpPath tp → q ≠ idxTmpPath ti → fs' q = fs q) ∨
    ((pre = writeTrace tp ti cs ds ++ [.rename (packTmpPath tp) [newPackName sha]] ∧
      Ev.rename (packTmpPath tp) [newPackName sha] ∈ pre) ∧ fs' [newPackName sha] = some (.file cs.flatten 0o600) ∧
      ∀ q, q ≠ packTmpPath tp → q ≠ idxTmpPath ti → q ≠ [newPackName sha] → fs' q = fs q) ∨
    (Ev.rename (packTmpPath tp) [newPackName sha] ∈ pre ∧
      fs' [newPackName sha] = some (.file cs.flatten 0o600) ∧ fs' [newIdxName sha] = some (.file ds.flatten 0o600) ∧
      ∀ q, q ≠ packTmpPath tp → q ≠ idxTmpPath ti → q ≠ [newPackName sha] → q ≠ [newIdxName sha] → fs' q = fs q) := by
  rw [fullTrace_eq, List.prefix_concat_iff, List.prefix_concat_iff] at hpre
  have hne := tmps_ne tp ti
  have hr1 : ∀ {fs1 : Fs}, fs.run (writeTrace tp ti cs ds ++ [.rename (packTmpPath tp) [newPackName sha]]) = some fs1 →
      fs1 = (((fs.set (packTmpPath tp) (some (.file cs.flatten 0o600))).set (idxTmpPath ti) (some (.file ds.flatten 0o600))).set
        (packTmpPath tp) none).set [newPackName sha] (some (.file cs.flatten 0o600)) := by
    intro fs1 h
    obtain ⟨fs2, h1, h2⟩ := run_prefix_some h
    rw [run_writeTrace h1] at h2
    have := run_rename (c := cs.flatten) (m := 0o600) (by rw [Fs.set_other _ _ hne, Fs.set_same]) h2
    simp only [Fs.run, Option.some.injEq] at this
    exact this.symm
  rcases hpre with rfl | rfl | hpre
  · right; right
    obtain ⟨fs1, h1, h2⟩ := run_prefix_some h
    rw [hr1 h1] at h2
    have := run_rename (c := ds.flatten) (m := 0o600) (by
      rw [Fs.set_other _ _ (idxTmp_ne_pack ti sha), Fs.set_other _ _ (Ne.symm hne), Fs.set_same]) h2
    simp only [Fs.run, Option.some.injEq] at this
    subst this
    have hip : [newPackName sha] ≠ [newIdxName sha] := by
      intro e; simp only [List.cons.injEq, and_true] at e; exact newIdx_ne_newPack _ _ e.symm
    refine ⟨by simp, ?_, by rw [Fs.set_same], ?_⟩
    · rw [Fs.set_other _ _ hip, Fs.set_other _ _ (Ne.symm (idxTmp_ne_pack ti sha)), Fs.set_same]
    · intro q q1 q2 q3 q4
      rw [Fs.set_other _ _ q4, Fs.set_other _ _ q2, Fs.set_other _ _ q3, Fs.set_other _ _ q1, Fs.set_other _ _ q2, Fs.set_other _ _ q1]
  · right; left
    rw [hr1 h]
    refine ⟨⟨rfl, by simp⟩, by rw [Fs.set_same], ?_⟩
    intro q q1 q2 q3
    rw [Fs.set_other _ _ q3, Fs.set_other _ _ q1, Fs.set_other _ _ q2, Fs.set_other _ _ q1]
  · left
    exact ⟨hpre, run_tmps pre fs fs' (fun e he => writeTrace_mem e (hpre.subset he)) h⟩

/-! ### several processes -/

/-- What a system of creating processes has done so far. -/
structure CreateInv {ι : Type} (fs0 : Fs) (tp ti sha : ι → Bytes) (cs ds : ι → List Bytes) (s : Sys ι) (done : ι → List Ev) : Prop where
  split : ∀ i, done i ++ s.todo i <+: fullTrace (tp i) (ti i) (cs i) (ds i) (sha i)
  pack : ∀ i, Ev.rename (packTmpPath (tp i)) [newPackName (sha i)] ∈ done i → IsFile s.fs [newPackName (sha i)]
  same : ∀ q, s.fs q ≠ fs0 q → (∃ i, q = packTmpPath (tp i) ∨ q = idxTmpPath (ti i)) ∨
    (∃ i, q = [newPackName (sha i)] ∧ Ev.rename (packTmpPath (tp i)) [newPackName (sha i)] ∈ done i) ∨
    ∃ i, q = [newIdxName (sha i)] ∧ Ev.rename (idxTmpPath (ti i)) [newIdxName (sha i)] ∈ done i

theorem fullTrace_mem {tp ti : Bytes} {cs ds : List Bytes} {sha : Bytes} {e : Ev} (h : e ∈ fullTrace tp ti cs ds sha) :
    e = .create (packTmpPath tp) ∨ e = .create (idxTmpPath ti) ∨ (∃ d, e = .append (packTmpPath tp) d) ∨
    (∃ d, e = .append (idxTmpPath ti) d) ∨ e = .rename (packTmpPath tp) [newPackName sha] ∨
    e = .rename (idxTmpPath ti) [newIdxName sha] := by
  rw [fullTrace_eq] at h
  simp only [List.mem_append, List.mem_cons, List.not_mem_nil, or_false] at h
  rcases h with (h | h) | h
  · rcases writeTrace_mem e h with h | h | h | h
    · exact .inl h
    · exact .inr (.inl h)
    · exact .inr (.inr (.inl h))
    · exact .inr (.inr (.inr (.inl h)))
  · exact .inr (.inr (.inr (.inr (.inl h))))
  · exact .inr (.inr (.inr (.inr (.inr h))))

/-- The pack is renamed before the index. -/
theorem rename_order {tp ti : Bytes} {cs ds : List Bytes} {sha : Bytes} {done : List Ev}
    (h : done <+: fullTrace tp ti cs ds sha) (hm : Ev.rename (idxTmpPath ti) [newIdxName sha] ∈ done) :
    Ev.rename (packTmpPath tp) [newPackName sha] ∈ done := by
  rw [fullTrace_eq, List.prefix_concat_iff] at h
  rcases h with rfl | h
  · simp
  · have := h.subset hm
    simp only [List.mem_append, List.mem_cons, List.not_mem_nil, or_false] at this
    rcases this with h1 | h1
    · rcases writeTrace_mem _ h1 with h | h | ⟨d, h⟩ | ⟨d, h⟩ <;> simp at h
    · simp only [Ev.rename.injEq, List.cons.injEq, and_true] at h1
      exact absurd h1.2 (newIdx_ne_newPack _ _)

/-- The effect of one call of a creating process. -/
theorem create_step {tp ti : Bytes} {cs ds : List Bytes} {sha : Bytes} {e : Ev} (he : e ∈ fullTrace tp ti cs ds sha)
    {fs fs' : Fs} (h : fs.step e = some fs') :
    (∀ q, q ≠ packTmpPath tp → q ≠ idxTmpPath ti → fs' q = fs q) ∨
    (e = .rename (packTmpPath tp) [newPackName sha] ∧ IsFile fs' [newPackName sha] ∧
      ∀ q, q ≠ packTmpPath tp → q ≠ [newPackName sha] → fs' q = fs q) ∨
    (e = .rename (idxTmpPath ti) [newIdxName sha] ∧
      ∀ q, q ≠ idxTmpPath ti → q ≠ [newIdxName sha] → fs' q = fs q) := by
  have hren : ∀ {a b : Path}, fs.step (.rename a b) = some fs' → IsFile fs' b ∧ ∀ q, q ≠ a → q ≠ b → fs' q = fs q := by
    intro a b h
    rcases ha : fs a with _ | _ | ⟨c, m⟩
    · simp [Fs.step, ha] at h
    · simp [Fs.step, ha] at h
    · have hr : fs.run [.rename a b] = some fs' := by simp [Fs.run, h]
      have := run_rename ha hr
      simp only [Fs.run, Option.some.injEq] at this
      subst this
      refine ⟨⟨c, m, by rw [Fs.set_same]⟩, ?_⟩
      intro q h1 h2
      rw [Fs.set_other _ _ h2, Fs.set_other _ _ h1]
  rcases fullTrace_mem he with rfl | rfl | ⟨d, rfl⟩ | ⟨d, rfl⟩ | rfl | rfl
  · left
    intro q q1 q2
    simp only [Fs.step] at h
    split at h
    · simp only [Option.some.injEq] at h; rw [← h, Fs.set_other _ _ q1]
    · simp at h
  · left
    intro q q1 q2
    simp only [Fs.step] at h
    split at h
    · simp only [Option.some.injEq] at h; rw [← h, Fs.set_other _ _ q2]
    · simp at h
  · left
    intro q q1 q2
    simp only [Fs.step] at h
    split at h
    · simp only [Option.some.injEq] at h; rw [← h, Fs.set_other _ _ q1]
    · simp at h
  · left
    intro q q1 q2
    simp only [Fs.step] at h
    split at h
    · simp only [Option.some.injEq] at h; rw [← h, Fs.set_other _ _ q2]
    · simp at h
  · exact .inr (.inl ⟨rfl, hren h⟩)
  · exact .inr (.inr ⟨rfl, (hren h).2⟩)

theorem createInv_reach {ι : Type} [DecidableEq ι] {fs0 : Fs} {tp ti sha : ι → Bytes} {cs ds : ι → List Bytes}
    (htp : ∀ i, (0x2d : UInt8) ∉ tp i) {s t : Sys ι} (h0 : s.fs = fs0)
    (hs : ∀ i, s.todo i <+: fullTrace (tp i) (ti i) (cs i) (ds i) (sha i)) (h : Sys.Reach s t) :
    ∃ done, CreateInv fs0 tp ti sha cs ds t done ∧ ∀ i, done i ++ t.todo i = s.todo i := by
  induction h with
  | refl =>
    refine ⟨fun _ => [], ⟨fun i => by simpa using hs i, by simp, fun q hq => absurd (by rw [h0]) hq⟩, by simp⟩
  | step hr hstep ih =>
    obtain ⟨done, inv, hd⟩ := ih
    cases hstep with
    | call i e es fs hi hfs =>
      rename_i t
      have hmem : e ∈ fullTrace (tp i) (ti i) (cs i) (ds i) (sha i) :=
        (inv.split i).subset (by rw [hi]; simp)
      have hpk : ∀ j, ∀ k, [newPackName (sha j)] ≠ packTmpPath (tp k) := fun j k => Ne.symm (packTmp_ne_pack (htp k))
      have hpi : ∀ j, ∀ k, [newPackName (sha j)] ≠ idxTmpPath (ti k) := fun j k => Ne.symm (idxTmp_ne_pack _ _)
      refine ⟨fun j => if j = i then done i ++ [e] else done j, ⟨?_, ?_, ?_⟩, ?_⟩
      · intro j
        by_cases hj : j = i
        · subst hj
          simp only [if_true]
          have := inv.split j
          rw [hi] at this
          simpa using this
        · simp only [hj, if_false]; exact inv.split j
      · intro j hj
        have hold : IsFile t.fs [newPackName (sha j)] → IsFile fs [newPackName (sha j)] := by
          intro hf
          rcases create_step hmem hfs with h | ⟨-, h1, h2⟩ | ⟨-, h2⟩
          · unfold IsFile; rw [h _ (hpk j i) (hpi j i)]; exact hf
          · by_cases he : [newPackName (sha j)] = [newPackName (sha i)]
            · rw [he]; exact h1
            · unfold IsFile; rw [h2 _ (hpk j i) he]; exact hf
          · have : [newPackName (sha j)] ≠ [newIdxName (sha i)] := by
              intro e; simp only [List.cons.injEq, and_true] at e; exact newIdx_ne_newPack _ _ e.symm
            unfold IsFile; rw [h2 _ (hpi j i) this]; exact hf
        by_cases hji : j = i
        · subst hji
          simp only [if_true, List.mem_append, List.mem_singleton] at hj
          rcases hj with hj | hj
          · exact hold (inv.pack j hj)
          · rcases create_step hmem hfs with h | ⟨-, h1, -⟩ | ⟨h1, -⟩
            · -- a rename is not one of the other calls
              subst hj
              rcases ha : t.fs (packTmpPath (tp j)) with _ | _ | ⟨c, m⟩
              · simp [Fs.step, ha] at hfs
              · simp [Fs.step, ha] at hfs
              · have hr' : t.fs.run [.rename (packTmpPath (tp j)) [newPackName (sha j)]] = some fs := by simp [Fs.run, hfs]
                have := run_rename ha hr'
                simp only [Fs.run, Option.some.injEq] at this
                subst this
                exact ⟨c, m, by simp only; rw [Fs.set_same]⟩
            · exact h1
            · rw [h1] at hj
              simp only [Ev.rename.injEq] at hj
              exact absurd hj.1.symm (Ne.symm (tmps_ne _ _))
        · simp only [hji, if_false] at hj
          exact hold (inv.pack j hj)
      · intro q hq
        by_cases hqt : t.fs q = fs0 q
        · have hch : fs q ≠ t.fs q := by rw [hqt]; exact hq
          rcases create_step hmem hfs with h | ⟨h0', -, h⟩ | ⟨h1, h⟩
          · left
            refine ⟨i, ?_⟩
            by_cases h1 : q = packTmpPath (tp i)
            · exact .inl h1
            · by_cases h2 : q = idxTmpPath (ti i)
              · exact .inr h2
              · exact absurd (h q h1 h2) hch
          · by_cases h1 : q = packTmpPath (tp i)
            · exact .inl ⟨i, .inl h1⟩
            · by_cases h2 : q = [newPackName (sha i)]
              · exact .inr (.inl ⟨i, h2, by simp [h0']⟩)
              · exact absurd (h q h1 h2) hch
          · by_cases h2 : q = idxTmpPath (ti i)
            · exact .inl ⟨i, .inr h2⟩
            · by_cases h3 : q = [newIdxName (sha i)]
              · refine .inr (.inr ⟨i, h3, ?_⟩)
                simp [h1]
              · exact absurd (h q h2 h3) hch
        · rcases inv.same q hqt with h | ⟨j, h1, h2⟩ | ⟨j, h1, h2⟩
          · exact .inl h
          · refine .inr (.inl ⟨j, h1, ?_⟩)
            by_cases hji : j = i
            · subst hji; simp [h2]
            · simp [hji, h2]
          · refine .inr (.inr ⟨j, h1, ?_⟩)
            by_cases hji : j = i
            · subst hji; simp [h2]
            · simp [hji, h2]
      · intro j
        by_cases hj : j = i
        · subst hj
          simp only [if_true]
          rw [← hd j, hi]; simp
        · simp only [hj, if_false]; exact hd j

end GitDB
