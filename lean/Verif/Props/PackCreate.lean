import Verif.Proofs.PackCreate
import Verif.Props.PackedDB
/-!
# C33: creating a pack
-/
set_option autoImplicit false

namespace GitDB.Props
open GitDB Spec

variable {σ : Type}

/-- No index without its pack. -/
def Paired (fs : Fs) : Prop := ∀ p, IsPackName p → IsFile fs [idxName p] → IsFile fs [p]

/-- No pack without its index. -/
def Complete (fs : Fs) : Prop := ∀ p, IsPackName p → IsFile fs [p] → IsFile fs [idxName p]

theorem idxName_pack (mid : Bytes) :
    idxName ([0x70, 0x61, 0x63, 0x6b, 0x2d] ++ mid ++ [0x2e, 0x70, 0x61, 0x63, 0x6b]) =
      [0x70, 0x61, 0x63, 0x6b, 0x2d] ++ mid ++ idxSuffix := by
  unfold idxName
  congr 1
  rw [List.length_append, show [(0x2e : UInt8), 0x70, 0x61, 0x63, 0x6b].length = 5 from rfl, Nat.add_sub_cancel, List.take_left]

theorem idxName_inj {p q : Bytes} (hp : IsPackName p) (hq : IsPackName q) (h : idxName p = idxName q) : p = q := by
  obtain ⟨a, rfl⟩ := hp
  obtain ⟨b, rfl⟩ := hq
  rw [idxName_pack, idxName_pack] at h
  rw [List.append_cancel_right h]

theorem idxName_ne_pack {p q : Bytes} (hp : IsPackName p) (hq : IsPackName q) : idxName p ≠ q := by
  obtain ⟨a, rfl⟩ := hp
  obtain ⟨b, rfl⟩ := hq
  rw [idxName_pack]
  intro e
  have h1 : ([0x70, 0x61, 0x63, 0x6b, 0x2d] ++ a ++ idxSuffix).getLast? = some 0x78 := by
    rw [List.getLast?_append]; rfl
  have h2 : ([0x70, 0x61, 0x63, 0x6b, 0x2d] ++ b ++ [0x2e, 0x70, 0x61, 0x63, 0x6b] : Bytes).getLast? = some 0x6b := by
    rw [List.getLast?_append]; rfl
  rw [e, h2] at h1
  simp at h1

theorem tmp_ne_pack {tp p : Bytes} (h : (0x2d : UInt8) ∉ tp) (hp : IsPackName p) :
    [p] ≠ packTmpPath tp ∧ [idxName p] ≠ packTmpPath tp := by
  obtain ⟨a, rfl⟩ := hp
  rw [idxName_pack]
  constructor <;>
  · intro e
    simp only [packTmpPath, List.cons_append, List.nil_append, List.cons.injEq, and_true, true_and] at e
    rw [← e] at h
    simp at h

theorem tmp_ne_idx {ti p : Bytes} (hp : IsPackName p) : [p] ≠ idxTmpPath ti ∧ [idxName p] ≠ idxTmpPath ti := by
  obtain ⟨a, rfl⟩ := hp
  rw [idxName_pack]
  constructor <;>
  · intro e
    simp [idxTmpPath] at e

/-- A pack or index name. -/
def Visible (name : Bytes) : Prop := ∃ p, IsPackName p ∧ (name = p ∨ name = idxName p)

/-- **C33** Wherever `create` is interrupted (by a failing call or a crash), with whatever the operating system does with the
writes: only one pack name, and the index name belonging to it, can have changed, and there is no index without its pack. -/
theorem C33_crash (H : Hash) (zl : Zlib) (fuel : Nat) (env : CreateEnv) (read : σ → Int → σ × Res Bytes)
    (objs : List (PackIn σ)) (n : Option Nat) (level : Int) (h1 : NoDash env.packTmp) (fs fs' : Fs) (pre : List Ev)
    (hpre : pre <+: (createPack H zl fuel env read objs n level).1) (hrun : fs.run pre = some fs') :
    ∃ p, IsPackName p ∧ (∀ name, Visible name → name ≠ p → name ≠ idxName p → fs' [name] = fs [name]) ∧
      (Paired fs → Paired fs') := by
  obtain ⟨tp, ti, cs, ds, sha, hd, htr, -, -⟩ := createPack_prefix H zl fuel env read objs n level h1
  have hP := newPack_isPack sha
  have hvis : ∀ name, Visible name → [name] ≠ packTmpPath tp ∧ [name] ≠ idxTmpPath ti := by
    rintro name ⟨p, hp, rfl | rfl⟩
    · exact ⟨(tmp_ne_pack hd hp).1, (tmp_ne_idx hp).1⟩
    · exact ⟨(tmp_ne_pack hd hp).2, (tmp_ne_idx hp).2⟩
  refine ⟨newPackName sha, hP, ?_, ?_⟩
  · intro name hv k1 k2
    obtain ⟨v1, v2⟩ := hvis name hv
    have e1 : [name] ≠ [newPackName sha] := by simpa using k1
    have e2 : [name] ≠ [newIdxName sha] := by rw [newIdxName_eq]; simpa using k2
    rcases create_states (hpre.trans htr) hrun with ⟨-, h⟩ | ⟨-, -, h⟩ | ⟨-, -, -, h⟩
    · exact h _ v1 v2
    · exact h _ v1 v2 e1
    · exact h _ v1 v2 e1 e2
  · intro hpair p hp hf
    obtain ⟨v1, v2⟩ := hvis p ⟨p, hp, .inl rfl⟩
    obtain ⟨w1, w2⟩ := hvis (idxName p) ⟨p, hp, .inr rfl⟩
    have e3 : [idxName p] ≠ [newPackName sha] := by simpa using idxName_ne_pack hp hP
    rcases create_states (hpre.trans htr) hrun with ⟨-, h⟩ | ⟨-, hc, h⟩ | ⟨-, hc, -, h⟩
    · unfold IsFile at hf ⊢
      rw [h _ w1 w2] at hf
      rw [h _ v1 v2]
      exact hpair p hp hf
    · by_cases hpp : p = newPackName sha
      · rw [hpp]; exact ⟨_, _, hc⟩
      · unfold IsFile at hf ⊢
        rw [h _ w1 w2 e3] at hf
        rw [h _ v1 v2 (by simpa using hpp)]
        exact hpair p hp hf
    · by_cases hpp : p = newPackName sha
      · rw [hpp]; exact ⟨_, _, hc⟩
      · have e4 : [idxName p] ≠ [newIdxName sha] := by
          rw [newIdxName_eq]; intro e
          simp only [List.cons.injEq, and_true] at e
          exact hpp (idxName_inj hp hP e)
        have e5 : [p] ≠ [newIdxName sha] := by
          rw [newIdxName_eq]; intro e
          simp only [List.cons.injEq, and_true] at e
          exact idxName_ne_pack hP hp e.symm
        unfold IsFile at hf ⊢
        rw [h _ w1 w2 e3 e4] at hf
        rw [h _ v1 v2 (by simpa using hpp) e5]
        exact hpair p hp hf

/-- **C33** Any number of processes creating packs at the same time in one directory, interleaved in any way, any of them
crashing anywhere: packs and indices of the directory change only under the names of new packs, all packs stay, and there
is never an index without its pack. -/
theorem C33_concurrent {ι : Type} [DecidableEq ι] (H : Hash) (zl : Zlib) (fuel : ι → Nat) (env : ι → CreateEnv)
    (read : σ → Int → σ × Res Bytes) (objs : ι → List (PackIn σ)) (n : ι → Option Nat) (level : ι → Int)
    (h1 : ∀ i, NoDash (env i).packTmp) (s t : Sys ι)
    (hs : ∀ i, s.todo i = (createPack H zl (fuel i) (env i) read (objs i) (n i) (level i)).1) (h : Sys.Reach s t) :
    (∀ name, Visible name → t.fs [name] ≠ s.fs [name] →
      ∃ i a, Ev.rename a [name] ∈ (createPack H zl (fuel i) (env i) read (objs i) (n i) (level i)).1) ∧
    (∀ p, IsPackName p → IsFile s.fs [p] → IsFile t.fs [p]) ∧ (Paired s.fs → Paired t.fs) := by
  have hall := fun i => createPack_prefix H zl (fuel i) (env i) read (objs i) (n i) (level i) (h1 i)
  obtain ⟨tp, hall⟩ := Classical.skolem.1 hall
  obtain ⟨ti, hall⟩ := Classical.skolem.1 hall
  obtain ⟨cs, hall⟩ := Classical.skolem.1 hall
  obtain ⟨ds, hall⟩ := Classical.skolem.1 hall
  obtain ⟨sha, hall⟩ := Classical.skolem.1 hall
  obtain ⟨done, inv, hdone⟩ := createInv_reach (fs0 := s.fs) (tp := tp) (ti := ti) (cs := cs) (ds := ds) (sha := sha)
    (fun i => (hall i).1) rfl (fun i => by rw [hs i]; exact (hall i).2.1) h
  have hsub : ∀ i, ∀ e ∈ done i, e ∈ (createPack H zl (fuel i) (env i) read (objs i) (n i) (level i)).1 := by
    intro i e he
    rw [← hs i, ← hdone i]
    exact List.mem_append_left _ he
  have htmp : ∀ name, Visible name → ∀ i, [name] ≠ packTmpPath (tp i) ∧ [name] ≠ idxTmpPath (ti i) := by
    rintro name ⟨p, hp, rfl | rfl⟩ i
    · exact ⟨(tmp_ne_pack (hall i).1 hp).1, (tmp_ne_idx hp).1⟩
    · exact ⟨(tmp_ne_pack (hall i).1 hp).2, (tmp_ne_idx hp).2⟩
  have hpi : ∀ p, IsPackName p → ∀ i, [p] ≠ [newIdxName (sha i)] := by
    intro p hp i e
    rw [newIdxName_eq] at e
    simp only [List.cons.injEq, and_true] at e
    exact idxName_ne_pack (newPack_isPack _) hp e.symm
  have hkeep : ∀ p, IsPackName p → IsFile s.fs [p] → IsFile t.fs [p] := by
    intro p hp hf
    by_cases hq : t.fs [p] = s.fs [p]
    · unfold IsFile; rw [hq]; exact hf
    · rcases inv.same _ hq with ⟨i, h | h⟩ | ⟨i, h, hm⟩ | ⟨i, h, -⟩
      · exact absurd h (htmp p ⟨p, hp, .inl rfl⟩ i).1
      · exact absurd h (htmp p ⟨p, hp, .inl rfl⟩ i).2
      · rw [h]; exact inv.pack i hm
      · exact absurd h (hpi p hp i)
  refine ⟨?_, hkeep, ?_⟩
  · intro name hv hq
    rcases inv.same _ hq with ⟨i, h | h⟩ | ⟨i, h, hm⟩ | ⟨i, h, hm⟩
    · exact absurd h (htmp name hv i).1
    · exact absurd h (htmp name hv i).2
    · exact ⟨i, _, by rw [h]; exact hsub i _ hm⟩
    · exact ⟨i, _, by rw [h]; exact hsub i _ hm⟩
  · intro hpair p hp hf
    by_cases hq : t.fs [idxName p] = s.fs [idxName p]
    · unfold IsFile at hf
      rw [hq] at hf
      exact hkeep p hp (hpair p hp hf)
    · rcases inv.same _ hq with ⟨i, h | h⟩ | ⟨i, h, hm⟩ | ⟨i, h, hm⟩
      · exact absurd h (htmp _ ⟨p, hp, .inr rfl⟩ i).1
      · exact absurd h (htmp _ ⟨p, hp, .inr rfl⟩ i).2
      · simp only [List.cons.injEq, and_true] at h
        exact absurd h (idxName_ne_pack hp (newPack_isPack _))
      · rw [newIdxName_eq] at h
        simp only [List.cons.injEq, and_true] at h
        rw [idxName_inj hp (newPack_isPack _) h]
        exact inv.pack i (rename_order ((List.prefix_append _ _).trans (inv.split i)) hm)

/-! ### Lookups while a pack is created -/

/-- The new pack does not replace an existing one. -/
def FreshNames (fs : Fs) (tr : List Ev) : Prop :=
  ∀ a p, IsPackName p → Ev.rename a [p] ∈ tr → fs [p] = none ∧ fs [idxName p] = none

theorem fd_stores (cap : Nat) : Stores Fd.write (fun f out => f.chunks.flatten = out ∧ f.plan = [] ∧ f.closed = false) cap := by
  intro f out d h _
  obtain ⟨h1, h2, h3⟩ := h
  refine ⟨{ f with chunks := f.chunks ++ [d] }, d.length, ?_, ?_, h2, h3⟩
  · unfold Fd.write; rw [h3, h2]; rfl
  · simp [h1]

/-- With complete writes, `create` writes a readable pack and an index listing the objects. -/
theorem create_written {read : σ → Int → σ × Res Bytes} {Rep : σ → Bytes → Prop} (zl : Zlib) (L : ZlibLaws zl)
    (hr : BoundedReads read Rep) (H : Hash) (fuel : Nat) (level : Int) (l : List (PackIn σ × Bytes))
    (hl : Packable Rep zl level fuel l) (env : CreateEnv) (h1 : NoDash env.packTmp) (hp : env.packPlan = []) (hi : env.idxPlan = []) :
    ∃ tp ti cs ds sha pk names, (0x2d : UInt8) ∉ tp ∧
      (createPack H zl fuel env read (l.map Prod.fst) none level).1 <+: fullTrace tp ti cs ds sha ∧
      PackFile.load cs.flatten = .ok pk ∧ IsIndex ds.flatten names ∧ ∀ x, x ∈ names ↔ x ∈ l.map fun q => q.1.sha := by
  obtain ⟨w', iw', es, isha, k1, k2, -, ⟨k3, -⟩, ⟨k4, -⟩, k5, -, -, k6⟩ :=
    written_spec zl L hr fd_stores fd_stores H fuel level l hl {} ⟨rfl, rfl, rfl⟩ {} ⟨rfl, rfl, rfl⟩
  refine ⟨env.packTmp.getD [], env.idxTmp.getD [], w'.chunks, iw'.chunks, H.digest (packBody es), _,
    (sortObjs (idxOf 12 es)).map IdxObj.sha, ?_, ?_, by rw [k3]; exact packFile_load es _ k6, ?_, ?_⟩
  · rcases ht : env.packTmp with _ | tp
    · simp
    · exact h1 tp ht
  · unfold createPack
    rcases ht : env.packTmp with _ | tp
    · exact List.nil_prefix
    · rcases hti : env.idxTmp with _ | ti
      · exact ⟨_, rfl⟩
      · simp only [hp, hi, k2, Option.getD_some]
        split
        · exact ⟨_, rfl⟩
        · split
          · refine ⟨[.rename (idxTmpPath ti) [newIdxName (H.digest (packBody es))]], ?_⟩
            simp [fullTrace]
          · exact List.prefix_refl _
  · have hnm : ((sortObjs (idxOf 12 es)).map IdxObj.toEntry).map Entry.name = (sortObjs (idxOf 12 es)).map IdxObj.sha := by
      rw [List.map_map]; rfl
    exact ⟨sortObjs_sorted _, _, _, _, hnm.symm, .inl ⟨(k5.perm (sortObjs_perm _)).valid, k4⟩⟩
  · intro x
    rw [((sortObjs_perm (idxOf 12 es)).map IdxObj.sha).mem_iff, idxOf_sha, all2_names k1]

/-- What the theorem below says, without the condition that no pack lacks its index. -/
def C33_full : Prop :=
  ∀ {σ : Type} {read : σ → Int → σ × Res Bytes} {Rep : σ → Bytes → Prop} (zl : Zlib), ZlibLaws zl →
    BoundedReads read Rep → ∀ (H : Hash) (fuel : Nat) (level : Int) (l : List (PackIn σ × Bytes)), Packable Rep zl level fuel l →
    ∀ (env : CreateEnv), NoDash env.packTmp → env.packPlan = [] → env.idxPlan = [] →
    ∀ (order : List Bytes → List Bytes), (∀ l, (order l).Perm l) → ∀ (fs fs' : Fs) (pre : List Ev),
    pre <+: (createPack H zl fuel env read (l.map Prod.fst) none level).1 → fs.run pre = some fs' →
    FreshNames fs (createPack H zl fuel env read (l.map Prod.fst) none level).1 →
    ∀ (d d' : PackDir), ViewOf fs d → ViewOf fs' d' → Usable d → ∀ (names : Bytes → List Bytes),
    (∀ p ∈ d.files.map Prod.fst, IsPackName p → ∃ c, d.get (idxName p) = some c ∧ IsIndex c (names p)) →
    ∀ (ops : List PackOp) (sha : Bytes), sha ≠ [] → (∃ p ∈ d.files.map Prod.fst, IsPackName p ∧ sha ∈ names p) →
    ((ops.foldl (packStep zl order (some d')) {}).hasObject order (some d') sha).2 = .ok true

theorem view_mem {fs : Fs} {d : PackDir} (h : ViewOf fs d) (name : Bytes) : name ∈ d.files.map Prod.fst ↔ IsFile fs [name] := by
  have hg : (∃ c, d.get name = some c) ↔ name ∈ d.files.map Prod.fst := by
    unfold PackDir.get
    constructor
    · rintro ⟨c, hc⟩
      obtain ⟨x, hx, -⟩ := Option.map_eq_some_iff.mp hc
      have := List.find?_some hx
      simp only [beq_iff_eq] at this
      rw [← this]; exact List.mem_map_of_mem (List.mem_of_find?_eq_some hx)
    · intro hm
      obtain ⟨x, hx, rfl⟩ := List.mem_map.mp hm
      rcases hf : d.files.find? (fun f => f.1 == x.1) with _ | y
      · have := List.find?_eq_none.mp hf x hx
        simp at this
      · exact ⟨y.2, by rw [hf]; rfl⟩
  rw [← hg]
  constructor
  · rintro ⟨c, hc⟩
    obtain ⟨m, hm⟩ := (h.2 name c).mp hc
    exact ⟨c, m, hm⟩
  · rintro ⟨c, m, hm⟩
    exact ⟨c, (h.2 name c).mpr ⟨m, hm⟩⟩

theorem view_get {fs fs' : Fs} {d d' : PackDir} (h : ViewOf fs d) (h' : ViewOf fs' d') {name : Bytes} (he : fs' [name] = fs [name]) :
    d'.get name = d.get name := by
  have key : ∀ c, d'.get name = some c ↔ d.get name = some c := by
    intro c; rw [h.2, h'.2, he]
  rcases hd : d.get name with _ | c
  · rcases hd' : d'.get name with _ | c
    · rfl
    · have := (key c).mp hd'; rw [hd] at this; simp at this
  · exact (key c).mpr hd

/-- **C33** Wherever `create` is interrupted, a pack database opened then finds every object it found before, and the new ones
once the index is in place - provided no pack lacks its index at that point, which is the case except between the two renames. -/
theorem C33_lookup_partial {read : σ → Int → σ × Res Bytes} {Rep : σ → Bytes → Prop} (zl : Zlib) (L : ZlibLaws zl)
    (hr : BoundedReads read Rep) (H : Hash) (fuel : Nat) (level : Int) (l : List (PackIn σ × Bytes))
    (hl : Packable Rep zl level fuel l) (env : CreateEnv) (h1 : NoDash env.packTmp) (hp : env.packPlan = []) (hi : env.idxPlan = [])
    (order : List Bytes → List Bytes) (ho : ∀ l, (order l).Perm l) (fs fs' : Fs) (pre : List Ev)
    (hpre : pre <+: (createPack H zl fuel env read (l.map Prod.fst) none level).1) (hrun : fs.run pre = some fs')
    (hfresh : FreshNames fs (createPack H zl fuel env read (l.map Prod.fst) none level).1)
    (d d' : PackDir) (hd : ViewOf fs d) (hd' : ViewOf fs' d') (hu : Usable d) (names : Bytes → List Bytes)
    (hx : ∀ p ∈ d.files.map Prod.fst, IsPackName p → ∃ c, d.get (idxName p) = some c ∧ IsIndex c (names p))
    (hcomplete : Complete fs') (ops : List PackOp) (sha : Bytes) (hsha : sha ≠ []) :
    ∃ b, ((ops.foldl (packStep zl order (some d')) {}).hasObject order (some d') sha).2 = .ok b ∧
      (b = true ↔ (∃ p ∈ d.files.map Prod.fst, IsPackName p ∧ sha ∈ names p) ∨
        ((∃ p, IsPackName p ∧ IsFile fs' [p] ∧ ¬ IsFile fs [p]) ∧ sha ∈ l.map fun q => q.1.sha)) := by
  obtain ⟨tp, ti, cs, ds, psha, pk, nnames, hdash, htr, hpk, hidx, hnn⟩ := create_written zl L hr H fuel level l hl env h1 hp hi
  have hP := newPack_isPack psha
  have hvp : ∀ p, IsPackName p → [p] ≠ packTmpPath tp ∧ [p] ≠ idxTmpPath ti := fun p hp =>
    ⟨(tmp_ne_pack hdash hp).1, (tmp_ne_idx hp).1⟩
  have hvi : ∀ p, IsPackName p → [idxName p] ≠ packTmpPath tp ∧ [idxName p] ≠ idxTmpPath ti := fun p hp =>
    ⟨(tmp_ne_pack hdash hp).2, (tmp_ne_idx hp).2⟩
  have hsame : (∀ p, IsPackName p → fs' [p] = fs [p] ∧ fs' [idxName p] = fs [idxName p]) →
      ∃ b, ((ops.foldl (packStep zl order (some d')) {}).hasObject order (some d') sha).2 = .ok b ∧
      (b = true ↔ (∃ p ∈ d.files.map Prod.fst, IsPackName p ∧ sha ∈ names p) ∨
        ((∃ p, IsPackName p ∧ IsFile fs' [p] ∧ ¬ IsFile fs [p]) ∧ sha ∈ l.map fun q => q.1.sha)) := by
    intro hs
    have hm : ∀ p, IsPackName p → (p ∈ d'.files.map Prod.fst ↔ p ∈ d.files.map Prod.fst) := by
      intro p hp
      rw [view_mem hd, view_mem hd']; unfold IsFile; rw [(hs p hp).1]
    obtain ⟨b, h1, h2⟩ := C42_directory zl order ho d' ⟨hd'.1, by
        intro p hm' hp
        rw [view_get hd hd' (hs p hp).1]
        exact hu.2 p ((hm p hp).mp hm') hp⟩ names (by
        intro p hm' hp
        rw [view_get hd hd' (hs p hp).2]
        exact hx p ((hm p hp).mp hm') hp) ops sha hsha
    refine ⟨b, h1, h2.trans ?_⟩
    constructor
    · rintro ⟨p, a, b, c⟩; exact .inl ⟨p, (hm p b).mp a, b, c⟩
    · rintro (⟨p, a, b, c⟩ | ⟨⟨p, a, b, c⟩, -⟩)
      · exact ⟨p, (hm p b).mpr a, b, c⟩
      · unfold IsFile at b c; rw [(hs p a).1] at b; exact absurd b c
  rcases create_states (hpre.trans htr) hrun with ⟨-, h⟩ | ⟨⟨-, hm⟩, hc, h⟩ | ⟨hm, hc, hci, h⟩
  · exact hsame fun p hp => ⟨h _ (hvp p hp).1 (hvp p hp).2, h _ (hvi p hp).1 (hvi p hp).2⟩
  · exfalso
    obtain ⟨-, f2⟩ := hfresh _ _ hP (hpre.subset hm)
    obtain ⟨c, m, e⟩ := hcomplete _ hP ⟨_, _, hc⟩
    rw [h _ (hvi _ hP).1 (hvi _ hP).2 (by simpa using idxName_ne_pack hP hP), f2] at e
    simp at e
  · obtain ⟨f1, f2⟩ := hfresh _ _ hP (hpre.subset hm)
    rw [newIdxName_eq] at hci h
    have hold : ∀ p, IsPackName p → p ≠ newPackName psha → fs' [p] = fs [p] ∧ fs' [idxName p] = fs [idxName p] := by
      intro p hp hne
      refine ⟨h _ (hvp p hp).1 (hvp p hp).2 (by simpa using hne) (by simpa using (idxName_ne_pack hP hp).symm),
        h _ (hvi p hp).1 (hvi p hp).2 (by simpa using idxName_ne_pack hp hP) ?_⟩
      intro e
      simp only [List.cons.injEq, and_true] at e
      exact hne (idxName_inj hp hP e)
    have hnotold : newPackName psha ∉ d.files.map Prod.fst := by
      rw [view_mem hd]
      rintro ⟨c, m, e⟩
      rw [f1] at e; simp at e
    have hnew : newPackName psha ∈ d'.files.map Prod.fst := by
      rw [view_mem hd']; exact ⟨_, _, hc⟩
    have hm : ∀ p, IsPackName p → p ≠ newPackName psha → (p ∈ d'.files.map Prod.fst ↔ p ∈ d.files.map Prod.fst) := by
      intro p hp hne
      rw [view_mem hd, view_mem hd']; unfold IsFile; rw [(hold p hp hne).1]
    obtain ⟨b, h1, h2⟩ := C42_directory zl order ho d' ⟨hd'.1, by
        intro p hm' hp
        by_cases hne : p = newPackName psha
        · rw [hne]; exact ⟨_, _, (hd'.2 _ _).mpr ⟨_, hc⟩, hpk⟩
        · rw [view_get hd hd' (hold p hp hne).1]
          exact hu.2 p ((hm p hp hne).mp hm') hp⟩
        (fun p => if p = newPackName psha then nnames else names p) (by
        intro p hm' hp
        by_cases hne : p = newPackName psha
        · rw [hne, if_pos rfl]; exact ⟨_, (hd'.2 _ _).mpr ⟨_, hci⟩, hidx⟩
        · rw [view_get hd hd' (hold p hp hne).2, if_neg hne]
          exact hx p ((hm p hp hne).mp hm') hp) ops sha hsha
    refine ⟨b, h1, h2.trans ?_⟩
    constructor
    · rintro ⟨p, a, b, c⟩
      by_cases hne : p = newPackName psha
      · simp only [hne, if_true] at c
        refine .inr ⟨⟨_, hP, ⟨_, _, hc⟩, ?_⟩, (hnn sha).mp c⟩
        rintro ⟨c, m, e⟩; rw [f1] at e; simp at e
      · simp only [hne, if_false] at c
        exact .inl ⟨p, (hm p b hne).mp a, b, c⟩
    · rintro (⟨p, a, b, c⟩ | ⟨-, c⟩)
      · have hne : p ≠ newPackName psha := by rintro rfl; exact hnotold a
        exact ⟨p, (hm p b hne).mpr a, b, by simp only [hne, if_false]; exact c⟩
      · exact ⟨_, hnew, hP, by simp only [if_true]; exact (hnn sha).mpr c⟩

/-- **C33** A database that has loaded its packs before - indices mapped or not - keeps finding exactly the objects of these
packs at every point, also between the renames, and whatever happens to the writes, until it is refreshed. -/
theorem C33_loaded (H : Hash) (zl : Zlib) (fuel : Nat) (env : CreateEnv) (read : σ → Int → σ × Res Bytes)
    (objs : List (PackIn σ)) (n : Option Nat) (level : Int) (h1 : NoDash env.packTmp) (fs fs' : Fs) (pre : List Ev)
    (hpre : pre <+: (createPack H zl fuel env read objs n level).1) (hrun : fs.run pre = some fs')
    (hfresh : FreshNames fs (createPack H zl fuel env read objs n level).1)
    (d d' : PackDir) (hd : ViewOf fs d) (hd' : ViewOf fs' d') (order : List Bytes → List Bytes) (db : PackedDB) (l : List PackItem)
    (hl : db.entities = some l) (names : PackItem → List Bytes) (hx : ∀ it ∈ l, Lists d it (names it))
    (hpack : ∀ it ∈ l, it.path ∈ d.files.map Prod.fst ∧ IsPackName it.path) (sha : Bytes) (hsha : sha ≠ []) :
    ∃ b, (db.hasObject order (some d') sha).2 = .ok b ∧ (b = true ↔ ∃ it ∈ l, sha ∈ names it) := by
  obtain ⟨tp, ti, cs, ds, psha, hdash, htr, -, -⟩ := createPack_prefix H zl fuel env read objs n level h1
  have hP := newPack_isPack psha
  have hidx : ∀ p, IsPackName p → p ∈ d.files.map Prod.fst → fs' [idxName p] = fs [idxName p] := by
    intro p hp hm'
    have v1 := (tmp_ne_pack hdash hp).2
    have v2 := (tmp_ne_idx (ti := ti) hp).2
    rw [view_mem hd] at hm'
    have hne : ∀ a, Ev.rename a [newPackName psha] ∈ pre → p ≠ newPackName psha := by
      rintro a hm rfl
      obtain ⟨c, m, e⟩ := hm'
      rw [(hfresh _ _ hP (hpre.subset hm)).1] at e
      simp at e
    rcases create_states (hpre.trans htr) hrun with ⟨-, h⟩ | ⟨⟨-, hm⟩, hc, h⟩ | ⟨hm, hc, hci, h⟩
    · exact h _ v1 v2
    · exact h _ v1 v2 (by simpa using idxName_ne_pack hp hP)
    · refine h _ v1 v2 (by simpa using idxName_ne_pack hp hP) ?_
      rw [newIdxName_eq]
      intro e
      simp only [List.cons.injEq, and_true] at e
      exact hne _ hm (idxName_inj hp hP e)
  have hx' : ∀ it ∈ l, Lists d' it (names it) := by
    intro it hit
    obtain ⟨c, hc, hi⟩ := hx it hit
    refine ⟨c, ?_, hi⟩
    unfold PackItem.content at hc ⊢
    rcases hidx' : it.idx with _ | c'
    · rw [hidx'] at hc
      simp only at hc ⊢
      rw [view_get hd hd' (hidx it.path (hpack it hit).2 (hpack it hit).1)]
      exact hc
    · rw [hidx'] at hc; exact hc
  have hp : PInv (dirFiles (some d')) (l.map (PackItem.key (dirFiles (some d')))) [] l := by
    refine ⟨?_, by simp, l, [], by simp, List.Perm.refl _, rfl, List.Pairwise.nil, by simp⟩
    intro k hk
    obtain ⟨it, hit, rfl⟩ := List.mem_map.mp hk
    obtain ⟨c, hc, hi⟩ := hx' it hit
    obtain ⟨x, hx, -⟩ := isIndex_load hi
    exact ⟨x, by unfold PackItem.key; show indexOf (it.content d') = _; rw [hc]; exact hx⟩
  rw [(packInfo_inv hl hp hsha).2.1]
  have : (l.map (PackItem.key (dirFiles (some d')))).any (keyHas sha) = true ↔ ∃ it ∈ l, sha ∈ names it := by
    rw [List.any_eq_true]
    constructor
    · rintro ⟨k, hk, h⟩
      obtain ⟨it, hit, rfl⟩ := List.mem_map.mp hk
      exact ⟨it, hit, (keyHas_iff (hx' it hit) hsha).mp h⟩
    · rintro ⟨it, hit, h⟩
      exact ⟨_, List.mem_map_of_mem hit, (keyHas_iff (hx' it hit) hsha).mpr h⟩
  unfold answer
  by_cases h : (l.map (PackItem.key (dirFiles (some d')))).any (keyHas sha) = true
  · rw [if_pos h]; exact ⟨true, rfl, by simp [this.mp h]⟩
  · rw [if_neg h]
    refine ⟨false, rfl, by simpa using fun it hit hm => h (this.mpr ⟨it, hit, hm⟩)⟩

/-- **C33** When `create` succeeds, a pack database opened afterwards finds exactly the old and the new objects. -/
theorem C33_done {read : σ → Int → σ × Res Bytes} {Rep : σ → Bytes → Prop} (zl : Zlib) (L : ZlibLaws zl)
    (hr : BoundedReads read Rep) (H : Hash) (fuel : Nat) (level : Int) (l : List (PackIn σ × Bytes))
    (hl : Packable Rep zl level fuel l) (env : CreateEnv) (h1 : NoDash env.packTmp) (hp : env.packPlan = []) (hi : env.idxPlan = [])
    (order : List Bytes → List Bytes) (ho : ∀ l, (order l).Perm l) (fs fs' : Fs) (tr : List Ev) (new : Bytes)
    (htr : createPack H zl fuel env read (l.map Prod.fst) none level = (tr, .ok new)) (hrun : fs.run tr = some fs')
    (hfresh : FreshNames fs tr)
    (d d' : PackDir) (hd : ViewOf fs d) (hd' : ViewOf fs' d') (hu : Usable d) (names : Bytes → List Bytes)
    (hx : ∀ p ∈ d.files.map Prod.fst, IsPackName p → ∃ c, d.get (idxName p) = some c ∧ IsIndex c (names p))
    (ops : List PackOp) (sha : Bytes) (hsha : sha ≠ []) :
    ∃ b, ((ops.foldl (packStep zl order (some d')) {}).hasObject order (some d') sha).2 = .ok b ∧
      (b = true ↔ (∃ p ∈ d.files.map Prod.fst, IsPackName p ∧ sha ∈ names p) ∨ sha ∈ l.map fun q => q.1.sha) := by
  obtain ⟨tp, ti, cs, ds, psha, hdash, he⟩ : ∃ tp ti cs ds psha, (0x2d : UInt8) ∉ tp ∧ tr = fullTrace tp ti cs ds psha := by
    unfold createPack at htr
    rcases ht : env.packTmp with _ | tp
    · simp [ht] at htr
    · rcases hti : env.idxTmp with _ | ti
      · simp [ht, hti] at htr
      · simp only [ht, hti] at htr
        split at htr
        · simp at htr
        · rename_i sha0 _ _
          split at htr
          · simp at htr
          · split at htr
            · simp at htr
            · simp only [Prod.mk.injEq] at htr
              exact ⟨tp, ti, _, _, sha0, h1 tp ht, htr.1.symm⟩
  have hP := newPack_isPack psha
  have hst := create_states (pre := tr) (by rw [he]; exact List.prefix_refl _) hrun
  have hfin : (fs' [newPackName psha] = some (.file cs.flatten 0o600) ∧ fs' [newIdxName psha] = some (.file ds.flatten 0o600) ∧
      ∀ q, q ≠ packTmpPath tp → q ≠ idxTmpPath ti → q ≠ [newPackName psha] → q ≠ [newIdxName psha] → fs' q = fs q) := by
    rcases hst with ⟨h, -⟩ | ⟨⟨h, -⟩, -⟩ | ⟨-, h⟩
    · have := h.length_le
      rw [he, fullTrace_eq] at this
      simp at this
      omega
    · rw [he, fullTrace_eq] at h
      have := congrArg List.length h
      simp at this
    · exact h
  obtain ⟨k1, k2, k3⟩ := hfin
  have hcomplete : Complete fs' := by
    intro p hp hf
    by_cases hne : p = newPackName psha
    · rw [hne, ← newIdxName_eq]; exact ⟨_, _, k2⟩
    · rw [newIdxName_eq] at k3
      unfold IsFile at hf
      rw [k3 _ (tmp_ne_pack hdash hp).1 (tmp_ne_idx hp).1 (by simpa using hne) (by simpa using (idxName_ne_pack hP hp).symm)] at hf
      obtain ⟨c, hc, -⟩ := hx p ((view_mem hd p).mpr hf) hp
      obtain ⟨m, hm⟩ := (hd.2 _ _).mp hc
      refine ⟨c, m, ?_⟩
      rw [k3 _ (tmp_ne_pack hdash hp).2 (tmp_ne_idx hp).2 (by simpa using idxName_ne_pack hp hP) ?_]
      · exact hm
      · intro e
        simp only [List.cons.injEq, and_true] at e
        exact hne (idxName_inj hp hP e)
  obtain ⟨b, a1, a2⟩ := C33_lookup_partial zl L hr H fuel level l hl env h1 hp hi order ho fs fs' tr
    (by rw [htr]; exact List.prefix_refl _) hrun (by rw [htr]; exact hfresh) d d' hd hd' hu names hx hcomplete ops sha hsha
  refine ⟨b, a1, a2.trans ?_⟩
  constructor
  · rintro (h | ⟨-, h⟩)
    · exact .inl h
    · exact .inr h
  · rintro (h | h)
    · exact .inl h
    · refine .inr ⟨⟨_, hP, ⟨_, _, k1⟩, ?_⟩, h⟩
      rintro ⟨c, m, e⟩
      rw [(hfresh (packTmpPath tp) _ hP (by rw [he, fullTrace_eq]; simp)).1] at e
      simp at e

/-! ### Instances, and what goes wrong between the renames -/

/-- A directory with one pack and its index. -/
def onePack : Fs := fun q =>
  if q = [nameA] then some (.file emptyPack 0o444)
  else if q = [idxName nameA] then some (.file (indexV2 exEntries [] []) 0o444)
  else none

def exEnv : CreateEnv := { packTmp := some [0x78], idxTmp := some [0x79] }

theorem exEnv_noDash : NoDash exEnv.packTmp := by
  intro r hr
  simp only [exEnv, Option.some.injEq] at hr
  subst hr; decide

def onePackDir : PackDir := ⟨1, [(nameA, emptyPack), (idxName nameA, indexV2 exEntries [] [])]⟩

theorem view_of_list {fs : Fs} {d : PackDir} (h1 : (d.files.map Prod.fst).Nodup)
    (h2 : ∀ name, fs [name] = (d.get name).map fun c => .file c (match fs [name] with | some (.file _ m) => m | _ => 0)) :
    ViewOf fs d := by
  refine ⟨h1, fun name c => ?_⟩
  constructor
  · intro h
    have := h2 name
    rw [h] at this
    exact ⟨_, this⟩
  · rintro ⟨m, hm⟩
    have := h2 name
    rw [hm] at this
    rcases hg : d.get name with _ | c'
    · rw [hg] at this; simp at this
    · rw [hg] at this
      simp only [Option.map_some, Option.some.injEq, Node.file.injEq] at this
      rw [this.1]

theorem onePack_view : ViewOf onePack onePackDir := by
  obtain ⟨ia, hia⟩ : ∃ ia, ia = indexV2 exEntries [] [] := ⟨_, rfl⟩
  refine view_of_list ?_ ?_
  · show [nameA, idxName nameA].Nodup
    decide
  · intro name
    unfold onePack onePackDir PackDir.get
    rw [← hia]
    by_cases h1 : name = nameA
    · subst h1; simp
    · by_cases h2 : name = idxName nameA
      · subst h2
        have : nameA ≠ idxName nameA := by decide
        simp [this, this.symm]
      · simp [h1, h2, Ne.symm h1, Ne.symm h2]

theorem onePack_usable : Usable onePackDir := by
  refine usable_of (by show [nameA, idxName nameA].Nodup; decide) ?_
  intro p hp
  obtain ⟨ia, hia⟩ : ∃ ia, ia = indexV2 exEntries [] [] := ⟨_, rfl⟩
  unfold onePackDir at hp ⊢
  rw [← hia] at hp ⊢
  rw [show PackDir.packs ⟨1, [(nameA, emptyPack), (idxName nameA, ia)]⟩ = [nameA] by rfl] at hp
  rw [List.mem_singleton.mp hp]
  exact ⟨emptyPack, ⟨emptyPack, 2, 0⟩, by rfl, by decide⟩

theorem onePack_names : ∀ p ∈ onePackDir.files.map Prod.fst, IsPackName p →
    ∃ c, onePackDir.get (idxName p) = some c ∧ IsIndex c (exEntries.map Entry.name) := by
  intro p h1 h2
  have := (mem_packs _ p).mpr ⟨h1, h2⟩
  obtain ⟨ia, hia⟩ : ∃ ia, ia = indexV2 exEntries [] [] := ⟨_, rfl⟩
  have he := exEntries_isIndex
  unfold onePackDir at this ⊢
  rw [← hia] at this he ⊢
  rw [show PackDir.packs ⟨1, [(nameA, emptyPack), (idxName nameA, ia)]⟩ = [nameA] by rfl] at this
  rw [List.mem_singleton.mp this]
  exact ⟨ia, rfl, he⟩

/-- The writing calls succeed when the temporary names are free. -/
theorem run_writeTrace_some {tp ti : Bytes} {cs ds : List Bytes} {fs : Fs} (h1 : fs (packTmpPath tp) = none)
    (h2 : fs (idxTmpPath ti) = none) : ∃ fs', fs.run (writeTrace tp ti cs ds) = some fs' := by
  have hne := tmps_ne tp ti
  have h3 : (fs.set (packTmpPath tp) (some (.file [] 0o600))) (idxTmpPath ti) = none := by
    rw [Fs.set_other _ _ (Ne.symm hne)]; exact h2
  have hc : fs.run [.create (packTmpPath tp), .create (idxTmpPath ti)] =
      some ((fs.set (packTmpPath tp) (some (.file [] 0o600))).set (idxTmpPath ti) (some (.file [] 0o600))) := by
    simp [Fs.run, Fs.step, h1, h3]
  unfold writeTrace
  rw [Fs.run_append, Fs.run_append, hc]
  simp only
  rw [run_appends (packTmpPath tp) cs _ [] 0o600 (by rw [Fs.set_other _ _ hne, Fs.set_same])]
  simp only
  rw [run_appends (idxTmpPath ti) ds _ [] 0o600 (by rw [Fs.set_other _ _ (Ne.symm hne), Fs.set_same])]
  exact ⟨_, rfl⟩

/-- The pack name contains a quote, which the names of the examples do not. -/
theorem newPack_quote (sha : Bytes) : (0x27 : UInt8) ∈ newPackName sha ∧ (0x27 : UInt8) ∈ newIdxName sha := by
  unfold newPackName newIdxName
  simp

theorem ex_trace {n : Nat} (hn : n < 2 ^ 59) : ∃ cs ds sha pk names,
    (createPack lenHash toyZlib (n + 2) exEnv bytesIORead ((twoBlobs n).map Prod.fst) none 1).1 =
      fullTrace [0x78] [0x79] cs ds sha ∧ PackFile.load cs.flatten = .ok pk ∧ pk.size = 2 ∧ IsIndex ds.flatten names := by
  obtain ⟨w', iw', es, isha, k1, k2, -, ⟨k3, -⟩, ⟨k4, -⟩, k5, -, -, k6⟩ :=
    written_spec toyZlib toyZlib_laws bytesIO_reads.toBoundedReads fd_stores fd_stores lenHash (n + 2) 1 (twoBlobs n)
      (twoBlobs_packable n hn) {} ⟨rfl, rfl, rfl⟩ {} ⟨rfl, rfl, rfl⟩
  refine ⟨w'.chunks, iw'.chunks, lenHash.digest (packBody es), _, (sortObjs (idxOf 12 es)).map IdxObj.sha, ?_,
    by rw [k3]; exact packFile_load es _ k6, ?_, ?_⟩
  · simp [createPack, exEnv, k2, fullTrace]
  · show es.length = 2
    rw [← all2_len k1]; rfl
  · have hnm : ((sortObjs (idxOf 12 es)).map IdxObj.toEntry).map Entry.name = (sortObjs (idxOf 12 es)).map IdxObj.sha := by
      rw [List.map_map]; rfl
    exact ⟨sortObjs_sorted _, _, _, _, hnm.symm, .inl ⟨(k5.perm (sortObjs_perm _)).valid, k4⟩⟩

theorem onePack_other {q : Path} (h1 : q ≠ [nameA]) (h2 : q ≠ [idxName nameA]) : onePack q = none := by
  unfold onePack; rw [if_neg h1, if_neg h2]

theorem onePack_tmp : onePack (packTmpPath [0x78]) = none ∧ onePack (idxTmpPath [0x79]) = none :=
  ⟨onePack_other (by decide) (by decide), onePack_other (by decide) (by decide)⟩

theorem new_ne_ex (sha : Bytes) : newPackName sha ≠ nameA ∧ newPackName sha ≠ idxName nameA ∧ newIdxName sha ≠ nameA ∧
    newIdxName sha ≠ idxName nameA := by
  have h := newPack_quote sha
  have ha : (0x27 : UInt8) ∉ nameA := by decide
  have hb : (0x27 : UInt8) ∉ idxName nameA := by decide
  exact ⟨fun e => ha (e ▸ h.1), fun e => hb (e ▸ h.1), fun e => ha (e ▸ h.2), fun e => hb (e ▸ h.2)⟩

theorem ex_fresh {cs ds : List Bytes} {sha : Bytes} : FreshNames onePack (fullTrace [0x78] [0x79] cs ds sha) := by
  intro a p hp hm
  have hne := new_ne_ex sha
  rcases fullTrace_mem hm with h | h | ⟨d, h⟩ | ⟨d, h⟩ | h | h
  · simp at h
  · simp at h
  · simp at h
  · simp at h
  · simp only [Ev.rename.injEq, List.cons.injEq, and_true] at h
    rw [h.2, ← newIdxName_eq]
    exact ⟨onePack_other (by simpa using hne.1) (by simpa using hne.2.1),
      onePack_other (by simpa using hne.2.2.1) (by simpa using hne.2.2.2)⟩
  · simp only [Ev.rename.injEq, List.cons.injEq, and_true] at h
    rw [newIdxName_eq] at h
    exact absurd h.2.symm (idxName_ne_pack (newPack_isPack _) hp)

/-- **C33** fails between the two renames: a pack database opened there raises `FileNotFoundError` for an object it would
have found before. -/
theorem C33_not_full : ¬ C33_full := by
  intro hfull
  obtain ⟨cs, ds, sha, pk, names, htr, hpk, hsz, -⟩ := ex_trace (n := 1) (by omega)
  have hne := new_ne_ex sha
  obtain ⟨fs1, hfs1⟩ := run_writeTrace_some (cs := cs) (ds := ds) onePack_tmp.1 onePack_tmp.2
  have hfs1e := run_writeTrace hfs1
  obtain ⟨fs2, hfs2⟩ : ∃ fs2, fs1.step (.rename (packTmpPath [0x78]) [newPackName sha]) = some fs2 := by
    rw [hfs1e]
    have h1 : ((onePack.set (packTmpPath [0x78]) (some (.file cs.flatten 0o600))).set (idxTmpPath [0x79])
        (some (.file ds.flatten 0o600))) (packTmpPath [0x78]) = some (.file cs.flatten 0o600) := by
      rw [Fs.set_other _ _ (tmps_ne _ _), Fs.set_same]
    have h2 : ((onePack.set (packTmpPath [0x78]) (some (.file cs.flatten 0o600))).set (idxTmpPath [0x79])
        (some (.file ds.flatten 0o600))) [newPackName sha] = none := by
      rw [Fs.set_other _ _ (Ne.symm (idxTmp_ne_pack _ _)), Fs.set_other _ _ (Ne.symm (packTmp_ne_pack (by decide)))]
      exact onePack_other (by simpa using hne.1) (by simpa using hne.2.1)
    simp only [Fs.step, h1, h2]
    exact ⟨_, rfl⟩
  have hrun : onePack.run (writeTrace [0x78] [0x79] cs ds ++ [.rename (packTmpPath [0x78]) [newPackName sha]]) = some fs2 := by
    rw [Fs.run_append, hfs1]
    simp [Fs.run, hfs2]
  have hpre : writeTrace [0x78] [0x79] cs ds ++ [.rename (packTmpPath [0x78]) [newPackName sha]] <+:
      fullTrace [0x78] [0x79] cs ds sha := by
    rw [fullTrace_eq]; exact List.prefix_append _ _
  -- the state
  have hfs2e : fs2 = (((onePack.set (packTmpPath [0x78]) (some (.file cs.flatten 0o600))).set (idxTmpPath [0x79])
      (some (.file ds.flatten 0o600))).set (packTmpPath [0x78]) none).set [newPackName sha] (some (.file cs.flatten 0o600)) := by
    have h1 : fs1 (packTmpPath [0x78]) = some (.file cs.flatten 0o600) := by
      rw [hfs1e, Fs.set_other _ _ (tmps_ne _ _), Fs.set_same]
    have := run_rename (c := cs.flatten) (m := 0o600) h1 (fs' := fs2) (b := [newPackName sha]) (es := []) (by simp [Fs.run, hfs2])
    simp only [Fs.run, Option.some.injEq] at this
    rw [← this, hfs1e]
  obtain ⟨ia, hia⟩ : ∃ ia, ia = indexV2 exEntries [] [] := ⟨_, rfl⟩
  obtain ⟨d', hd'⟩ : ∃ d' : PackDir, d' = ⟨2, [(newPackName sha, cs.flatten), (nameA, emptyPack), (idxName nameA, ia),
    ([0x69, 0x6e, 0x64, 0x65, 0x78, 0x79], ds.flatten)]⟩ := ⟨_, rfl⟩
  have hti : ([0x69, 0x6e, 0x64, 0x65, 0x78, 0x79] : Bytes) ≠ newPackName sha := by
    intro e; have := (newPack_quote sha).1; rw [← e] at this; revert this; decide
  have hview : ViewOf fs2 d' := by
    rw [hd']
    refine view_of_list ?_ ?_
    · simp only [List.map_cons, List.map_nil, List.nodup_cons, List.mem_cons, List.not_mem_nil, or_false, not_or]
      refine ⟨⟨hne.1, hne.2.1, Ne.symm hti⟩, by decide, by decide, by simp, by simp⟩
    · intro name
      rw [hfs2e]
      unfold PackDir.get
      by_cases h1 : name = newPackName sha
      · subst h1; simp [Fs.set_same]
      · rw [Fs.set_other _ _ (by simpa using h1)]
        by_cases h2 : [name] = packTmpPath [0x78]
        · have : name = [0x70, 0x61, 0x63, 0x6b, 0x78] := by simpa [packTmpPath] using h2
          subst this
          rw [h2, Fs.set_same]
          simp only [List.find?_cons, List.find?_nil]
          have e1 : (newPackName sha == [0x70, 0x61, 0x63, 0x6b, 0x78]) = false := by simpa using Ne.symm h1
          rw [e1]
          rfl
        · rw [Fs.set_other _ _ h2]
          by_cases h3 : [name] = idxTmpPath [0x79]
          · have : name = [0x69, 0x6e, 0x64, 0x65, 0x78, 0x79] := by simpa [idxTmpPath] using h3
            subst this
            rw [h3, Fs.set_same]
            simp only [List.find?_cons]
            have e1 : (newPackName sha == [0x69, 0x6e, 0x64, 0x65, 0x78, 0x79]) = false := by simpa using Ne.symm h1
            rw [e1]
            rfl
          · rw [Fs.set_other _ _ h3, Fs.set_other _ _ h2]
            have h3' : [0x69, 0x6e, 0x64, 0x65, 0x78, 0x79] ≠ name := by
              rintro rfl; exact h3 rfl
            unfold onePack
            rw [← hia]
            by_cases h4 : name = nameA
            · subst h4; simp [Ne.symm h1]
            · by_cases h5 : name = idxName nameA
              · subst h5
                have : nameA ≠ idxName nameA := by decide
                simp [this, this.symm, Ne.symm h1]
              · simp [h4, h5, Ne.symm h4, Ne.symm h5, Ne.symm h1, h3']
  obtain ⟨x, hx⟩ : ∃ x, x ∈ exEntries.map Entry.name := ⟨_, List.mem_map_of_mem (List.mem_of_getElem? (i := 0) rfl)⟩
  have hx0 : x ≠ [] := by
    obtain ⟨e, he, rfl⟩ := List.mem_map.mp hx
    have := exEntries_valid.name_len e he
    intro h0; rw [h0] at this; simp at this
  have key := hfull toyZlib toyZlib_laws bytesIO_reads.toBoundedReads lenHash 3 1 (twoBlobs 1) (twoBlobs_packable 1 (by omega))
    exEnv exEnv_noDash rfl rfl id (fun l => List.Perm.refl _) onePack fs2 _ (by rw [htr]; exact hpre) hrun (by rw [htr]; exact ex_fresh)
    onePackDir d' onePack_view hview onePack_usable (fun _ => exEntries.map Entry.name) onePack_names [] x hx0
    ⟨nameA, by unfold onePackDir; simp, ⟨[0x61], rfl⟩, hx⟩
  have hpn : isPackName (newPackName sha) = true := (isPackName_iff _).mpr (newPack_isPack sha)
  have hpacks : d'.packs = [newPackName sha, nameA] := by
    rw [hd']
    unfold PackDir.packs
    simp only [List.map_cons, List.map_nil, List.filter_cons, hpn]
    rfl
  have hg1 : d'.get (newPackName sha) = some cs.flatten := by rw [hd']; simp [PackDir.get]
  have hg2 : d'.get nameA = some emptyPack := by
    rw [hd']; simp [PackDir.get, hne.1]
  have hg3 : d'.get (idxName (newPackName sha)) = none := by
    rw [← newIdxName_eq, hd']
    have e0 := newIdx_ne_newPack sha sha
    have e4 : ([0x69, 0x6e, 0x64, 0x65, 0x78, 0x79] : Bytes) ≠ newIdxName sha := by
      intro e; have := (newPack_quote sha).2; rw [← e] at this; revert this; decide
    simp [PackDir.get, Ne.symm e0, Ne.symm hne.2.2.1, Ne.symm hne.2.2.2, e4]
  have hl2 : PackFile.load emptyPack = .ok ⟨emptyPack, 2, 0⟩ := by decide
  have href : refreshItems id d' [] = ([⟨2, newPackName sha, pk, none⟩, ⟨0, nameA, ⟨emptyPack, 2, 0⟩, none⟩], .ok ()) := by
    simp [refreshItems, hpacks, addPacks, hg1, hg2, hpk, hl2, dropPacks, sortItems, insertItem, hsz]
  simp [PackedDB.hasObject, PackedDB.packInfo, PackedDB.load, href, sortItems, insertItem, sortInterval, scanItems,
    PackItem.find, PackItem.index, dirFiles, hg3, hx0] at key

/-- All the calls can succeed. -/
theorem ex_runs {cs ds : List Bytes} {sha : Bytes} : ∃ fs', onePack.run (fullTrace [0x78] [0x79] cs ds sha) = some fs' := by
  have hne := new_ne_ex sha
  obtain ⟨fs1, hfs1⟩ := run_writeTrace_some (cs := cs) (ds := ds) onePack_tmp.1 onePack_tmp.2
  have hfs1e := run_writeTrace hfs1
  rw [fullTrace_eq, List.append_assoc, Fs.run_append, hfs1]
  have h1 : fs1 (packTmpPath [0x78]) = some (.file cs.flatten 0o600) := by
    rw [hfs1e, Fs.set_other _ _ (tmps_ne _ _), Fs.set_same]
  have h2 : fs1 [newPackName sha] = none := by
    rw [hfs1e, Fs.set_other _ _ (Ne.symm (idxTmp_ne_pack _ _)), Fs.set_other _ _ (Ne.symm (packTmp_ne_pack (by decide)))]
    exact onePack_other (by simpa using hne.1) (by simpa using hne.2.1)
  have h3 : ((fs1.set (packTmpPath [0x78]) none).set [newPackName sha] (some (.file cs.flatten 0o600))) (idxTmpPath [0x79]) =
      some (.file ds.flatten 0o600) := by
    rw [Fs.set_other _ _ (idxTmp_ne_pack _ _), Fs.set_other _ _ (Ne.symm (tmps_ne _ _)), hfs1e, Fs.set_same]
  have h4 : ((fs1.set (packTmpPath [0x78]) none).set [newPackName sha] (some (.file cs.flatten 0o600))) [newIdxName sha] = none := by
    have e : [newIdxName sha] ≠ [newPackName sha] := by simpa using newIdx_ne_newPack sha sha
    rw [Fs.set_other _ _ e, Fs.set_other _ _ (Ne.symm (packTmp_ne_idx (by decide))), hfs1e,
      Fs.set_other _ _ (Ne.symm (idxTmp_ne_idx _ _)), Fs.set_other _ _ (Ne.symm (packTmp_ne_idx (by decide)))]
    exact onePack_other (by simpa using hne.2.2.1) (by simpa using hne.2.2.2)
  simp [Fs.run, Fs.step, h1, h2, h3, h4]

theorem onePack_complete : Complete onePack := by
  intro p hp hf
  have : p = nameA := by
    by_cases h1 : p = nameA
    · exact h1
    · have h2 : p ≠ idxName nameA := fun e => idxName_ne_pack (q := p) ⟨[0x61], rfl⟩ hp e.symm
      obtain ⟨c, m, e⟩ := hf
      rw [onePack_other (by simpa using h1) (by simpa using h2)] at e
      simp at e
  subst this
  exact ⟨_, _, by unfold onePack; rw [if_neg (by decide), if_pos rfl]⟩

/-- A whole run on the example. -/
example (n : Nat) (hn : n < 2 ^ 59) : ∃ fs' pre, pre <+: (createPack lenHash toyZlib (n + 2) exEnv bytesIORead
      ((twoBlobs n).map Prod.fst) none 1).1 ∧ onePack.run pre = some fs' ∧ pre.length ≠ 0 ∧
    ∃ p, IsPackName p ∧ (∀ name, Visible name → name ≠ p → name ≠ idxName p → fs' [name] = onePack [name]) := by
  obtain ⟨cs, ds, sha, pk, names, htr, -⟩ := ex_trace hn
  obtain ⟨fs', h⟩ := ex_runs (cs := cs) (ds := ds) (sha := sha)
  have hp : fullTrace [0x78] [0x79] cs ds sha <+: (createPack lenHash toyZlib (n + 2) exEnv bytesIORead
      ((twoBlobs n).map Prod.fst) none 1).1 := by rw [htr]; exact List.prefix_refl _
  obtain ⟨p, h1, h2, -⟩ := C33_crash lenHash toyZlib (n + 2) exEnv bytesIORead _ none 1 exEnv_noDash onePack fs' _ hp h
  exact ⟨fs', _, hp, h, by simp [fullTrace], p, h1, h2⟩

example (n : Nat) (hn : n < 2 ^ 59) (sha : Bytes) (hsha : sha ≠ []) :=
  C33_lookup_partial toyZlib toyZlib_laws bytesIO_reads.toBoundedReads lenHash (n + 2) 1 (twoBlobs n)
    (twoBlobs_packable n hn) exEnv exEnv_noDash rfl rfl id (fun l => List.Perm.refl _) onePack onePack []
    List.nil_prefix rfl (by obtain ⟨cs, ds, sha, pk, names, htr, -⟩ := ex_trace hn; rw [htr]; exact ex_fresh)
    onePackDir onePackDir onePack_view onePack_view onePack_usable
    (fun _ => exEntries.map Entry.name) onePack_names onePack_complete [.size] sha hsha

example (n : Nat) (hn : n < 2 ^ 59) (fs' : Fs) (pre : List Ev) (hpre : pre <+: (createPack lenHash toyZlib (n + 2) exEnv bytesIORead
      ((twoBlobs n).map Prod.fst) none 1).1) (hrun : onePack.run pre = some fs') (d' : PackDir) (hd' : ViewOf fs' d') (sha : Bytes)
    (hsha : sha ≠ []) :=
  C33_loaded lenHash toyZlib (n + 2) exEnv bytesIORead ((twoBlobs n).map Prod.fst) none 1 exEnv_noDash onePack fs' pre hpre hrun
    (by obtain ⟨cs, ds, sha, pk, names, htr, -⟩ := ex_trace hn; rw [htr]; exact ex_fresh) onePackDir d' onePack_view hd' id
    { entities := some [⟨3, nameA, ⟨emptyPack, 2, 0⟩, none⟩] } _ rfl (fun _ => exEntries.map Entry.name)
    (by
      intro it hit
      rw [List.mem_singleton.mp hit]
      obtain ⟨c, h1, h2⟩ := onePack_names nameA (by unfold onePackDir; simp) ⟨[0x61], rfl⟩
      exact ⟨c, h1, h2⟩)
    (by
      intro it hit
      rw [List.mem_singleton.mp hit]
      exact ⟨by unfold onePackDir; simp, [0x61], rfl⟩) sha hsha

/-- After the whole run: objects of the new pack and of the old one are found. -/
example (n : Nat) (hn : n < 2 ^ 59) : ∃ fs', ∀ d', ViewOf fs' d' →
    (PackedDB.hasObject id (some d') {} (List.replicate 20 8)).2 = .ok true ∧
    ∀ x ∈ exEntries.map Entry.name, (PackedDB.hasObject id (some d') {} x).2 = .ok true := by
  obtain ⟨cs, ds, sha, pk, names, htr, -⟩ := ex_trace hn
  obtain ⟨fs', h⟩ := ex_runs (cs := cs) (ds := ds) (sha := sha)
  refine ⟨fs', fun d' hd' => ?_⟩
  have hok : ∃ new, createPack lenHash toyZlib (n + 2) exEnv bytesIORead ((twoBlobs n).map Prod.fst) none 1 =
      (fullTrace [0x78] [0x79] cs ds sha, .ok new) := by
    obtain ⟨w', iw', es, isha, k1, k2, -⟩ :=
      written_spec toyZlib toyZlib_laws bytesIO_reads.toBoundedReads fd_stores fd_stores lenHash (n + 2) 1 (twoBlobs n)
        (twoBlobs_packable n hn) {} ⟨rfl, rfl, rfl⟩ {} ⟨rfl, rfl, rfl⟩
    refine ⟨newPackName (lenHash.digest (packBody es)), ?_⟩
    rw [← htr]
    simp [createPack, exEnv, k2]
  obtain ⟨new, hok⟩ := hok
  have key := fun x hx0 => C33_done toyZlib toyZlib_laws bytesIO_reads.toBoundedReads lenHash (n + 2) 1 (twoBlobs n)
    (twoBlobs_packable n hn) exEnv exEnv_noDash rfl rfl id (fun l => List.Perm.refl _) onePack fs' _ new hok h ex_fresh
    onePackDir d' onePack_view hd' onePack_usable (fun _ => exEntries.map Entry.name) onePack_names [] x hx0
  constructor
  · obtain ⟨b, h1, h2⟩ := key (List.replicate 20 8) (by decide)
    rw [h2.mpr (.inr (by simp [twoBlobs]))] at h1
    exact h1
  · intro x hx
    have hx0 : x ≠ [] := by
      obtain ⟨e, he, rfl⟩ := List.mem_map.mp hx
      have := exEntries_valid.name_len e he
      intro h0; rw [h0] at this; simp at this
    obtain ⟨b, h1, h2⟩ := key x hx0
    rw [h2.mpr (.inl ⟨nameA, by unfold onePackDir; simp, ⟨[0x61], rfl⟩, hx⟩)] at h1
    exact h1

/-- Two processes with different temporary names. -/
example (n : Nat) (t : Sys Bool) (h : Sys.Reach
    ⟨fun i => (createPack lenHash toyZlib (n + 2) ⟨some [if i then 0x61 else 0x62], some [if i then 0x61 else 0x62], [], [.short 3], true, true, true, i⟩
      bytesIORead ((twoBlobs n).map Prod.fst) none 1).1, onePack⟩ t) :=
  C33_concurrent lenHash toyZlib (fun _ => n + 2)
    (fun i => ⟨some [if i then 0x61 else 0x62], some [if i then 0x61 else 0x62], [], [.short 3], true, true, true, i⟩) bytesIORead
    (fun _ => (twoBlobs n).map Prod.fst) (fun _ => none) (fun _ => 1)
    (by
      intro i r hr
      simp only [Option.some.injEq] at hr
      subst hr
      cases i <;> decide) _ t (fun _ => rfl) h

end GitDB.Props
