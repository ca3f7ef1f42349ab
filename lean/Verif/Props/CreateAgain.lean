import Verif.Props.PackCreate
/-!
# C33: a pack created again, and short writes
-/
set_option autoImplicit false

namespace GitDB.Props
open GitDB Spec

variable {σ : Type}

/-- What is appended and renamed does not depend on the temporary names. -/
theorem createPack_trace (H : Hash) (zl : Zlib) (fuel : Nat) (env : CreateEnv) (read : σ → Int → σ × Res Bytes)
    (objs : List (PackIn σ)) (n : Option Nat) (level : Int) {w iw : Fd} {sha : Bytes} {isha : Option Bytes}
    (hr : writePack H zl fuel read Fd.write (some Fd.write) objs n level { plan := env.packPlan } { plan := env.idxPlan } =
      (w, iw, .ok (sha, isha))) :
    (createPack H zl fuel env read objs n level).1 <+:
      fullTrace (env.packTmp.getD []) (env.idxTmp.getD []) w.chunks iw.chunks sha := by
  unfold createPack
  rcases ht : env.packTmp with _ | tp
  · exact List.nil_prefix
  · rcases hti : env.idxTmp with _ | ti
    · exact ⟨_, rfl⟩
    · simp only [hr, Option.getD_some]
      split
      · exact ⟨_, rfl⟩
      · split
        · refine ⟨[.rename (idxTmpPath ti) [newIdxName sha]], ?_⟩
          simp [fullTrace]
        · exact List.prefix_refl _

/-- A `create` that returns. -/
theorem createPack_ok (H : Hash) (zl : Zlib) (fuel : Nat) (env : CreateEnv) (read : σ → Int → σ × Res Bytes)
    (objs : List (PackIn σ)) (n : Option Nat) (level : Int) {tr : List Ev} {new : Bytes}
    (h : createPack H zl fuel env read objs n level = (tr, .ok new)) :
    ∃ w iw sha isha tp ti, writePack H zl fuel read Fd.write (some Fd.write) objs n level { plan := env.packPlan } { plan := env.idxPlan } =
      (w, iw, .ok (sha, isha)) ∧ new = newPackName sha ∧ env.packTmp = some tp ∧ env.idxTmp = some ti ∧
      tr = fullTrace tp ti w.chunks iw.chunks sha := by
  unfold createPack at h
  rcases ht : env.packTmp with _ | tp
  · simp [ht] at h
  · rcases hti : env.idxTmp with _ | ti
    · simp [ht, hti] at h
    · simp only [ht, hti] at h
      split at h
      · simp at h
      · rename_i sha isha he
        split at h
        · simp at h
        · split at h
          · simp at h
          · simp only [Prod.mk.injEq, Except.ok.injEq] at h
            refine ⟨_, _, sha, isha, tp, ti, ?_, h.2.symm, rfl, rfl, h.1.symm⟩
            rw [← he]

/-- A whole run leaves the two files. -/
theorem full_run {tp ti : Bytes} {cs ds : List Bytes} {sha : Bytes} {fs fs' : Fs} (h : fs.run (fullTrace tp ti cs ds sha) = some fs') :
    fs' [newPackName sha] = some (.file cs.flatten 0o600) ∧ fs' [newIdxName sha] = some (.file ds.flatten 0o600) := by
  rcases create_states (List.prefix_refl _) h with ⟨h, -⟩ | ⟨⟨h, -⟩, -⟩ | ⟨-, h1, h2, -⟩
  · have := h.length_le
    rw [fullTrace_eq] at this
    simp at this
    omega
  · rw [fullTrace_eq] at h
    have := congrArg List.length h
    simp at this
  · exact ⟨h1, h2⟩

/-- **C33** The same objects packed again, when the first pack is still there: at every point of the second `create` every pack and every
index has the content it had before, also between the two renames. -/
theorem C33_again (H : Hash) (zl : Zlib) (fuel : Nat) (env env' : CreateEnv) (read : σ → Int → σ × Res Bytes)
    (objs : List (PackIn σ)) (n : Option Nat) (level : Int) (hp : env'.packPlan = env.packPlan) (hi : env'.idxPlan = env.idxPlan)
    (h1 : NoDash env'.packTmp) (fs0 fs1 fs fs' : Fs) (tr pre : List Ev) (new : Bytes)
    (htr : createPack H zl fuel env read objs n level = (tr, .ok new)) (hrun0 : fs0.run tr = some fs1)
    (hk : fs [new] = fs1 [new] ∧ fs [idxName new] = fs1 [idxName new])
    (hpre : pre <+: (createPack H zl fuel env' read objs n level).1) (hrun : fs.run pre = some fs') (name : Bytes) (hv : Visible name) :
    fs' [name] = fs [name] := by
  obtain ⟨w, iw, sha, isha, tp, ti, hw, rfl, -, -, rfl⟩ := createPack_ok H zl fuel env read objs n level htr
  obtain ⟨k1, k2⟩ := full_run hrun0
  rw [k1] at hk
  rw [← newIdxName_eq, k2] at hk
  have htr' := createPack_trace H zl fuel env' read objs n level (w := w) (iw := iw) (sha := sha) (isha := isha) (by rw [hp, hi]; exact hw)
  have hdash : (0x2d : UInt8) ∉ env'.packTmp.getD [] := by
    rcases ht : env'.packTmp with _ | tp'
    · simp
    · exact h1 tp' ht
  have hvis : [name] ≠ packTmpPath (env'.packTmp.getD []) ∧ [name] ≠ idxTmpPath (env'.idxTmp.getD []) := by
    obtain ⟨p, hp, rfl | rfl⟩ := hv
    · exact ⟨(tmp_ne_pack hdash hp).1, (tmp_ne_idx hp).1⟩
    · exact ⟨(tmp_ne_pack hdash hp).2, (tmp_ne_idx hp).2⟩
  rcases create_states (hpre.trans htr') hrun with ⟨-, h⟩ | ⟨-, hc, h⟩ | ⟨-, hc, hci, h⟩
  · exact h _ hvis.1 hvis.2
  · by_cases e : name = newPackName sha
    · rw [e, hc, hk.1]
    · exact h _ hvis.1 hvis.2 (by simpa using e)
  · by_cases e : name = newPackName sha
    · rw [e, hc, hk.1]
    · by_cases e' : name = newIdxName sha
      · rw [e', hci, hk.2]
      · exact h _ hvis.1 hvis.2 (by simpa using e) (by simpa using e')

/-- **C33** A database opened during or after the second `create` finds exactly what it found before. -/
theorem C33_again_lookup (H : Hash) (zl : Zlib) (fuel : Nat) (env env' : CreateEnv) (read : σ → Int → σ × Res Bytes)
    (objs : List (PackIn σ)) (n : Option Nat) (level : Int) (hp : env'.packPlan = env.packPlan) (hi : env'.idxPlan = env.idxPlan)
    (h1 : NoDash env'.packTmp) (fs0 fs1 fs fs' : Fs) (tr pre : List Ev) (new : Bytes)
    (htr : createPack H zl fuel env read objs n level = (tr, .ok new)) (hrun0 : fs0.run tr = some fs1)
    (hk : fs [new] = fs1 [new] ∧ fs [idxName new] = fs1 [idxName new])
    (hpre : pre <+: (createPack H zl fuel env' read objs n level).1) (hrun : fs.run pre = some fs')
    (order : List Bytes → List Bytes) (ho : ∀ l, (order l).Perm l) (d d' : PackDir) (hd : ViewOf fs d) (hd' : ViewOf fs' d')
    (hu : Usable d) (names : Bytes → List Bytes)
    (hx : ∀ p ∈ d.files.map Prod.fst, IsPackName p → ∃ c, d.get (idxName p) = some c ∧ IsIndex c (names p))
    (ops : List PackOp) (sha : Bytes) (hsha : sha ≠ []) :
    ∃ b, ((ops.foldl (packStep zl order (some d')) {}).hasObject order (some d') sha).2 = .ok b ∧
      (b = true ↔ ∃ p ∈ d.files.map Prod.fst, IsPackName p ∧ sha ∈ names p) := by
  have hs := C33_again H zl fuel env env' read objs n level hp hi h1 fs0 fs1 fs fs' tr pre new htr hrun0 hk hpre hrun
  have hm : ∀ p, IsPackName p → (p ∈ d'.files.map Prod.fst ↔ p ∈ d.files.map Prod.fst) := by
    intro p hp
    rw [view_mem hd, view_mem hd']; unfold IsFile; rw [hs p ⟨p, hp, .inl rfl⟩]
  obtain ⟨b, h1, h2⟩ := C42_directory zl order ho d' ⟨hd'.1, by
      intro p hm' hp
      rw [view_get hd hd' (hs p ⟨p, hp, .inl rfl⟩)]
      exact hu.2 p ((hm p hp).mp hm') hp⟩ names (by
      intro p hm' hp
      rw [view_get hd hd' (hs _ ⟨p, hp, .inr rfl⟩)]
      exact hx p ((hm p hp).mp hm') hp) ops sha hsha
  refine ⟨b, h1, h2.trans ⟨?_, ?_⟩⟩
  · rintro ⟨p, a, b, c⟩; exact ⟨p, (hm p b).mp a, b, c⟩
  · rintro ⟨p, a, b, c⟩; exact ⟨p, (hm p b).mpr a, b, c⟩

/-! ### The example of `Props/PackCreate.lean`, twice -/

example (n : Nat) (hn : n < 2 ^ 59) : ∃ (fs1 : Fs) (new : Bytes), IsPackName new ∧ ∀ (fs' : Fs) (pre : List Ev), pre <+: (createPack lenHash toyZlib (n + 2)
      { packTmp := some [0x7a], idxTmp := some [0x7a] } bytesIORead ((twoBlobs n).map Prod.fst) none 1).1 → fs1.run pre = some fs' →
    ∀ name, Visible name → fs' [name] = fs1 [name] := by
  obtain ⟨cs, ds, sha, pk, names, htr, -⟩ := ex_trace hn
  obtain ⟨fs1, h⟩ := ex_runs (cs := cs) (ds := ds) (sha := sha)
  obtain ⟨new, hok⟩ : ∃ new, createPack lenHash toyZlib (n + 2) exEnv bytesIORead ((twoBlobs n).map Prod.fst) none 1 =
      (fullTrace [0x78] [0x79] cs ds sha, .ok new) := by
    obtain ⟨w', iw', es, isha, k1, k2, -⟩ :=
      written_spec toyZlib toyZlib_laws bytesIO_reads.toBoundedReads fd_stores fd_stores lenHash (n + 2) 1 (twoBlobs n)
        (twoBlobs_packable n hn) {} ⟨rfl, rfl, rfl⟩ {} ⟨rfl, rfl, rfl⟩
    refine ⟨newPackName (lenHash.digest (packBody es)), ?_⟩
    rw [← htr]
    simp [createPack, exEnv, k2]
  refine ⟨fs1, new, ?_, fun fs' pre hpre hrun => C33_again lenHash toyZlib (n + 2) exEnv _ bytesIORead _ none 1 (by rfl) (by rfl)
    (fun r hr => by simp only [Option.some.injEq] at hr; rw [← hr]; decide) onePack fs1 fs1 fs' _ pre new hok h ⟨rfl, rfl⟩ hpre hrun⟩
  obtain ⟨_, _, sha, _, _, _, _, rfl, _⟩ := createPack_ok lenHash toyZlib (n + 2) exEnv bytesIORead _ none 1 hok
  exact newPack_isPack sha

/-! ### Short writes -/

/-- The disk is full for a moment: three bytes of the index are written. -/
def shortEnv : CreateEnv := { packTmp := some [0x78], idxTmp := some [0x79], idxPlan := .short 3 :: List.replicate 300 (.short 0) }

/-- The name of the pack written with it (of no objects). -/
def shortName : Bytes := newPackName (List.replicate 20 12)

/-- The pack directory afterwards. -/
def shortDir (ia : Bytes) : PackDir := ⟨2, [(shortName, [80, 65, 67, 75, 0, 0, 0, 2, 0, 0, 0, 0] ++ List.replicate 20 12),
  (idxName shortName, [255, 116, 79]), (nameA, emptyPack), (idxName nameA, ia)]⟩

/-- The state after a whole run. -/
theorem full_run_all {tp ti : Bytes} {cs ds : List Bytes} {sha : Bytes} {fs fs' : Fs}
    (h : fs.run (fullTrace tp ti cs ds sha) = some fs') :
    fs' = ((((((fs.set (packTmpPath tp) (some (.file cs.flatten 0o600))).set (idxTmpPath ti) (some (.file ds.flatten 0o600))).set
      (packTmpPath tp) none).set [newPackName sha] (some (.file cs.flatten 0o600))).set (idxTmpPath ti) none).set [newIdxName sha]
      (some (.file ds.flatten 0o600))) := by
  rw [fullTrace_eq, List.append_assoc] at h
  obtain ⟨fs1, h1, h2⟩ := run_prefix_some h
  have e1 := run_writeTrace h1
  have hA : fs1 (packTmpPath tp) = some (.file cs.flatten 0o600) := by rw [e1, Fs.set_other _ _ (tmps_ne _ _), Fs.set_same]
  have e2 := run_rename hA h2
  have hB : ((fs1.set (packTmpPath tp) none).set [newPackName sha] (some (.file cs.flatten 0o600))) (idxTmpPath ti) =
      some (.file ds.flatten 0o600) := by
    rw [Fs.set_other _ _ (idxTmp_ne_pack _ _), Fs.set_other _ _ (Ne.symm (tmps_ne _ _)), e1, Fs.set_same]
  have e3 := run_rename hB e2
  simp only [Fs.run, Option.some.injEq] at e3
  rw [← e3, e1]

theorem short_wrote : ∃ w iw isha, writePack lenHash toyZlib 3 bytesIORead Fd.write (some Fd.write) [] none 1
      { plan := shortEnv.packPlan } { plan := shortEnv.idxPlan } = (w, iw, .ok (List.replicate 20 12, isha)) ∧
    w.chunks.flatten = [80, 65, 67, 75, 0, 0, 0, 2, 0, 0, 0, 0] ++ List.replicate 20 12 ∧ iw.chunks.flatten = [255, 116, 79] := by
  have h1 : (writePack lenHash toyZlib 3 bytesIORead Fd.write (some Fd.write) [] none 1 { plan := shortEnv.packPlan }
    { plan := shortEnv.idxPlan }).1.chunks.flatten = [80, 65, 67, 75, 0, 0, 0, 2, 0, 0, 0, 0] ++ List.replicate 20 12 := by decide +kernel
  have h2 : (writePack lenHash toyZlib 3 bytesIORead Fd.write (some Fd.write) [] none 1 { plan := shortEnv.packPlan }
    { plan := shortEnv.idxPlan }).2.1.chunks.flatten = [255, 116, 79] := by decide +kernel
  have h3 : ((writePack lenHash toyZlib 3 bytesIORead Fd.write (some Fd.write) [] none 1 { plan := shortEnv.packPlan }
    { plan := shortEnv.idxPlan }).2.2.map Prod.fst) = .ok (List.replicate 20 12) := by decide +kernel
  rcases h : writePack lenHash toyZlib 3 bytesIORead Fd.write (some Fd.write) [] none 1 { plan := shortEnv.packPlan }
    { plan := shortEnv.idxPlan } with ⟨w, iw, r⟩
  rw [h] at h1 h2 h3
  rcases r with e | ⟨sha, isha⟩
  · simp [Except.map] at h3
  · simp only [Except.map, Except.ok.injEq] at h3
    rw [h3]
    exact ⟨w, iw, isha, rfl, h1, h2⟩

theorem get_cons (m : Int) (k c : Bytes) (l : List (Bytes × Bytes)) (name : Bytes) :
    PackDir.get ⟨m, (k, c) :: l⟩ name = if name = k then some c else PackDir.get ⟨m, l⟩ name := by
  unfold PackDir.get
  rw [List.find?_cons]
  by_cases h : name = k
  · subst h; simp
  · rw [if_neg h, show (k == name) = false by simpa using Ne.symm h]

/-- **C33** Nobody looks at the number of bytes that `os.write` reports: with a short write `create` returns all the same, the truncated
index is put in place, and from then on lookups of objects in the other packs raise. -/
theorem C33_short_write : ∃ (fs' : Fs) (tr : List Ev) (new : Bytes) (d' : PackDir),
    createPack lenHash toyZlib 3 shortEnv bytesIORead [] none 1 = (tr, .ok new) ∧ onePack.run tr = some fs' ∧ ViewOf fs' d' ∧
    ∀ sha ∈ exEntries.map Entry.name, (PackedDB.hasObject id (some onePackDir) {} sha).2 = .ok true ∧
      (PackedDB.hasObject id (some d') {} sha).2 = .error .structError := by
  obtain ⟨w, iw, isha, hw, hc, hi⟩ := short_wrote
  have htr : createPack lenHash toyZlib 3 shortEnv bytesIORead [] none 1 =
      (fullTrace [0x78] [0x79] w.chunks iw.chunks (List.replicate 20 12), .ok shortName) := by
    unfold createPack
    simp only [show shortEnv.packTmp = some [0x78] from rfl, show shortEnv.idxTmp = some [0x79] from rfl, hw,
      show shortEnv.close1 = true from rfl, show shortEnv.close2 = true from rfl, show shortEnv.rename1 = true from rfl,
      show shortEnv.rename2 = true from rfl]
    rfl
  obtain ⟨fs', hrun⟩ := ex_runs (cs := w.chunks) (ds := iw.chunks) (sha := List.replicate 20 12)
  have hfs := full_run_all hrun
  rw [hc, hi, newIdxName_eq, show newPackName (List.replicate 20 12) = shortName from rfl] at hfs
  obtain ⟨ia, hia⟩ : ∃ ia, ia = indexV2 exEntries [] [] := ⟨_, rfl⟩
  have hne0 : idxName shortName ≠ shortName := idxName_ne_pack (newPack_isPack _) (newPack_isPack _)
  have hg : ∀ name, (shortDir ia).get name = if name = shortName then some ([80, 65, 67, 75, 0, 0, 0, 2, 0, 0, 0, 0] ++ List.replicate 20 12)
      else if name = idxName shortName then some [255, 116, 79] else if name = nameA then some emptyPack
      else if name = idxName nameA then some ia else none := by
    intro name
    unfold shortDir
    rw [get_cons, get_cons, get_cons, get_cons]
    rfl
  refine ⟨fs', _, _, shortDir ia, htr, hrun, view_of_list ?_ fun name => ?_, fun sha hsha => ?_⟩
  · show [shortName, idxName shortName, nameA, idxName nameA].Nodup
    decide
  · rw [hg, hfs]
    by_cases h1 : name = shortName
    · subst h1
      rw [if_pos rfl, Fs.set_other _ _ (by simpa using Ne.symm hne0), Fs.set_other _ _ (show [shortName] ≠ _ from Ne.symm (idxTmp_ne_pack _ _)), Fs.set_same]
      rfl
    · rw [if_neg h1]
      by_cases h2 : name = idxName shortName
      · subst h2
        rw [if_pos rfl]
        rw [Fs.set_same]; rfl
      · rw [if_neg h2, Fs.set_other _ _ (by simpa using h2)]
        by_cases t2 : [name] = idxTmpPath [0x79]
        · have e : name = [0x69, 0x6e, 0x64, 0x65, 0x78, 0x79] := by simpa [idxTmpPath] using t2
          rw [t2, Fs.set_same, e]
          rfl
        · rw [Fs.set_other _ _ t2, Fs.set_other _ _ (by simpa using h1)]
          by_cases t1 : [name] = packTmpPath [0x78]
          · have e : name = [0x70, 0x61, 0x63, 0x6b, 0x78] := by simpa [packTmpPath] using t1
            rw [t1, Fs.set_same, e]
            rfl
          · rw [Fs.set_other _ _ t1, Fs.set_other _ _ t2, Fs.set_other _ _ t1]
            unfold onePack
            rw [← hia]
            by_cases h3 : name = nameA
            · subst h3; simp
            · by_cases h4 : name = idxName nameA
              · subst h4; simp [h3]
              · simp [h3, h4]
  · have hx0 : sha ≠ [] := by
      obtain ⟨e, he, rfl⟩ := List.mem_map.mp hsha
      have := exEntries_valid.name_len e he
      intro h0; rw [h0] at this; simp at this
    constructor
    · obtain ⟨b, h1, h2⟩ := C42_directory toyZlib id (fun l => List.Perm.refl _) onePackDir onePack_usable
        (fun _ => exEntries.map Entry.name) onePack_names [] sha hx0
      rw [h2.mpr ⟨nameA, by unfold onePackDir; simp, ⟨[0x61], rfl⟩, hsha⟩] at h1
      exact h1
    · have hpacks : (shortDir ia).packs = [shortName, nameA] := by
        unfold PackDir.packs shortDir
        rfl
      have hg1 := hg shortName
      have hg2 := hg nameA
      have hg3 := hg (idxName shortName)
      rw [if_pos rfl] at hg1
      rw [if_neg (by decide), if_neg (by decide), if_pos rfl] at hg2
      rw [if_neg (by decide), if_pos rfl] at hg3
      have hl1 : PackFile.load ([80, 65, 67, 75, 0, 0, 0, 2, 0, 0, 0, 0] ++ List.replicate 20 12) =
        .ok ⟨[80, 65, 67, 75, 0, 0, 0, 2, 0, 0, 0, 0] ++ List.replicate 20 12, 2, 0⟩ := by decide
      have hl2 : PackFile.load emptyPack = .ok ⟨emptyPack, 2, 0⟩ := by decide
      have hl3 : IndexFile.load [255, 116, 79] = .error .structError := by rfl
      obtain ⟨c1, hc1⟩ : ∃ c, c = ([80, 65, 67, 75, 0, 0, 0, 2, 0, 0, 0, 0] ++ List.replicate 20 12 : Bytes) := ⟨_, rfl⟩
      rw [← hc1] at hl1 hg1
      have href : refreshItems id (shortDir ia) [] = ([⟨0, shortName, ⟨c1, 2, 0⟩, none⟩, ⟨0, nameA, ⟨emptyPack, 2, 0⟩, none⟩], .ok ()) := by
        simp [refreshItems, hpacks, addPacks, hg1, hg2, hl1, hl2, dropPacks, sortItems, insertItem]
      simp [PackedDB.hasObject, PackedDB.packInfo, PackedDB.load, href, sortItems, insertItem, sortInterval, scanItems,
        PackItem.find, PackItem.index, dirFiles, hg3, hx0, hl3]

end GitDB.Props
