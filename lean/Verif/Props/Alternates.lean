import Verif.Proofs.Alternates
import Verif.Props.Compound
import Verif.Proofs.LightZlib
/-!
# C47: alternates
-/
set_option autoImplicit false

namespace GitDB.Props
open GitDB Spec

variable {ω σ α : Type}

/-! ## The file and the databases -/

/-- **C47** The paths used are those of the file, one per line, without white space at the ends. -/
theorem C47_file (t : Text) (paths : List Text) : refPaths (.ok t) = .ok paths ↔ Alternates t paths :=
  refPaths_iff t paths

/-- What happens to a `ReferenceDB`: its databases are accessed, or it is refreshed; the file and the validity of paths may be
different each time. -/
inductive RefCall where
  | access
  | refresh

/-- The database after a call, whether it raised an exception or not. -/
def refCall (order : List Text → List Text) (db : RefDB σ) (x : (Text → Option σ) × Res Text × RefCall) : RefDB σ :=
  match x.2.2 with
  | .access => (db.load order x.1 x.2.1).1
  | .refresh => (db.refresh order x.1 x.2.1).1

theorem refCall_nodup {order : List Text → List Text} (ho : ∀ l, (order l).Perm l) {db : RefDB σ}
    (h : ∀ l, db.dbs = some l → (l.map Prod.fst).Nodup) (x : (Text → Option σ) × Res Text × RefCall) :
    ∀ l, (refCall order db x).dbs = some l → (l.map Prod.fst).Nodup := by
  have hload : ∀ l, (db.load order x.1 x.2.1).1.dbs = some l → (l.map Prod.fst).Nodup := by
    unfold RefDB.load
    rcases hd : db.dbs with _ | l0
    · simp only
      have := updateRefs_nodup ho x.1 x.2.1 ([] : Refs σ) (by simp)
      rcases hu : updateRefs order x.1 x.2.1 ([] : Refs σ) with ⟨l1, e | u⟩ <;>
      · rw [hu] at this
        intro l hl
        simp only [Option.some.injEq] at hl
        subst hl; exact this
    · exact h
  rcases x with ⟨mk, file, c⟩
  cases c with
  | access => exact hload
  | refresh =>
    simp only [refCall, RefDB.refresh]
    rcases refPaths file with e | ps
    · exact h
    · simp only
      rcases hl : db.load order mk file with ⟨db1, e | l1⟩
      · rw [hl] at hload; exact hload
      · rw [hl] at hload
        have h1 : db1.dbs = some l1 := by
          unfold RefDB.load at hl
          rcases hd : db.dbs with _ | l0
          · rw [hd] at hl
            simp only at hl
            rcases hu : updateRefs order mk file ([] : Refs σ) with ⟨l2, e | u⟩
            · rw [hu] at hl; simp at hl
            · rw [hu] at hl
              simp only [Prod.mk.injEq, Except.ok.injEq] at hl
              rw [← hl.1, ← hl.2]
          · rw [hd] at hl
            simp only [Prod.mk.injEq, Except.ok.injEq] at hl
            rw [← hl.1, ← hl.2]; exact hd
        have := updateRefs_nodup ho mk file l1 (hload l1 h1)
        simp only
        rcases hu : updateRefs order mk file l1 with ⟨l2, e | u⟩ <;>
        · rw [hu] at this
          intro l hl
          simp only [Option.some.injEq] at hl
          subst hl; exact this

/-- A new `ReferenceDB` after some calls. -/
def refRun (order : List Text → List Text) (tr : List ((Text → Option σ) × Res Text × RefCall)) : RefDB σ :=
  tr.foldl (refCall order) {}

theorem refRun_nodup {order : List Text → List Text} (ho : ∀ l, (order l).Perm l)
    (tr : List ((Text → Option σ) × Res Text × RefCall)) : ∀ l, (refRun order tr).dbs = some l → (l.map Prod.fst).Nodup := by
  have : ∀ (tr : List ((Text → Option σ) × Res Text × RefCall)) (db : RefDB σ),
      (∀ l, db.dbs = some l → (l.map Prod.fst).Nodup) →
      ∀ l, (tr.foldl (refCall order) db).dbs = some l → (l.map Prod.fst).Nodup := by
    intro tr
    induction tr with
    | nil => exact fun db h => h
    | cons x tr ih => exact fun db h => ih _ (refCall_nodup ho h x)
  exact this tr {} (by simp)

/-- **C47** After any history of accesses and refreshes (with any contents of the file, readable or not, and any paths valid at the
time), no path is used twice. -/
theorem C47_once (order : List Text → List Text) (ho : ∀ l, (order l).Perm l)
    (tr : List ((Text → Option σ) × Res Text × RefCall)) (l : Refs σ) (h : (refRun order tr).dbs = some l) :
    (l.map Prod.fst).Nodup :=
  refRun_nodup ho tr l h

/-- **C47** Refreshing after any history, with a readable file: databases whose path is in the file are kept, with their state and in
their order; those no longer in the file are gone; after them come the paths of the file that are new and valid, in the order of the
file, as new databases.  The cache of earlier answers is empty. -/
theorem C47_refresh (order : List Text → List Text) (ho : ∀ l, (order l).Perm l)
    (tr : List ((Text → Option σ) × Res Text × RefCall)) (l : Refs σ) (h : (refRun order tr).dbs = some l)
    (mk : Text → Option σ) (t : Text) (paths : List Text) (hp : Alternates t paths) :
    ∃ new : Refs σ, ((refRun order tr).refresh order mk (.ok t)) =
        ({ dbs := some (l.filter (fun d => decide (d.1 ∈ paths)) ++ new), cache := [] }, .ok ()) ∧
      (∀ d, d ∈ new ↔ d.1 ∈ paths ∧ d.1 ∉ l.map Prod.fst ∧ mk d.1 = some d.2) ∧
      (new.map Prod.fst).Nodup ∧
      ∀ p q, p ∈ new.map Prod.fst → q ∈ new.map Prod.fst → paths.idxOf p < paths.idxOf q →
        (new.map Prod.fst).idxOf p < (new.map Prod.fst).idxOf q := by
  have hn := refRun_nodup ho tr l h
  have hr := (refPaths_iff t paths).mpr hp
  have hu := updateRefs_spec ho mk (.ok t) paths hr l hn
  have hnd := updateRefs_nodup ho mk (.ok t) l hn
  rw [hu] at hnd
  simp only [List.map_append] at hnd
  obtain ⟨new, hnew⟩ : ∃ new : Refs σ, new = ((firsts [] paths).filter fun p => decide (p ∉ l.map Prod.fst)).filterMap
      (fun p => (mk p).map fun s => (p, s)) := ⟨_, rfl⟩
  rw [← hnew] at hu hnd
  refine ⟨new, ?_, ?_, (List.nodup_append.mp hnd).2.1, ?_⟩
  · unfold RefDB.refresh
    have hl : (refRun order tr).load order mk (.ok t) = (refRun order tr, .ok l) := by unfold RefDB.load; rw [h]
    rw [hr]
    simp only [hl, hu]
  · rintro ⟨p, s⟩
    rw [hnew, List.mem_filterMap]
    constructor
    · rintro ⟨q, hq, he⟩
      rw [List.mem_filter, mem_firsts] at hq
      rcases hm : mk q with _ | s'
      · rw [hm] at he; simp at he
      · rw [hm] at he
        simp only [Option.map_some, Option.some.injEq, Prod.mk.injEq] at he
        obtain ⟨rfl, rfl⟩ := he
        exact ⟨hq.1.1, by simpa using hq.2, hm⟩
    · rintro ⟨h1, h2, h3⟩
      simp only at h1 h2 h3
      exact ⟨p, by rw [List.mem_filter, mem_firsts]; exact ⟨⟨h1, by simp⟩, by simpa using h2⟩, by rw [h3]; rfl⟩
  · have hmap : new.map Prod.fst = (firsts [] paths).filter fun p => decide (p ∉ l.map Prod.fst) && (mk p).isSome := by
      have hs : ∀ l : List Text, (l.filterMap (fun p => (mk p).map fun s => (p, s))).map Prod.fst =
          l.filter fun p => (mk p).isSome := by
        intro l
        induction l with
        | nil => rfl
        | cons p l ih => cases h : mk p <;> simp [h, ih]
      rw [hnew, hs, List.filter_filter]
      exact List.filter_congr fun p _ => Bool.and_comm _ _
    rw [hmap]
    have hsub : ((firsts [] paths).filter fun p => decide (p ∉ l.map Prod.fst) && (mk p).isSome).Sublist (firsts [] paths) :=
      List.filter_sublist
    -- the order of first positions
    have hpw : ∀ (ps seen pre : List Text), (∀ x ∈ pre, x ∈ seen) →
        (firsts seen ps).Pairwise fun a b => (pre ++ ps).idxOf a < (pre ++ ps).idxOf b := by
      intro ps
      induction ps with
      | nil => intro seen pre _; simp [firsts]
      | cons x ps ih =>
        intro seen pre hpre
        unfold firsts
        by_cases hx : x ∈ seen
        · rw [if_pos hx]
          have := ih seen (pre ++ [x]) (by
            intro y hy
            rcases List.mem_append.mp hy with h | h
            · exact hpre y h
            · rw [List.mem_singleton.mp h]; exact hx)
          simpa using this
        · rw [if_neg hx, List.pairwise_cons]
          constructor
          · intro y hy
            rw [mem_firsts] at hy
            have hxp : x ∉ pre := fun hxp => hx (hpre x hxp)
            have hyp : y ∉ pre := fun hyp => hy.2 (by simp [hpre y hyp])
            have hyx : x ≠ y := by rintro rfl; exact hy.2 (by simp)
            rw [List.idxOf_append, if_neg hxp, List.idxOf_append, if_neg hyp, List.idxOf_cons_self, List.idxOf_cons]
            have : (x == y) = false := by simpa using hyx
            rw [this]
            simp only [cond_false]
            omega
          · have := ih (x :: seen) (pre ++ [x]) (by
              intro y hy
              rcases List.mem_append.mp hy with h | h
              · simp [hpre y h]
              · simp [List.mem_singleton.mp h])
            simpa using this
    have hpw0 := (hpw paths [] [] (by simp)).sublist hsub
    simp only [List.nil_append] at hpw0
    intro p q hp1 hq1 hlt
    generalize ((firsts [] paths).filter fun p => decide (p ∉ l.map Prod.fst) && (mk p).isSome) = m at hp1 hq1 hpw0
    rcases Nat.lt_or_ge (m.idxOf p) (m.idxOf q) with h | h
    · exact h
    · exfalso
      have hpl := List.idxOf_lt_length_of_mem hp1
      have hql := List.idxOf_lt_length_of_mem hq1
      rcases Nat.eq_or_lt_of_le h with h | h
      · have h1 := List.getElem_idxOf hpl
        have h2 := List.getElem_idxOf hql
        have : p = q := by rw [← h1, ← h2]; congr 1; exact h.symm
        rw [this] at hlt; omega
      · have := List.pairwise_iff_getElem.mp hpw0 _ _ hql hpl h
        rw [List.getElem_idxOf, List.getElem_idxOf] at this
        omega

/-- **C47** A file that cannot be opened or read counts as an empty one. -/
theorem C47_unreadable : refPaths (.error .osError) = .ok [] ∧ refPaths (.error .fileNotFound) = .ok [] ∧
    refPaths (.error .permissionError) = .ok [] := ⟨rfl, rfl, rfl⟩

/-- A file that is not UTF-8: an exception, once; afterwards there are no alternates, silently. -/
theorem C47_gap (order : List Text → List Text) (mk : Text → Option σ) (file : Res Text) :
    (({} : RefDB σ).load order mk (.error .unicodeError)).2 = .error .unicodeError ∧
    ((({} : RefDB σ).load order mk (.error .unicodeError)).1.load order mk file).2 = .ok [] := ⟨rfl, rfl⟩

/-- **C47** Which paths are valid: those of existing directories.  What is in them does not matter. -/
theorem C47_valid (D : Disk) (p : Text) : (mkGit D p).isSome = true ↔ (D.loose p).isSome = true := by
  unfold mkGit GitRoot.load gitDbs
  simp only
  rcases D.loose p with _ | x <;> rcases D.pack p with _ | y <;> rcases D.alt p with _ | z <;> simp

/-- An access to a `GitDB` whose directory does not exist raises an exception once; afterwards it is an empty database, also if the
directory has been created meanwhile. -/
theorem C47_root_gap (D D' : Disk) (p : Text) (h : D.pack p = none ∧ D.loose p = none ∧ D.alt p = none) :
    (({} : GitRoot).load D p).2 = .error .invalidDBRoot ∧ ((({} : GitRoot).load D p).1.load D' p).2 = .ok [] := by
  unfold GitRoot.load gitDbs
  simp [h]

/-! ## Lookups through alternates -/

/-- The database at `p` refers to the one at `q`. -/
def Alt (D : Disk) (p q : Text) : Prop :=
  ∃ t paths, D.alt p = some (.ok t) ∧ Alternates t paths ∧ q ∈ paths ∧ (D.loose q).isSome = true

/-- The alternates files are readable. -/
def Readable (D : Disk) : Prop := ∀ p r, D.alt p = some r → ∃ t, r = .ok t

/-- Directly or through others. -/
inductive AltReach (D : Disk) : Text → Text → Prop
  | refl (p : Text) : AltReach D p p
  | step {p q r : Text} (h : Alt D p q) (h' : AltReach D q r) : AltReach D p r

theorem mem_altRoots {D : Disk} (hr : Readable D) (p q : Text) : q ∈ altRoots D p ↔ Alt D p q := by
  unfold altRoots Alt
  rcases ha : D.alt p with _ | r
  · simp
  · obtain ⟨t, rfl⟩ := hr p r ha
    obtain ⟨paths, h1, h2⟩ := refPaths_spec t
    have hu := updateRefs_spec (order := id) (fun l => List.Perm.refl l) (mkGit D) (.ok t) paths h1 [] (by simp)
    simp only
    rw [hu]
    simp only [List.filter_nil, List.nil_append, List.map_nil, List.not_mem_nil, not_false_eq_true, decide_true, List.mem_map]
    constructor
    · rintro ⟨⟨a, s⟩, hm, rfl⟩
      obtain ⟨x, hx, he⟩ := List.mem_filterMap.mp hm
      rw [List.mem_filter, mem_firsts] at hx
      rcases hk : mkGit D x with _ | g
      · rw [hk] at he; simp at he
      · rw [hk] at he
        simp only [Option.map_some, Option.some.injEq, Prod.mk.injEq] at he
        obtain ⟨rfl, -⟩ := he
        exact ⟨t, paths, rfl, h2, hx.1.1, (C47_valid D x).mp (by rw [hk]; rfl)⟩
    · rintro ⟨t', paths', e, h3, h4, h5⟩
      simp only [Option.some.injEq, Except.ok.injEq] at e
      subst e
      have : paths' = paths := by
        have := (refPaths_iff t paths').mpr h3
        rw [h1] at this
        exact (Except.ok.inj this).symm
      subst this
      obtain ⟨g, hg⟩ := Option.isSome_iff_exists.mp ((C47_valid D q).mpr h5)
      exact ⟨(q, g), List.mem_filterMap.mpr ⟨q, by rw [List.mem_filter, mem_firsts]; exact ⟨⟨h4, by simp⟩, rfl⟩, by rw [hg]; rfl⟩, rfl⟩

/-- A pack database whose packs are loaded or can be. -/
def PackedReady (order : List Bytes → List Bytes) (dir : Option PackDir) (db : PackedDB) : Prop :=
  (∃ l, (db.load order dir).2 = .ok l) ∧ PackedOk dir (db.load order dir).1

theorem load_loaded {order : List Bytes → List Bytes} {dir : Option PackDir} {db : PackedDB} {l : List PackItem}
    (h : (db.load order dir).2 = .ok l) : (db.load order dir).1.load order dir = db.load order dir := by
  obtain ⟨l', h1, h2⟩ := load_entities order dir db
  have hl := h2 l h
  subst hl
  rcases hd : db.load order dir with ⟨db1, r⟩
  rw [hd] at h h1
  simp only at h h1
  subst h
  unfold PackedDB.load
  rw [h1]

theorem packStep_load {zl : Zlib} {order : List Bytes → List Bytes} {dir : Option PackDir} {db : PackedDB} {l : List PackItem}
    (h : (db.load order dir).2 = .ok l) (op : PackOp) :
    packStep zl order dir db op = packStep zl order dir (db.load order dir).1 op := by
  have hl := load_loaded h
  cases op <;> simp [packStep, hasObject_fst, info_fst, stream_fst, PackedDB.packInfo, PackedDB.size, PackedDB.shaIter,
    PackedDB.partialToComplete, hl]

theorem hasObject_load {order : List Bytes → List Bytes} {dir : Option PackDir} {db : PackedDB} {l : List PackItem}
    (h : (db.load order dir).2 = .ok l) (sha : Bytes) :
    db.hasObject order dir sha = (db.load order dir).1.hasObject order dir sha := by
  have hl := load_loaded h
  simp [PackedDB.hasObject, PackedDB.packInfo, hl]

theorem packedReady_step {zl : Zlib} {order : List Bytes → List Bytes} {dir : Option PackDir} {db : PackedDB}
    (h : PackedReady order dir db) (op : PackOp) : PackedReady order dir (packStep zl order dir db op) ∧
      ∀ sha, PackedHas dir ((packStep zl order dir db op).load order dir).1 sha ↔ PackedHas dir (db.load order dir).1 sha := by
  obtain ⟨⟨l, hl⟩, hok⟩ := h
  rw [packStep_load hl]
  obtain ⟨h1, h2⟩ := packed_next (zl := zl) (order := order) hok op
  obtain ⟨l1, hl1, hlists⟩ := h1
  generalize packStep zl order dir (db.load order dir).1 op = db1 at hl1 h2
  have hself : db1.load order dir = (db1, .ok l1) := by unfold PackedDB.load; rw [hl1]
  unfold PackedReady
  rw [hself]
  exact ⟨⟨⟨_, rfl⟩, l1, hl1, hlists⟩, h2⟩

/-- The end databases are in a good state. -/
def LeafOk (order : List Bytes → List Bytes) (D : Disk) : GitLeaf → Prop
  | .stop => False
  | .pack r db => PackedReady order (D.pack r) db
  | .loose _ _ => True

/-- What they find. -/
def LeafHas (order : List Bytes → List Bytes) (D : Disk) (x : GitLeaf) (sha : Bytes) : Prop :=
  match x with
  | .stop => False
  | .pack r db => PackedHas (D.pack r) (db.load order (D.pack r)).1 sha
  | .loose r db => LooseHas (D.looseAt r) db sha

theorem leaf_locates (zl : Zlib) (fuel : Nat) (order : List Bytes → List Bytes) (getL : Fs → Bytes → Res OStream) :
    Locates (leafOps order (fun d db sha => db.stream fuel order d sha) getL) (LeafOk order) (LeafHas order) where
  has := by
    rintro D (_ | ⟨r, db⟩ | ⟨r, db⟩) h sha hs
    · exact h.elim
    · obtain ⟨⟨l, hl⟩, hok⟩ := h
      obtain ⟨b, h1, h2⟩ := packed_answer (order := order) hok sha hs
      exact ⟨b, by rw [← h1, ← hasObject_load hl]; rfl, h2⟩
    · exact (loose_locates getL).has (w := D.looseAt r) (s := db) trivial sha hs
  yes := by
    rintro D (_ | ⟨r, db⟩ | ⟨r, db⟩) h sha hy
    · exact h.elim
    · obtain ⟨⟨l, hl⟩, hok⟩ := h
      refine (packed_locates zl fuel order).yes hok sha ?_
      have : (db.hasObject order (D.pack r) sha).2 = .ok true := hy
      rw [hasObject_load hl] at this
      exact this
    · exact (loose_locates getL).yes (w := D.looseAt r) (s := db) trivial sha hy
  ok := by
    rintro D (_ | ⟨r, db⟩ | ⟨r, db⟩) h op
    · exact h.elim
    · cases op with
      | has x => exact (packedReady_step (zl := zl) h (.has x)).1
      | get x => exact (packedReady_step (zl := zl) h (.stream fuel x)).1
      | size => exact (packedReady_step (zl := zl) h .size).1
      | shas => exact (packedReady_step (zl := zl) h .iter).1
    · cases op <;> trivial
  same := by
    rintro D (_ | ⟨r, db⟩ | ⟨r, db⟩) h op sha
    · exact h.elim
    · cases op with
      | has x => exact (packedReady_step (zl := zl) h (.has x)).2 sha
      | get x => exact (packedReady_step (zl := zl) h (.stream fuel x)).2 sha
      | size => exact (packedReady_step (zl := zl) h .size).2 sha
      | shas => exact (packedReady_step (zl := zl) h .iter).2 sha
    · cases op with
      | has x => exact (loose_locates getL).same (w := D.looseAt r) (s := db) trivial (.has x) sha
      | get x => exact Iff.rfl
      | size => exact Iff.rfl
      | shas => exact Iff.rfl

/-- What a tree finds. -/
def NestHas (C : ω → σ → Bytes → Prop) : (n : Nat) → ω → Nest σ n → Bytes → Prop
  | 0 => C
  | n + 1 => fun w x sha => match x with
    | .inl s => C w s sha
    | .inr c => ∃ s ∈ c.dbs, NestHas C n w s sha

/-- Good states of a tree. -/
def NestOk (Ok : ω → σ → Prop) (C : ω → σ → Bytes → Prop) : (n : Nat) → ω → Nest σ n → Prop
  | 0 => Ok
  | n + 1 => fun w x => match x with
    | .inl s => Ok w s
    | .inr c => CompoundOk (NestOk Ok C n) (NestHas C n) w c

theorem nest_locates {O : DbOps ω σ α} {Ok : ω → σ → Prop} {C : ω → σ → Bytes → Prop} (hO : Locates O Ok C) :
    ∀ n, Locates (nestOps O n) (NestOk Ok C n) (NestHas C n)
  | 0 => hO
  | n + 1 => by
    have h := sum_locates hO (compound_locates (nest_locates hO n))
    refine ⟨?_, ?_, ?_, ?_⟩
    · rintro w (s | c) ha
      · exact h.has (s := .inl s) ha
      · exact h.has (s := .inr c) ha
    · rintro w (s | c) ha
      · exact h.yes (s := .inl s) ha
      · exact h.yes (s := .inr c) ha
    · rintro w (s | c) ha op
      · have := h.ok (s := .inl s) ha op
        cases op <;> exact this
      · have := h.ok (s := .inr c) ha op
        cases op <;> exact this
    · rintro w (s | c) ha op sha
      · have := h.same (s := .inl s) ha op sha
        cases op <;> exact this
      · have := h.same (s := .inr c) ha op sha
        cases op <;> exact this

theorem steps_locates {O : DbOps ω σ α} {Ok : ω → σ → Prop} {C : ω → σ → Bytes → Prop} (hO : Locates O Ok C) {w : ω} :
    ∀ (ops : List DbOp) {s : σ}, Ok w s → Ok w (ops.foldl (dbStep O w) s) ∧
      ∀ sha, C w (ops.foldl (dbStep O w) s) sha ↔ C w s sha
  | [], _, h => ⟨h, fun _ => Iff.rfl⟩
  | op :: ops, s, h => by
    obtain ⟨h1, h2⟩ := steps_locates hO ops (hO.ok h op)
    exact ⟨h1, fun sha => (h2 sha).trans (hO.same h op sha)⟩

/-- The objects in the database at one root path, without its alternates: those in its packs `N`, and loose ones. -/
def SiteHas (D : Disk) (N : Text → Bytes → Prop) (p : Text) (sha : Bytes) : Prop :=
  ((D.pack p).isSome = true ∧ N p sha) ∨ ∃ x, D.loose p = some x ∧ (x.1 (objectPath (binToHex sha))).isSome = true

/-- The packs at a root path can be loaded, and their indices list `N`. -/
def PackSite (order : List Bytes → List Bytes) (dir : Option PackDir) (N : Bytes → Prop) : Prop :=
  dir.isSome = true → PackedReady order dir {} ∧ ∀ sha, PackedHas dir (({} : PackedDB).load order dir).1 sha ↔ N sha

theorem gitDbs_of_loose {D : Disk} {p : Text} (h : (D.loose p).isSome = true) :
    (gitDbs D p).1 = (if (D.pack p).isSome then [Sub.pack] else []) ++ [.loose] ++ (if (D.alt p).isSome then [.ref] else []) := by
  have h' : (D.loose p).isNone = false := by
    rcases hx : D.loose p with _ | x
    · rw [hx] at h; simp at h
    · rfl
  unfold gitDbs
  rw [h, h']
  simp

/-- The tree is good, and finds what is in the databases that can be reached. -/
theorem gitTree_spec {order : List Bytes → List Bytes} {D : Disk} (hr : Readable D) {N : Text → Bytes → Prop}
    (hN : ∀ p, PackSite order (D.pack p) (N p)) (rank : Text → Nat) (hrank : ∀ p q, Alt D p q → rank q < rank p) :
    ∀ (n : Nat) (p : Text), rank p < n → (D.loose p).isSome = true →
      NestOk (LeafOk order) (LeafHas order) (2 * n) D (gitTree D n p) ∧
      ∀ sha, NestHas (LeafHas order) (2 * n) D (gitTree D n p) sha ↔ ∃ q, AltReach D p q ∧ SiteHas D N q sha
  | 0, _, h, _ => absurd h (by omega)
  | n + 1, p, h, hl => by
    have ih : ∀ q ∈ altRoots D p, NestOk (LeafOk order) (LeafHas order) (2 * n) D (gitTree D n q) ∧
        ∀ sha, NestHas (LeafHas order) (2 * n) D (gitTree D n q) sha ↔ ∃ x, AltReach D q x ∧ SiteHas D N x sha := by
      intro q hq
      have ha := (mem_altRoots hr p q).mp hq
      have hlq := ha.choose_spec.choose_spec.2.2.2
      exact gitTree_spec hr hN rank hrank n q (by have := hrank p q ha; omega) hlq
    obtain ⟨x, hx⟩ := Option.isSome_iff_exists.mp hl
    have hat : D.looseAt p = x := by unfold Disk.looseAt; rw [hx]; rfl
    constructor
    · show CompoundOk _ _ D { dbs := List.map _ (gitDbs D p).1 }
      refine ⟨?_, by simp [nameGet]⟩
      intro s hs
      obtain ⟨b, hb, rfl⟩ := List.mem_map.mp hs
      rw [gitDbs_of_loose hl] at hb
      cases b with
      | pack =>
        have : (D.pack p).isSome = true := by
          by_cases hp : (D.pack p).isSome = true
          · exact hp
          · rw [if_neg hp] at hb
            by_cases ha : (D.alt p).isSome = true
            · rw [if_pos ha] at hb; simp at hb
            · rw [if_neg ha] at hb; simp at hb
        exact (hN p this).1
      | loose => exact trivial
      | ref =>
        refine ⟨?_, by simp [nameGet]⟩
        intro s hs
        obtain ⟨q, hq, rfl⟩ := List.mem_map.mp hs
        exact (ih q hq).1
    · intro sha
      show (∃ s ∈ List.map _ (gitDbs D p).1, _) ↔ _
      constructor
      · rintro ⟨s, hs, hh⟩
        obtain ⟨b, hb, rfl⟩ := List.mem_map.mp hs
        rw [gitDbs_of_loose hl] at hb
        cases b with
        | pack =>
          have : (D.pack p).isSome = true := by
            by_cases hp : (D.pack p).isSome = true
            · exact hp
            · rw [if_neg hp] at hb
              by_cases ha : (D.alt p).isSome = true
              · rw [if_pos ha] at hb; simp at hb
              · rw [if_neg ha] at hb; simp at hb
          exact ⟨p, .refl p, .inl ⟨this, ((hN p this).2 sha).mp hh⟩⟩
        | loose =>
          refine ⟨p, .refl p, .inr ⟨x, hx, ?_⟩⟩
          have hh : LooseHas (D.looseAt p) {} sha := hh
          rw [hat] at hh
          rcases hh with hh | hh
          · simp at hh
          · exact hh
        | ref =>
          obtain ⟨s, hs, hh⟩ := hh
          obtain ⟨q, hq, rfl⟩ := List.mem_map.mp hs
          obtain ⟨y, h1, h2⟩ := ((ih q hq).2 sha).mp hh
          exact ⟨y, .step ((mem_altRoots hr p q).mp hq) h1, h2⟩
      · rintro ⟨q, h1, h2⟩
        cases h1 with
        | refl =>
          rcases h2 with ⟨hp, h2⟩ | ⟨y, hy, h2⟩
          · exact ⟨_, List.mem_map.mpr ⟨.pack, by rw [gitDbs_of_loose hl, if_pos hp]; simp, rfl⟩, ((hN p hp).2 sha).mpr h2⟩
          · rw [hx] at hy
            obtain rfl := Option.some.inj hy
            refine ⟨_, List.mem_map.mpr ⟨.loose, by rw [gitDbs_of_loose hl]; simp, rfl⟩, ?_⟩
            show LooseHas (D.looseAt p) {} sha
            rw [hat]
            exact .inr h2
        | step ha hreach =>
          rename_i q'
          have hq' := (mem_altRoots hr p q').mpr ha
          have hsome : (D.alt p).isSome = true := by
            obtain ⟨t, ps, e, -⟩ := ha
            rw [e]; rfl
          refine ⟨_, List.mem_map.mpr ⟨.ref, by rw [gitDbs_of_loose hl, if_pos hsome]; simp, rfl⟩, ?_⟩
          exact ⟨_, List.mem_map_of_mem hq', ((ih q' hq').2 sha).mpr ⟨q, hreach, h2⟩⟩

/-- **C47** (partial) If the alternates form no cycles (there is a rank that decreases along them), a `GitDB` gives an answer, after any
history of reading operations: it has exactly the objects in the databases that can be reached through alternates files, in
packs (with well-formed indices listing `N`) or loose.  Missing: cycles, for which it does not end (`C47_cycle`). -/
theorem C47_lookup_partial (zl : Zlib) (fuel : Nat) (order : List Bytes → List Bytes) (getL : Fs → Bytes → Res OStream) (D : Disk)
    (hr : Readable D) (N : Text → Bytes → Prop) (hN : ∀ p, PackSite order (D.pack p) (N p)) (rank : Text → Nat)
    (hrank : ∀ p q, Alt D p q → rank q < rank p) (n : Nat) (p : Text) (hn : rank p < n) (hp : (D.loose p).isSome = true)
    (ops : List DbOp) (sha : Bytes) (hsha : sha ≠ []) :
    ∃ b, ((nestOps (leafOps order (fun d db sha => db.stream fuel order d sha) getL) (2 * n)).has D
        (ops.foldl (dbStep (nestOps (leafOps order (fun d db sha => db.stream fuel order d sha) getL) (2 * n)) D) (gitTree D n p)) sha).2
          = .ok b ∧ (b = true ↔ ∃ q, AltReach D p q ∧ SiteHas D N q sha) := by
  obtain ⟨h1, h2⟩ := gitTree_spec hr hN rank hrank n p hn hp
  have hO := nest_locates (leaf_locates zl fuel order getL) (2 * n)
  obtain ⟨h3, h4⟩ := steps_locates hO ops h1
  obtain ⟨b, h5, h6⟩ := hO.has h3 sha hsha
  exact ⟨b, h5, h6.trans ((h4 sha).trans (h2 sha))⟩

/-! ### cycles -/

theorem scan_result {O : DbOps ω σ α} {w : ω} (sha : Bytes) : ∀ (l : List σ) (i : Nat),
    (∀ s ∈ l, (O.has w s sha).2 ≠ .error .badObject) →
    (match (scanDbs O w sha l i).2 with
      | .ok (some _) => .ok true
      | .ok none => .ok false
      | .error e => .error e) = firstAnswer (l.map fun s sha => (O.has w s sha).2) sha
  | [], _, _ => rfl
  | s :: l, i, h => by
    simp only [scanDbs, List.map_cons, firstAnswer]
    rcases hs : O.has w s sha with ⟨s', e | b⟩
    · rfl
    · cases b with
      | true => rfl
      | false => exact scan_result sha l (i + 1) fun t ht => h t (by simp [ht])

/-- The first lookup in a new compound database. -/
theorem compoundHas_new {O : DbOps ω σ α} {w : ω} (sha : Bytes) (l : List σ) (h : ∀ s ∈ l, (O.has w s sha).2 ≠ .error .badObject) :
    ((compoundOps O).has w { dbs := l } sha).2 = firstAnswer (l.map fun s sha => (O.has w s sha).2) sha := by
  have hr := scan_result sha l 0 h
  have hb : firstAnswer (l.map fun s sha => (O.has w s sha).2) sha ≠ .error .badObject := by
    clear hr
    induction l with
    | nil => simp [firstAnswer]
    | cons s l ih =>
      simp only [List.map_cons, firstAnswer]
      split
      · exact ih fun t ht => h t (by simp [ht])
      · exact h s (by simp)
  rw [← hr] at hb ⊢
  clear hr h
  simp only [compoundOps, Compound.has, Compound.query, nameGet]
  rcases hx : scanDbs O w sha l 0 with ⟨l', e | (_ | i)⟩
  · rw [hx] at hb
    cases e <;> simp_all
  · rfl
  · rfl

/-- "No", or no end. -/
def NoOrStop (r : Res Bool) : Prop := r = .ok false ∨ r = .error .diverge

theorem firstAnswer_noOrStop {as : List (Bytes → Res Bool)} {sha : Bytes} (h : ∀ a ∈ as, NoOrStop (a sha)) :
    NoOrStop (firstAnswer as sha) ∧ ((∃ a ∈ as, a sha = .error .diverge) → firstAnswer as sha = .error .diverge) := by
  induction as with
  | nil => exact ⟨.inl rfl, by simp⟩
  | cons a as ih =>
    obtain ⟨h1, h2⟩ := ih fun b hb => h b (by simp [hb])
    unfold firstAnswer
    rcases h a (by simp) with ha | ha
    · rw [ha]
      refine ⟨h1, ?_⟩
      rintro ⟨b, hb, hd⟩
      rcases List.mem_cons.mp hb with rfl | hb
      · rw [ha] at hd; simp at hd
      · exact h2 ⟨b, hb, hd⟩
    · rw [ha]; exact ⟨.inr rfl, fun _ => rfl⟩

/-- Lookup in a new `GitDB`, for an object that cannot be reached. -/
theorem gitTree_absent (zl : Zlib) (fuel : Nat) {order : List Bytes → List Bytes} (getL : Fs → Bytes → Res OStream) {D : Disk}
    (hr : Readable D) {N : Text → Bytes → Prop} (hN : ∀ p, PackSite order (D.pack p) (N p)) {sha : Bytes} (hsha : sha ≠ []) :
    ∀ (n : Nat) (p : Text), (D.loose p).isSome = true → (∀ q, AltReach D p q → ¬ SiteHas D N q sha) →
      NoOrStop ((nestOps (leafOps order (fun d db sha => db.stream fuel order d sha) getL) (2 * n)).has D (gitTree D n p) sha).2 ∧
      ∀ S : Text → Prop, (∀ p, S p → ∃ q, Alt D p q ∧ S q) → S p →
        ((nestOps (leafOps order (fun d db sha => db.stream fuel order d sha) getL) (2 * n)).has D (gitTree D n p) sha).2 =
          .error .diverge
  | 0, p, _, _ => ⟨.inr rfl, fun _ _ _ => rfl⟩
  | n + 1, p, hl, habs => by
    obtain ⟨O, hOdef⟩ : ∃ O, O = leafOps order (fun d db sha => db.stream fuel order d sha) getL := ⟨_, rfl⟩
    have hO : Locates O (LeafOk order) (LeafHas order) := by rw [hOdef]; exact leaf_locates zl fuel order getL
    rw [← hOdef]
    have ih : ∀ q ∈ altRoots D p, _ := fun q hq =>
      gitTree_absent zl fuel getL hr hN hsha n q ((mem_altRoots hr p q).mp hq).choose_spec.choose_spec.2.2.2
        (fun x hx => habs x (.step ((mem_altRoots hr p q).mp hq) hx))
    rw [← hOdef] at ih
    have nbs : ∀ r : Res Bool, NoOrStop r → r ≠ .error .badObject := by rintro r (rfl | rfl) <;> simp
    -- the alternates
    have href : ∀ c : Compound (Nest GitLeaf (2 * n)), c = { dbs := (altRoots D p).map (gitTree D n) } →
        ((nestOps O (2 * n + 1)).has D (.inr c) sha).2 =
          firstAnswer (((altRoots D p).map (gitTree D n)).map fun s sha => ((nestOps O (2 * n)).has D s sha).2) sha := by
      rintro c rfl
      refine compoundHas_new (O := nestOps O (2 * n)) sha _ ?_
      intro s hs
      obtain ⟨q, hq, rfl⟩ := List.mem_map.mp hs
      exact nbs _ (ih q hq).1
    have hrefs : NoOrStop ((nestOps O (2 * n + 1)).has D (.inr { dbs := (altRoots D p).map (gitTree D n) }) sha).2 ∧
        ∀ S : Text → Prop, (∀ p, S p → ∃ q, Alt D p q ∧ S q) → S p →
          ((nestOps O (2 * n + 1)).has D (.inr { dbs := (altRoots D p).map (gitTree D n) }) sha).2 = .error .diverge := by
      rw [href _ rfl]
      obtain ⟨h1, h2⟩ := firstAnswer_noOrStop
        (as := ((altRoots D p).map (gitTree D n)).map fun s sha => ((nestOps O (2 * n)).has D s sha).2) (sha := sha) (by
          intro a ha
          obtain ⟨s, hs, rfl⟩ := List.mem_map.mp ha
          obtain ⟨q, hq, rfl⟩ := List.mem_map.mp hs
          exact (ih q hq).1)
      refine ⟨h1, fun S hS hp => h2 ?_⟩
      obtain ⟨q, hq, hSq⟩ := hS p hp
      have hq := (mem_altRoots hr p q).mpr hq
      exact ⟨_, List.mem_map_of_mem (List.mem_map_of_mem hq), (ih q hq).2 S hS hSq⟩
    -- the others
    have hleaf : ∀ x, LeafOk order D x → ¬ LeafHas order D x sha →
        ((nestOps O (2 * n + 1)).has D (.inl x) sha).2 = .ok false := by
      intro x h1 h2
      obtain ⟨b, h3, h4⟩ := hO.has h1 sha hsha
      have : b = false := by
        cases b with
        | false => rfl
        | true => exact absurd (h4.mp rfl) h2
      subst this
      exact h3
    obtain ⟨x, hx⟩ := Option.isSome_iff_exists.mp hl
    have hat : D.looseAt p = x := by unfold Disk.looseAt; rw [hx]; rfl
    have hpack : (D.pack p).isSome = true → ((nestOps O (2 * n + 1)).has D (.inl (.pack p {})) sha).2 = .ok false := fun hp =>
      hleaf (.pack p {}) (hN p hp).1 fun h => habs p (.refl p) (.inl ⟨hp, ((hN p hp).2 sha).mp h⟩)
    have hloose : ((nestOps O (2 * n + 1)).has D (.inl (.loose p {})) sha).2 = .ok false := hleaf (.loose p {}) trivial fun h => by
      have h : LooseHas (D.looseAt p) {} sha := h
      rw [hat] at h
      rcases h with h | h
      · simp at h
      · exact habs p (.refl p) (.inr ⟨x, hx, h⟩)
    have hall : ∀ s ∈ (gitDbs D p).1.map (fun
        | .pack => (.inl (.pack p {}) : Nest GitLeaf (2 * n + 1))
        | .loose => .inl (.loose p {})
        | .ref => .inr { dbs := (altRoots D p).map (gitTree D n) }), NoOrStop ((nestOps O (2 * n + 1)).has D s sha).2 := by
      intro s hs
      obtain ⟨b, hb, rfl⟩ := List.mem_map.mp hs
      cases b with
      | pack =>
        refine .inl (hpack ?_)
        rw [gitDbs_of_loose hl] at hb
        by_cases hp : (D.pack p).isSome = true
        · exact hp
        · rw [if_neg hp] at hb
          by_cases ha : (D.alt p).isSome = true
          · rw [if_pos ha] at hb; simp at hb
          · rw [if_neg ha] at hb; simp at hb
      | loose => exact .inl hloose
      | ref => exact hrefs.1
    have hnew := compoundHas_new (O := nestOps O (2 * n + 1)) (w := D) sha _ (fun s hs => nbs _ (hall s hs))
    obtain ⟨h1, h2⟩ := firstAnswer_noOrStop (as := List.map (fun s sha => ((nestOps O (2 * n + 1)).has D s sha).2) ((gitDbs D p).1.map (fun
        | .pack => (.inl (.pack p {}) : Nest GitLeaf (2 * n + 1))
        | .loose => .inl (.loose p {})
        | .ref => .inr { dbs := (altRoots D p).map (gitTree D n) }))) (sha := sha) (by
          intro a ha
          obtain ⟨s, hs, rfl⟩ := List.mem_map.mp ha
          exact hall s hs)
    rw [← hnew] at h1 h2
    refine ⟨h1, fun S hS hp => h2 ?_⟩
    have hsome : (D.alt p).isSome = true := by
      obtain ⟨q, ⟨t, ps, e, -⟩, -⟩ := hS p hp
      rw [e]; rfl
    exact ⟨_, List.mem_map_of_mem (List.mem_map.mpr ⟨.ref, by rw [gitDbs_of_loose hl, if_pos hsome]; simp, rfl⟩), hrefs.2 S hS hp⟩

/-- Databases that refer to each other in a cycle (`S`: each of them refers to one of them), and an object that none of them has: the
first lookup goes deeper than any depth `n`. -/
theorem C47_cycle (zl : Zlib) (fuel : Nat) (order : List Bytes → List Bytes) (getL : Fs → Bytes → Res OStream) (D : Disk)
    (hr : Readable D) (N : Text → Bytes → Prop) (hN : ∀ p, PackSite order (D.pack p) (N p)) (sha : Bytes) (hsha : sha ≠ [])
    (S : Text → Prop) (hS : ∀ p, S p → ∃ q, Alt D p q ∧ S q) (p : Text) (hp : S p) (hl : (D.loose p).isSome = true)
    (habs : ∀ q, AltReach D p q → ¬ SiteHas D N q sha) (n : Nat) :
    ((nestOps (leafOps order (fun d db sha => db.stream fuel order d sha) getL) (2 * n)).has D (gitTree D n p) sha).2 =
      .error .diverge :=
  (gitTree_absent zl fuel getL hr hN hsha n p hl habs).2 S hS hp

/-- The full claim: at some depth there is an answer, also with cycles. -/
def C47_full : Prop :=
  ∀ (_zl : Zlib) (fuel : Nat) (order : List Bytes → List Bytes) (getL : Fs → Bytes → Res OStream) (D : Disk), Readable D →
    ∀ N : Text → Bytes → Prop, (∀ p, PackSite order (D.pack p) (N p)) → ∀ (p : Text), (D.loose p).isSome = true →
      ∀ sha : Bytes, sha ≠ [] → ∃ n b,
        ((nestOps (leafOps order (fun d db sha => db.stream fuel order d sha) getL) (2 * n)).has D (gitTree D n p) sha).2 = .ok b ∧
        (b = true ↔ ∃ q, AltReach D p q ∧ SiteHas D N q sha)

/-! ## Cases -/

theorem alternates_one (t : Text) (hb : ∀ c ∈ t, ¬ Blank c) : Alternates (t ++ ['\n']) [t] := by
  have hle : ∀ c, LineEnd c → Blank c := by
    intro c hc
    unfold LineEnd at hc
    unfold Blank
    generalize c.toNat = k at hc
    simp only [List.mem_cons, List.not_mem_nil, or_false] at hc
    rcases hc with rfl | rfl | rfl | rfl | rfl | rfl | rfl | rfl | rfl | rfl <;> decide
  refine ⟨[t], ?_, .cons ⟨[], [], by simp, by simp, by simp, ?_, ?_⟩ .nil⟩
  · have := IsLines.line t '\n' [] [] (fun c hc he => hb c hc (hle c he)) (by unfold LineEnd; decide) (by simp) .nil
    simpa using this
  · intro c hc
    exact hb c (List.mem_of_mem_head? hc)
  · intro c hc
    exact hb c (List.mem_of_mem_getLast? hc)

theorem char_notBlank {c : Char} (h : 33 ≤ c.toNat ∧ c.toNat ≤ 126) : ¬ Blank c := by
  unfold Blank
  simp only [List.mem_cons, List.not_mem_nil, or_false]
  omega

def rootA : Text := "/a".toList
def rootB : Text := "/b".toList

theorem rootA_plain : ∀ c ∈ rootA, ¬ Blank c := by
  intro c hc
  apply char_notBlank
  revert c; decide

theorem rootB_plain : ∀ c ∈ rootB, ¬ Blank c := by
  intro c hc
  apply char_notBlank
  revert c; decide

/-- `/a` refers to `/b`, which refers to `/a` if `back`; `/b` has one object, if it is not a cycle. -/
def twoRoots (back : Bool) : Disk where
  pack := fun _ => none
  loose := fun p => if p = rootA then some (fun _ => none, []) else
    if p = rootB then some (fun q => if q = objectPath (binToHex [7]) ∧ !back then some (.file [1] 0o444) else none, []) else none
  alt := fun p => if p = rootA then some (.ok (rootB ++ ['\n'])) else if p = rootB ∧ back then some (.ok (rootA ++ ['\n'])) else none

theorem twoRoots_readable (back : Bool) : Readable (twoRoots back) := by
  intro p r h
  unfold twoRoots at h
  simp only at h
  split at h
  · exact ⟨_, (Option.some.inj h).symm⟩
  · split at h
    · exact ⟨_, (Option.some.inj h).symm⟩
    · simp at h

theorem twoRoots_alt (back : Bool) : Alt (twoRoots back) rootA rootB :=
  ⟨_, _, rfl, alternates_one rootB rootB_plain, by simp, rfl⟩

theorem twoRoots_back : Alt (twoRoots true) rootB rootA :=
  ⟨_, _, rfl, alternates_one rootA rootA_plain, by simp, rfl⟩

theorem C47_not_full : ¬ C47_full := by
  intro h
  obtain ⟨zl⟩ : Nonempty Zlib := ⟨lightZlib⟩
  obtain ⟨n, b, h1, -⟩ := h zl 0 id (fun _ _ => .error .badObject) (twoRoots true) (twoRoots_readable true) (fun _ _ => False)
    (fun p hp => by simp [twoRoots] at hp) rootA rfl [9] (by decide)
  have := C47_cycle zl 0 id (fun _ _ => .error .badObject) (twoRoots true) (twoRoots_readable true) (fun _ _ => False)
    (fun p hp => by simp [twoRoots] at hp) [9] (by decide) (fun p => p = rootA ∨ p = rootB)
    (by
      rintro p (rfl | rfl)
      · exact ⟨rootB, twoRoots_alt true, .inr rfl⟩
      · exact ⟨rootA, twoRoots_back, .inl rfl⟩) rootA (.inl rfl) rfl
    (by
      rintro q - (⟨-, h⟩ | ⟨x, hx, h2⟩)
      · exact h
      · simp only [twoRoots] at hx
        split at hx
        · obtain rfl := Option.some.inj hx; simp at h2
        · split at hx
          · obtain rfl := Option.some.inj hx; simp at h2
          · simp at hx) n
  rw [h1] at this
  simp at this

/-- An object in the alternate is found, after any history. -/
example (zl : Zlib) (getL : Fs → Bytes → Res OStream) (ops : List DbOp) :
    ((nestOps (leafOps id (fun d db sha => db.stream 5 id d sha) getL) (2 * 2)).has (twoRoots false)
      (ops.foldl (dbStep (nestOps (leafOps id (fun d db sha => db.stream 5 id d sha) getL) (2 * 2)) (twoRoots false))
        (gitTree (twoRoots false) 2 rootA)) [7]).2 = .ok true := by
  have hlast : ∀ q, ¬ Alt (twoRoots false) rootB q := by
    rintro q ⟨t, ps, h, -⟩
    have : (twoRoots false).alt rootB = none := rfl
    rw [this] at h
    simp at h
  obtain ⟨b, h1, h2⟩ := C47_lookup_partial zl 5 id getL (twoRoots false) (twoRoots_readable false) (fun _ _ => False)
    (fun p hp => by simp [twoRoots] at hp) (fun p => if p = rootA then 1 else 0)
    (by
      rintro p q ⟨t, ps, h, h2, h3, -⟩
      simp only [twoRoots] at h
      split at h
      · rename_i hp
        have := (refPaths_iff t ps).mpr h2
        obtain rfl := Except.ok.inj (Option.some.inj h)
        rw [(refPaths_iff _ _).mpr (alternates_one rootB rootB_plain)] at this
        obtain rfl := Except.ok.inj this
        rw [List.mem_singleton] at h3
        subst h3
        rw [if_pos hp, if_neg (by decide)]
        omega
      · simp at h) 2 rootA (by decide) rfl ops [7] (by decide)
  rw [h1, h2.mpr ⟨rootB, .step (twoRoots_alt false) (.refl _), .inr ⟨_, rfl, by decide⟩⟩]

/-- After an access when the file had only `/a`, and an attempt with a broken file, the file names both: `/a` is kept with its state, and
`/b` is new. -/
example : ∃ new : Refs Nat, ((refRun id [(fun _ => some 5, .ok (rootA ++ ['\n']), .access),
      (fun _ => some 6, .error .unicodeError, .refresh)]).refresh id (fun _ => some 8) (.ok "/b\n/a\n/b".toList)) =
    ({ dbs := some ([(rootA, 5)] ++ new), cache := [] }, .ok ()) ∧ ∀ d, d ∈ new ↔ d.1 ∈ [rootB, rootA, rootB] ∧ d.1 ∉ [rootA] ∧ 8 = d.2 := by
  obtain ⟨new, h1, h2, -⟩ := C47_refresh id (fun l => List.Perm.refl l) [(fun _ => some 5, .ok (rootA ++ ['\n']), .access),
      (fun _ => some 6, .error .unicodeError, .refresh)] [(rootA, 5)] (by rfl) (fun _ => some 8) "/b\n/a\n/b".toList
      [rootB, rootA, rootB] ((C47_file _ _).mp (by decide))
  exact ⟨new, h1, by simpa using h2⟩

/-- Comments, blank lines and relative paths are paths like others. -/
example : refPaths (.ok "# note\n\n ../x \r\n/b\x0c/c".toList) =
    .ok ["# note".toList, [], "../x".toList, "/b".toList, "/c".toList] := by decide

end GitDB.Props
