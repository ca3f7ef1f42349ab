import Verif.Model.GitLife
import Verif.Props.Live
import Verif.Props.GitStore
/-!
# C105: a `GitDB` whose directory does not exist yet, lookups and stores
-/
set_option autoImplicit false

namespace GitDB.Props
open GitDB Spec

variable {σ α β : Type}

/-! ## Specification -/

/-- What is done with a `GitDB`: a lookup or refresh, or the access to the loose database with which `store`, `ostream` and
`set_ostream` begin. -/
inductive LifeCall where
  | call (c : LiveCall)
  | store

/-- The `GitDB` after a call, whether it raised or not. -/
def lifeStep (O : DbOps Disk (GitState σ) α) (g : LifeDb σ) : Disk × LifeCall → LifeDb σ
  | (D, .call c) => (g.use D fun t => (callStep O D t c, ())).1
  | (D, .store) => (g.looseDb D).1

/-- Nothing is below a directory that does not exist. -/
def RootedAt (p : Text) (D : Disk) : Prop := D.loose p = none → D.pack p = none ∧ D.alt p = none

/-! ## The state -/

/-- Kind and path of a database. -/
def partKind : GitLeaf ⊕ RefNode σ → Option (Sub × Text)
  | .inl .stop => none
  | .inl (.pack r _) => some (.pack, r)
  | .inl (.loose r _) => some (.loose, r)
  | .inr r => some (.ref, r.root)

/-- The loose database is there, after packs only. -/
def KindsLoose (p : Text) (ks : List (Option (Sub × Text))) : Prop :=
  ∃ a b, ks = a ++ some (.loose, p) :: b ∧ ∀ k ∈ a, k = some (.pack, p)

/-- Either it has been loaded, or nothing is in it. -/
structure LifeInv (p : Text) (g : LifeDb σ) : Prop where
  root : g.git.root = p
  loaded : g.loose = true → ∃ l, g.git.dbs = some l ∧ KindsLoose p (l.map partKind)
  empty : g.loose = false → g.git.cache = [] ∧ (g.git.dbs = none ∨ g.git.dbs = some [])

theorem newParts_loose {D : Disk} {p : Text} (h : D.loose p ≠ none) :
    setCacheEnds D p = true ∧ (gitDbs D p).2 = .ok () ∧ KindsLoose p ((newParts D p : List (GitLeaf ⊕ RefNode σ)).map partKind) := by
  rcases hl : D.loose p with _ | x
  · exact absurd hl h
  · unfold setCacheEnds newParts gitDbs
    rcases D.pack p with _ | d <;> rcases D.alt p with _ | a <;> simp [hl]
    · exact ⟨[], [], rfl, nofun⟩
    · exact ⟨[], [some (.ref, p)], rfl, nofun⟩
    · exact ⟨[some (.pack, p)], [], rfl, fun k hk => List.mem_singleton.mp hk⟩
    · exact ⟨[some (.pack, p)], [some (.ref, p)], rfl, fun k hk => List.mem_singleton.mp hk⟩

theorem newParts_none {D : Disk} {p : Text} (hr : RootedAt p D) (h : D.loose p = none) :
    setCacheEnds D p = false ∧ gitDbs D p = ([], .error .invalidDBRoot) ∧ (newParts D p : List (GitLeaf ⊕ RefNode σ)) = [] := by
  obtain ⟨h1, h2⟩ := hr h
  have : gitDbs D p = ([], .error .invalidDBRoot) := by unfold gitDbs; rw [h, h1, h2]; rfl
  unfold setCacheEnds newParts
  rw [this]
  exact ⟨rfl, rfl, rfl⟩

section
variable {O : DbOps Disk (GitLeaf ⊕ RefNode σ) α}

/-- The parts of a `GitDB` after a call on the loaded list. -/
def onParts (O : DbOps Disk (GitLeaf ⊕ RefNode σ) α) (D : Disk) (c : LiveCall) (g : GitState σ) (l : List (GitLeaf ⊕ RefNode σ)) :
    GitState σ :=
  let x := callStep (compoundOps O) D ⟨l, g.cache⟩ c
  ⟨g.root, some x.dbs, x.cache⟩

theorem callStep_some {D : Disk} {g : GitState σ} {l : List (GitLeaf ⊕ RefNode σ)} (h : g.dbs = some l) (c : LiveCall) :
    callStep (stateOps O) D g c = onParts O D c g l := by
  have e : ∀ {β : Type} (f : Compound (GitLeaf ⊕ RefNode σ) → Compound (GitLeaf ⊕ RefNode σ) × Res β),
      (g.use D f).1 = ⟨g.root, some (f ⟨l, g.cache⟩).1.dbs, (f ⟨l, g.cache⟩).1.cache⟩ := by
    intro β f
    unfold GitState.use GitState.load
    rw [h]
  rcases c with op | f
  · cases op <;> exact e _
  · exact e _

theorem callStep_new {D : Disk} {g : GitState σ} (h : g.dbs = none) (c : LiveCall) :
    (setCacheEnds D g.root = true → callStep (stateOps O) D g c = onParts O D c g (newParts D g.root)) ∧
    (setCacheEnds D g.root = false → callStep (stateOps O) D g c = { g with dbs := some (newParts D g.root) }) := by
  have e : ∀ {β : Type} (f : Compound (GitLeaf ⊕ RefNode σ) → Compound (GitLeaf ⊕ RefNode σ) × Res β),
      (setCacheEnds D g.root = true → (g.use D f).1 = ⟨g.root, some (f ⟨newParts D g.root, g.cache⟩).1.dbs, (f ⟨newParts D g.root, g.cache⟩).1.cache⟩) ∧
      (setCacheEnds D g.root = false → (g.use D f).1 = { g with dbs := some (newParts D g.root) }) := by
    intro β f
    unfold GitState.use GitState.load setCacheEnds
    rw [h]
    dsimp only
    rcases (gitDbs D g.root).2 with e | _
    · exact ⟨fun h => by simp at h, fun _ => rfl⟩
    · exact ⟨fun _ => rfl, fun h => by simp at h⟩
  rcases c with op | f
  · cases op <;> exact e _
  · exact e _

/-- Calls keep the kinds of the databases. -/
def KeepsKinds (O : DbOps Disk (GitLeaf ⊕ RefNode σ) α) : Prop := ∀ D s c, partKind (callStep O D s c) = partKind s

theorem onParts_kinds (hk : KeepsKinds O) (D : Disk) (c : LiveCall) (g : GitState σ) (l : List (GitLeaf ⊕ RefNode σ)) :
    ∃ l', (onParts O D c g l).dbs = some l' ∧ l'.map partKind = l.map partKind := by
  refine ⟨_, rfl, ?_⟩
  rcases c with op | f
  · exact compound_map (O := O) (w := D) (g := partKind) (fun s op => hk D s (.read op)) ⟨l, g.cache⟩ op
  · exact eachDb_keeps (f := fun s => O.update D s f) (fun s => hk D s (.update f)) l

theorem onParts_empty (D : Disk) (c : LiveCall) (g : GitState σ) (h : g.cache = []) :
    (onParts O D c g []).dbs = some [] ∧ (onParts O D c g []).cache = [] ∧ (onParts O D c g []).root = g.root := by
  rcases c with op | f
  · cases op <;> simp [onParts, callStep, dbStep, compoundOps, Compound.has, Compound.get, Compound.query, Compound.size, Compound.shas,
      scanDbs, eachDb, h, nameGet]
  · exact ⟨rfl, rfl, rfl⟩

theorem lifeInv_step (hk : KeepsKinds O) {p : Text} {g : LifeDb σ} (h : LifeInv p g) (e : Disk × LifeCall) (hr : RootedAt p e.1) :
    LifeInv p (lifeStep (stateOps O) g e) := by
  obtain ⟨D, c⟩ := e
  have hroot := h.root
  by_cases hl : g.loose = true
  · obtain ⟨l, h1, h2⟩ := h.loaded hl
    rcases c with c | _
    · have e1 : lifeStep (stateOps O) g (D, .call c) = ⟨onParts O D c g.git l, true⟩ := by
        show LifeDb.mk (callStep (stateOps O) D g.git c) _ = _
        rw [callStep_some h1, hl]
        rfl
      rw [e1]
      obtain ⟨l', k1, k2⟩ := onParts_kinds hk D c g.git l
      exact ⟨hroot, fun _ => ⟨l', k1, by rw [k2]; exact h2⟩, nofun⟩
    · have e1 : lifeStep (stateOps O) g (D, .store) = g := by
        show (LifeDb.looseDb D g).1 = g
        unfold LifeDb.looseDb
        rw [if_pos hl]
      rw [e1]
      exact h
  · have hl : g.loose = false := by simpa using hl
    obtain ⟨h1, h2⟩ := h.empty hl
    rcases c with c | _
    · by_cases hD : D.loose p = none
      · obtain ⟨k1, k2, k3⟩ := newParts_none (σ := σ) hr hD
        rcases h2 with h2 | h2
        · have e1 : lifeStep (stateOps O) g (D, .call c) = ⟨⟨p, some [], g.git.cache⟩, false⟩ := by
            show LifeDb.mk (callStep (stateOps O) D g.git c) (g.loose || (g.git.dbs.isNone && setCacheEnds D g.git.root)) = _
            rw [(callStep_new h2 c).2 (by rw [hroot]; exact k1), hroot, k1, k3, hl, Bool.and_false]
            rfl
          rw [e1]
          exact ⟨rfl, nofun, fun _ => ⟨h1, .inr rfl⟩⟩
        · have e1 : lifeStep (stateOps O) g (D, .call c) = ⟨onParts O D c g.git [], false⟩ := by
            show LifeDb.mk (callStep (stateOps O) D g.git c) (g.loose || (g.git.dbs.isNone && setCacheEnds D g.git.root)) = _
            rw [callStep_some h2, h2, hl]
            rfl
          rw [e1]
          obtain ⟨m1, m2, m3⟩ := onParts_empty (O := O) D c g.git h1
          exact ⟨m3.trans hroot, nofun, fun _ => ⟨m2, .inr m1⟩⟩
      · obtain ⟨k1, k2, k3⟩ := newParts_loose (σ := σ) hD
        rcases h2 with h2 | h2
        · have e1 : lifeStep (stateOps O) g (D, .call c) = ⟨onParts O D c g.git (newParts D p), true⟩ := by
            show LifeDb.mk (callStep (stateOps O) D g.git c) (g.loose || (g.git.dbs.isNone && setCacheEnds D g.git.root)) = _
            rw [(callStep_new h2 c).1 (by rw [hroot]; exact k1), h2, hroot, k1, hl]
            rfl
          rw [e1]
          obtain ⟨l', m1, m2⟩ := onParts_kinds hk D c g.git (newParts D p)
          exact ⟨hroot, fun _ => ⟨l', m1, by rw [m2]; exact k3⟩, nofun⟩
        · have e1 : lifeStep (stateOps O) g (D, .call c) = ⟨onParts O D c g.git [], false⟩ := by
            show LifeDb.mk (callStep (stateOps O) D g.git c) (g.loose || (g.git.dbs.isNone && setCacheEnds D g.git.root)) = _
            rw [callStep_some h2, h2, hl]
            rfl
          rw [e1]
          obtain ⟨m1, m2, m3⟩ := onParts_empty (O := O) D c g.git h1
          exact ⟨m3.trans hroot, nofun, fun _ => ⟨m2, .inr m1⟩⟩
    · have e1 : lifeStep (stateOps O) g (D, .store) = ⟨{ g.git with dbs := some (newParts D p) }, setCacheEnds D p⟩ := by
        show (LifeDb.looseDb D g).1 = _
        unfold LifeDb.looseDb
        rw [if_neg (by simp [hl]), hroot]
      rw [e1]
      by_cases hD : D.loose p = none
      · obtain ⟨k1, k2, k3⟩ := newParts_none (σ := σ) hr hD
        rw [k1, k3]
        exact ⟨hroot, nofun, fun _ => ⟨h1, .inr rfl⟩⟩
      · obtain ⟨k1, k2, k3⟩ := newParts_loose (σ := σ) hD
        rw [k1]
        exact ⟨hroot, fun _ => ⟨_, rfl, k3⟩, nofun⟩

/-- The invariant holds after any history. -/
theorem life_inv (hk : KeepsKinds O) {p : Text} : ∀ (past : List (Disk × LifeCall)) (g : LifeDb σ), LifeInv p g →
    (∀ e ∈ past, RootedAt p e.1) → LifeInv p (past.foldl (lifeStep (stateOps O)) g)
  | [], _, h, _ => h
  | e :: past, _, h, hr =>
    life_inv hk past _ (lifeInv_step hk h e (hr e List.mem_cons_self)) fun x hx => hr x (List.mem_cons_of_mem _ hx)

theorem life_inv_new (p : Text) : LifeInv p (LifeDb.new p : LifeDb σ) := ⟨rfl, nofun, fun _ => ⟨rfl, .inl rfl⟩⟩

/-- Once `_loose_db` exists it stays. -/
theorem life_stays : ∀ (past : List (Disk × LifeCall)) (g : LifeDb σ), g.loose = true →
    (past.foldl (lifeStep (stateOps O)) g).loose = true
  | [], _, h => h
  | (_, .call c) :: past, g, h => life_stays past _ (by show (g.loose || _) = true; rw [h]; rfl)
  | (D, .store) :: past, g, h => life_stays past _ (by
      show (LifeDb.looseDb D g).1.loose = true
      unfold LifeDb.looseDb
      rw [if_pos h]
      exact h)

end

theorem leaf_keepsKinds (order : List Bytes → List Bytes) (getP : Option PackDir → PackedDB → Bytes → PackedDB × Res α)
    (getL : Fs → Bytes → Res α) (orderT : List Text → List Text) (mk : Disk → Text → Option σ) (P : DbOps Disk σ α) :
    KeepsKinds (sumOps (leafOps order getP getL) (refOps orderT mk P)) := by
  have huse : ∀ {β : Type} (D : Disk) (r : RefNode σ) (f : Compound (Text × σ) → Compound (Text × σ) × Res β), (r.use orderT mk D f).1.root = r.root := by
    intro β D r f
    unfold RefNode.use
    rcases r.db.load orderT (mk D) (D.altFile r.root) with ⟨db, e | l⟩ <;> rfl
  intro D s c
  rcases s with (_ | ⟨r, db⟩ | ⟨r, db⟩) | r
  · rcases c with op | f
    · cases op <;> rfl
    · rfl
  · rcases c with op | f
    · cases op <;> rfl
    · rfl
  · rcases c with op | f
    · cases op <;> rfl
    · rfl
  · rcases c with op | f
    · cases op <;> exact congrArg (fun x => some (Sub.ref, x)) (huse D r _)
    · show some (Sub.ref, _) = _
      refine congrArg (fun x => some (Sub.ref, x)) ?_
      show RefNode.root (Prod.fst (match r.db.refresh orderT (mk D) (D.altFile r.root) with
        | (db, .error e) => ({ r with db := db }, .error e)
        | (db, .ok ()) => RefNode.use orderT mk D (fun c => c.update (pairOps P) D f) { r with db := db })) = r.root
      rcases r.db.refresh orderT (mk D) (D.altFile r.root) with ⟨db, e | _⟩
      · rfl
      · exact huse D { r with db := db } _

theorem packedHas_ne (db : PackedDB) (d : Option PackDir) (sha : Bytes) (order : List Bytes → List Bytes) (e : Err)
    (h : (PackedDB.hasObject order d db sha).2 = .error e) : e ≠ .badObject := by
  unfold PackedDB.hasObject at h
  rintro rfl
  rcases hq : PackedDB.packInfo order d db sha with ⟨db', e | x⟩
  · rw [hq] at h
    cases e <;> cases h
  · rw [hq] at h
    cases h

/-! ## C105 -/

section
variable (fuel : Nat) (order : List Bytes → List Bytes) (orderT : List Text → List Text) (getL : Fs → Bytes → Res OStream)

/-- The databases of a `GitDB` with alternates up to depth `n`. -/
def partOps (n : Nat) : DbOps Disk (GitLeaf ⊕ RefNode (GitNode n)) OStream :=
  sumOps (leafOps order (fun d db sha => db.stream fuel order d sha) getL)
    (refOps orderT (newNode n) (liveOps orderT (leafOps order (fun d db sha => db.stream fuel order d sha) getL) n))

/-- What the lookups of a database answer when nothing is in it. -/
def AnswersNothing (O : DbOps Disk σ α) (D : Disk) (t : σ) : Prop :=
  (∀ sha, (O.has D t sha).2 = .ok false ∧ (O.get D t sha).2 = .error .badObject) ∧ (O.size D t).2 = .ok 0 ∧ (O.shas D t).2 = .ok [] ∧
    ∀ f, (O.update D t f).2 = .ok (some false)

/-- Everything raises `InvalidDBRoot`. -/
def RaisesRoot (O : DbOps Disk σ α) (D : Disk) (t : σ) : Prop :=
  (∀ sha, (O.has D t sha).2 = .error .invalidDBRoot ∧ (O.get D t sha).2 = .error .invalidDBRoot) ∧
    (O.size D t).2 = .error .invalidDBRoot ∧ (O.shas D t).2 = .error .invalidDBRoot ∧ ∀ f, (O.update D t f).2 = .error .invalidDBRoot

/-- **C105** A `GitDB` is asked something before its directory exists: this raises `InvalidDBRoot`.  From then on, whatever is on the
disk and whatever else is looked up or refreshed, it answers that it is empty, without an exception. -/
theorem C105_too_early (n : Nat) (p : Text) (D0 : Disk) (hr : RootedAt p D0) (h0 : D0.loose p = none) (first : LiveCall)
    (later : List (Disk × LiveCall)) (D : Disk) :
    let O := liveOps orderT (leafOps order (fun d db sha => db.stream fuel order d sha) getL) (n + 1)
    RaisesRoot O D0 (freshNode (n + 1) p) ∧
    AnswersNothing O D ((later.foldl (fun g e => lifeStep (σ := GitNode n) O g (e.1, .call e.2))
      (lifeStep (σ := GitNode n) O (LifeDb.new p) (D0, .call first))).git) := by
  intro O
  obtain ⟨k1, k2, k3⟩ := newParts_none (σ := GitNode n) hr h0
  have hO : O = stateOps (partOps fuel order orderT getL n) := rfl
  refine ⟨?_, ?_⟩
  · have hu : ∀ {β : Type} (f : Compound (GitLeaf ⊕ RefNode (GitNode n)) → Compound (GitLeaf ⊕ RefNode (GitNode n)) × Res β),
        (GitState.use D0 f ({ root := p } : GitState (GitNode n))).2 = .error .invalidDBRoot := by
      intro β f
      unfold GitState.use GitState.load
      dsimp only
      rw [k2]
    exact ⟨fun sha => ⟨hu _, hu _⟩, hu _, hu _, fun f => hu _⟩
  · have hempty : ∀ (later : List (Disk × LiveCall)) (g : LifeDb (GitNode n)), g.git.cache = [] → g.git.dbs = some [] →
        (later.foldl (fun g e => lifeStep (σ := GitNode n) O g (e.1, .call e.2)) g).git.cache = [] ∧
        (later.foldl (fun g e => lifeStep (σ := GitNode n) O g (e.1, .call e.2)) g).git.dbs = some [] := by
      intro later
      induction later with
      | nil => exact fun g h1 h2 => ⟨h1, h2⟩
      | cons e later ih =>
        intro g h1 h2
        have e1 : (lifeStep (σ := GitNode n) O g (e.1, .call e.2)).git = onParts (partOps fuel order orderT getL n) e.1 e.2 g.git [] :=
          callStep_some (O := partOps fuel order orderT getL n) h2 e.2
        obtain ⟨m1, m2, m3⟩ := onParts_empty (O := partOps fuel order orderT getL n) e.1 e.2 g.git h1
        rw [List.foldl_cons]
        exact ih _ (by rw [e1]; exact m2) (by rw [e1]; exact m1)
    have e0 : (lifeStep (σ := GitNode n) O (LifeDb.new p) (D0, .call first)).git = ⟨p, some [], []⟩ := by
      have := (callStep_new (O := partOps fuel order orderT getL n) (D := D0) (g := { root := p }) rfl first).2 k1
      rw [k3] at this
      exact this
    obtain ⟨h1, h2⟩ := hempty later (lifeStep (σ := GitNode n) O (LifeDb.new p) (D0, .call first)) (by rw [e0]) (by rw [e0])
    generalize (later.foldl (fun g e => lifeStep (σ := GitNode n) O g (e.1, .call e.2))
      (lifeStep (σ := GitNode n) O (LifeDb.new p) (D0, .call first))).git = t at h1 h2
    have hu : ∀ {β : Type} (f : Compound (GitLeaf ⊕ RefNode (GitNode n)) → Compound (GitLeaf ⊕ RefNode (GitNode n)) × Res β),
        (GitState.use D f t).2 = (f ⟨[], []⟩).2 := by
      intro β f
      rcases t with ⟨r, dbs, cache⟩
      simp only at h1 h2
      subst h1 h2
      rfl
    exact ⟨fun sha => ⟨hu _, hu _⟩, hu _, hu _, fun f => hu _⟩

/-- **C105** After any history - lookups, refreshes and stores, on disks changing in any way, the directory there or not - a store finds
its database if the directory exists now, and raises `InvalidDBRoot` only if it has never been there at a store or at the first call.
If nothing had been loaded, the `GitDB` is from then on as a new one that loads its databases now. -/
theorem C105_store (n : Nat) (p : Text) (past : List (Disk × LifeCall)) (hpast : ∀ e ∈ past, RootedAt p e.1) (D : Disk)
    (hr : RootedAt p D) :
    let O := liveOps orderT (leafOps order (fun d db sha => db.stream fuel order d sha) getL) (n + 1)
    let g : LifeDb (GitNode n) := past.foldl (lifeStep (σ := GitNode n) O) (LifeDb.new p)
    (D.loose p ≠ none → (g.looseDb D).2 = .ok () ∧ (g.looseDb D).1.loose = true) ∧
    (g.loose = true → g.looseDb D = (g, .ok ())) ∧
    (g.loose = false → D.loose p = none → (g.looseDb D).2 = .error .invalidDBRoot ∧ (g.looseDb D).1.loose = false) ∧
    (g.loose = false → (g.looseDb D).1.git = (GitState.load D { root := p }).1) := by
  intro O g
  have hinv : LifeInv p g := life_inv (O := partOps fuel order orderT getL n) (leaf_keepsKinds order _ getL orderT _ _) past _
    (life_inv_new p) hpast
  have hroot := hinv.root
  have htrue : g.loose = true → g.looseDb D = (g, .ok ()) := fun h => by unfold LifeDb.looseDb; rw [if_pos h]
  have hfalse : g.loose = false →
      g.looseDb D = (⟨⟨p, some (newParts D p), []⟩, setCacheEnds D p⟩, (gitDbs D p).2) := fun h => by
    unfold LifeDb.looseDb
    rw [if_neg (by simp [h])]
    show (LifeDb.mk ⟨g.git.root, some (newParts D g.git.root), g.git.cache⟩ (setCacheEnds D g.git.root), (gitDbs D g.git.root).2) = _
    rw [hroot, (hinv.empty h).1]
  refine ⟨fun hD => ?_, htrue, fun h hD => ?_, fun h => ?_⟩
  · obtain ⟨k1, k2, k3⟩ := newParts_loose (σ := GitNode n) hD
    cases hg : g.loose with
    | true => rw [htrue hg]; exact ⟨rfl, hg⟩
    | false => rw [hfalse hg]; exact ⟨k2, k1⟩
  · obtain ⟨k1, k2, k3⟩ := newParts_none (σ := GitNode n) hr hD
    rw [hfalse h, k2]
    exact ⟨rfl, k1⟩
  · rw [hfalse h]
    unfold GitState.load
    dsimp only
    rcases (gitDbs D p).2 with e | _ <;> rfl

/-- **C105** After any history as above with a store that found its database, and any further calls: an object whose file is now there is
found by `has_object`, unless the database of packs, which is asked first, raises. -/
theorem C105_found (n : Nat) (p : Text) (past : List (Disk × LifeCall)) (D : Disk) (later : List (Disk × LifeCall))
    (hpast : ∀ e ∈ past ++ (D, .store) :: later, RootedAt p e.1) (hD : D.loose p ≠ none) (D' : Disk) (sha : Bytes)
    (hthere : LooseThere D' p sha) :
    let O := liveOps orderT (leafOps order (fun d db sha => db.stream fuel order d sha) getL) (n + 1)
    let g : LifeDb (GitNode n) := (past ++ (D, .store) :: later).foldl (lifeStep (σ := GitNode n) O) (LifeDb.new p)
    (O.has D' g.git sha).2 = .ok true ∨ ∃ db e, (PackedDB.hasObject order (D'.pack p) db sha).2 = .error e ∧ (O.has D' g.git sha).2 = .error e := by
  intro O g
  have hinv : LifeInv p g := life_inv (O := partOps fuel order orderT getL n) (leaf_keepsKinds order _ getL orderT _ _) _ _
    (life_inv_new p) hpast
  have hloose : g.loose = true := by
    have hg : g = later.foldl (lifeStep (σ := GitNode n) O) ((past.foldl (lifeStep (σ := GitNode n) O) (LifeDb.new p)).looseDb D).1 :=
      List.foldl_append
    rw [hg]
    refine life_stays (O := partOps fuel order orderT getL n) later _ ?_
    exact ((C105_store fuel order orderT getL n p past (fun e he => hpast e (List.mem_append_left _ he)) D
      (hpast (D, .store) (List.mem_append_right _ List.mem_cons_self))).1 hD).2
  obtain ⟨l, h1, a, b, h2, h3⟩ := hinv.loaded hloose
  have hu : (O.has D' g.git sha).2 = (Compound.has (partOps fuel order orderT getL n) D' ⟨l, g.git.cache⟩ sha).2 := by
    show (GitState.use D' _ g.git).2 = _
    unfold GitState.use GitState.load
    rw [h1]
    rfl
  rw [hu]
  have hscan : ∀ (l : List (GitLeaf ⊕ RefNode (GitNode n))) (a : List (Option (Sub × Text))) (i : Nat),
      l.map partKind = a ++ some (.loose, p) :: b → (∀ k ∈ a, k = some (.pack, p)) →
      (∃ j, (scanDbs (partOps fuel order orderT getL n) D' sha l i).2 = .ok (some j)) ∨
      ∃ db e, (PackedDB.hasObject order (D'.pack p) db sha).2 = .error e ∧
        (scanDbs (partOps fuel order orderT getL n) D' sha l i).2 = .error e := by
    intro l
    induction l with
    | nil => intro a i h; simp at h
    | cons x l ih =>
      intro a i h ha
      rcases a with _ | ⟨k, a⟩
      · rw [List.map_cons, List.nil_append, List.cons.injEq] at h
        obtain ⟨db, rfl⟩ : ∃ db, x = .inl (.loose p db) := by
          rcases x with (_ | ⟨r, db⟩ | ⟨r, db⟩) | r
          · exact absurd h.1 nofun
          · exact absurd h.1 (by simp [partKind])
          · have := h.1
            simp only [partKind, Option.some.injEq, Prod.mk.injEq, true_and] at this
            exact ⟨db, by rw [this]⟩
          · exact absurd h.1 (by simp [partKind])
        obtain ⟨y, hy, hf⟩ := hthere
        have hh : (LooseDB.hasObject (D'.looseAt p).1 db sha).2 = true := by
          unfold LooseDB.hasObject LooseDB.readablePath Disk.looseAt
          rw [hy]
          by_cases hm : binToHex sha ∈ db.known
          · simp only [hm, if_true]
          · simp only [hm, if_false, Option.getD_some, hf, if_true]
        refine .inl ⟨i, ?_⟩
        unfold scanDbs
        have e1 : (partOps fuel order orderT getL n).has D' (.inl (.loose p db)) sha =
            (.inl (.loose p (LooseDB.hasObject (D'.looseAt p).1 db sha).1), .ok (LooseDB.hasObject (D'.looseAt p).1 db sha).2) := rfl
        rw [e1, hh]
      · rw [List.map_cons, List.cons_append, List.cons.injEq] at h
        obtain ⟨db, rfl⟩ : ∃ db, x = .inl (.pack p db) := by
          have hk := ha k List.mem_cons_self
          rw [hk] at h
          rcases x with (_ | ⟨r, db⟩ | ⟨r, db⟩) | r
          · exact absurd h.1 nofun
          · have := h.1
            simp only [partKind, Option.some.injEq, Prod.mk.injEq, true_and] at this
            exact ⟨db, by rw [this]⟩
          · exact absurd h.1 (by simp [partKind])
          · exact absurd h.1 (by simp [partKind])
        unfold scanDbs
        have e1 : (partOps fuel order orderT getL n).has D' (.inl (.pack p db)) sha =
            (.inl (.pack p (PackedDB.hasObject order (D'.pack p) db sha).1), (PackedDB.hasObject order (D'.pack p) db sha).2) := rfl
        rw [e1]
        rcases hp : (PackedDB.hasObject order (D'.pack p) db sha).2 with e | (_ | _)
        · exact .inr ⟨db, e, hp, rfl⟩
        · exact ih a (i + 1) h.2 fun k hk => ha k (List.mem_cons_of_mem _ hk)
        · exact .inl ⟨i, rfl⟩
  unfold Compound.has Compound.query
  dsimp only
  rcases nameGet sha g.git.cache with _ | i
  · dsimp only
    rcases hscan l a 0 h2 h3 with ⟨j, hj⟩ | ⟨db, e, he, hj⟩
    · rcases hs : scanDbs (partOps fuel order orderT getL n) D' sha l 0 with ⟨l', r⟩
      rw [hs] at hj
      simp only at hj
      subst hj
      exact .inl rfl
    · rcases hs : scanDbs (partOps fuel order orderT getL n) D' sha l 0 with ⟨l', r⟩
      rw [hs] at hj
      simp only at hj
      subst hj
      refine .inr ⟨db, e, he, ?_⟩
      have hne := packedHas_ne db (D'.pack p) sha order e he
      cases e <;> first | rfl | exact absurd rfl hne
  · exact .inl rfl

end

/-! ### Examples -/

/-- Nothing there. -/
def voidDisk : Disk := ⟨fun _ => none, fun _ => none, fun _ => none⟩

theorem void_rooted (p : Text) : RootedAt p voidDisk := fun _ => ⟨rfl, rfl⟩
theorem bare_rooted (p : Text) : RootedAt p bareDisk := fun _ => ⟨rfl, rfl⟩

def lifeOps : DbOps Disk (GitNode 1) OStream :=
  liveOps id (leafOps id (fun d db sha => PackedDB.stream 9 id d db sha) fun _ _ => .error .valueError) 1

/-- An object is there, and is not found, as the `GitDB` was asked before the directory existed; a store makes it load its databases. -/
example :
    let early := lifeStep (σ := GitNode 0) lifeOps (LifeDb.new rootB) (voidDisk, .call (.read .size))
    (lifeOps.size voidDisk (freshNode 1 rootB)).2 = .error .invalidDBRoot ∧
    (lifeOps.has bareDisk early.git [7]).2 = .ok false ∧ (lifeOps.has bareDisk (freshNode 1 rootB) [7]).2 = .ok true ∧
    (early.looseDb voidDisk).2 = .error .invalidDBRoot ∧
    (early.looseDb bareDisk).2 = .ok () ∧ (lifeOps.has bareDisk (early.looseDb bareDisk).1.git [7]).2 = .ok true := by
  decide +kernel

/-- The hypotheses are met. -/
example := C105_too_early 9 id id (fun _ _ => .error .valueError) 0 rootB voidDisk (void_rooted rootB) rfl (.read .size)
  [(bareDisk, .update true)] bareDisk
example := C105_store 9 id id (fun _ _ => .error .valueError) 0 rootB [(voidDisk, .call (.read .size)), (voidDisk, .store)]
  (by intro e he; rcases List.mem_cons.mp he with rfl | he
      · exact void_rooted _
      · rw [List.mem_singleton.mp he]; exact void_rooted _) bareDisk (bare_rooted rootB)
example := C105_found 9 id id (fun _ _ => .error .valueError) 0 rootB [(voidDisk, .call (.read .size))] bareDisk
  [(bareDisk, .call (.update true))]
  (by intro e he
      simp only [List.cons_append, List.nil_append, List.mem_cons, List.not_mem_nil, or_false] at he
      rcases he with rfl | rfl | rfl
      · exact void_rooted _
      · exact bare_rooted _
      · exact bare_rooted _) (by decide +kernel) bareDisk [7] ⟨_, rfl, by decide +kernel⟩

end GitDB.Props
