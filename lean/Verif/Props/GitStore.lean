import Verif.Props.Alternates
import Verif.Props.Loose
/-!
# C52: storing through `GitDB`
-/
set_option autoImplicit false

namespace GitDB.Props
open GitDB Spec

variable {ω σ α β γ : Type}

/-! ## The shape of a tree does not change -/

theorem scanDbs_keeps {O : DbOps ω σ α} {w : ω} {g : σ → β} (sha : Bytes) (hg : ∀ s, g (O.has w s sha).1 = g s) :
    ∀ (l : List σ) (i : Nat), (scanDbs O w sha l i).1.map g = l.map g
  | [], _ => rfl
  | s :: l, i => by
    have h1 := hg s
    have h2 := scanDbs_keeps sha hg l (i + 1)
    unfold scanDbs
    rcases hs : O.has w s sha with ⟨s', e | (_ | _)⟩ <;> rw [hs] at h1 <;> simp only at h1 <;>
      simp only [List.map_cons, h1, h2]

theorem onDb_keeps {f : σ → σ × Res γ} {g : σ → β} (hg : ∀ s, g (f s).1 = g s) : ∀ (l : List σ) (i : Nat),
    (onDb f l i).1.map g = l.map g
  | [], _ => rfl
  | s :: l, 0 => by simp only [onDb, List.map_cons, hg]
  | s :: l, i + 1 => by simp only [onDb, List.map_cons, onDb_keeps hg l i]

theorem eachDb_keeps {f : σ → σ × Res γ} {g : σ → β} (hg : ∀ s, g (f s).1 = g s) : ∀ (l : List σ), (eachDb f l).1.map g = l.map g
  | [] => rfl
  | s :: l => by
    have h1 := hg s
    have h2 := eachDb_keeps hg l
    unfold eachDb
    rcases hs : f s with ⟨s', e | x⟩
    · rw [hs] at h1; simp only at h1; simp only [List.map_cons, h1]
    · rw [hs] at h1
      simp only at h1
      rcases hr : eachDb f l with ⟨l', e | xs⟩ <;> rw [hr] at h2 <;> simp only at h2 <;> simp only [List.map_cons, h1, h2]

theorem query_map {O : DbOps ω σ α} {w : ω} {g : σ → β} (sha : Bytes) (hg : ∀ s, g (O.has w s sha).1 = g s) (c : Compound σ) :
    (c.query O w sha).1.dbs.map g = c.dbs.map g := by
  unfold Compound.query
  rcases nameGet sha c.cache with _ | i
  · have h := scanDbs_keeps sha hg c.dbs 0
    simp only
    rcases hs : scanDbs O w sha c.dbs 0 with ⟨l, e | (_ | i)⟩ <;> rw [hs] at h <;> exact h
  · rfl

theorem compound_map {O : DbOps ω σ α} {w : ω} {g : σ → β} (hg : ∀ s op, g (dbStep O w s op) = g s) (c : Compound σ) (op : DbOp) :
    (dbStep (compoundOps O) w c op).dbs.map g = c.dbs.map g := by
  cases op with
  | has sha =>
    have : dbStep (compoundOps O) w c (.has sha) = (c.query O w sha).1 := compoundHas_fst O w c sha
    rw [this]
    exact query_map sha (fun s => hg s (.has sha)) c
  | get sha =>
    have h := query_map sha (fun s => hg s (.has sha)) c
    show (c.get O w sha).1.dbs.map g = _
    unfold Compound.get
    rcases hq : c.query O w sha with ⟨c', e | i⟩
    · rw [hq] at h; exact h
    · rw [hq] at h
      exact (onDb_keeps (f := fun s => O.get w s sha) (fun s => hg s (.get sha)) c'.dbs i).trans h
  | size => exact eachDb_keeps (f := O.size w) (fun s => hg s .size) c.dbs
  | shas => exact eachDb_keeps (f := O.shas w) (fun s => hg s .shas) c.dbs

/-- Reading operations keep what `g` says about the databases of a tree. -/
theorem leaves_map {O : DbOps ω σ α} {w : ω} {g : σ → β} (hg : ∀ s op, g (dbStep O w s op) = g s) :
    ∀ (n : Nat) (t : Nest σ n) (op : DbOp), (leaves n (dbStep (nestOps O n) w t op)).map g = (leaves n t).map g
  | 0, s, op => by
    have := hg s op
    show [g (dbStep O w s op)] = [g s]
    rw [this]
  | n + 1, .inl s, op => by
    have : dbStep (nestOps O (n + 1)) w (.inl s) op = .inl (dbStep O w s op) := by cases op <;> rfl
    rw [this]
    show [dbStep O w s op].map g = [s].map g
    simp only [List.map_cons, List.map_nil, hg]
  | n + 1, .inr c, op => by
    have : dbStep (nestOps O (n + 1)) w (.inr c) op = .inr (dbStep (compoundOps (nestOps O n)) w c op) := by cases op <;> rfl
    rw [this]
    have h := compound_map (O := nestOps O n) (w := w) (g := fun t => (leaves n t).map g) (leaves_map hg n) c op
    show ((dbStep (compoundOps (nestOps O n)) w c op).dbs.flatMap (leaves n)).map g = (c.dbs.flatMap (leaves n)).map g
    rw [List.map_flatMap, List.map_flatMap, List.flatMap_def, List.flatMap_def, h]

/-! ## What a tree finds -/

theorem nestHas_leaves {C : ω → σ → Bytes → Prop} : ∀ (n : Nat) (w : ω) (t : Nest σ n) (sha : Bytes),
    NestHas C n w t sha ↔ ∃ s ∈ leaves n t, C w s sha
  | 0, w, s, sha => by
    show C w s sha ↔ ∃ s' ∈ [s], C w s' sha
    simp
  | n + 1, w, .inl s, sha => by
    show C w s sha ↔ ∃ s' ∈ [s], C w s' sha
    simp
  | n + 1, w, .inr c, sha => by
    show (∃ s ∈ c.dbs, NestHas C n w s sha) ↔ ∃ s ∈ c.dbs.flatMap (leaves n), C w s sha
    constructor
    · rintro ⟨s, hs, h⟩
      obtain ⟨x, hx, h⟩ := (nestHas_leaves n w s sha).mp h
      exact ⟨x, List.mem_flatMap.mpr ⟨s, hs, hx⟩, h⟩
    · rintro ⟨x, hx, h⟩
      obtain ⟨s, hs, hx⟩ := List.mem_flatMap.mp hx
      exact ⟨s, hs, (nestHas_leaves n w s sha).mpr ⟨x, hx, h⟩⟩

/-- If the databases at the ends stay good and lose nothing when the world changes, the tree stays good. -/
theorem nestOk_grow {Ok : ω → σ → Prop} {C : ω → σ → Bytes → Prop} {w w' : ω} (h1 : ∀ s, Ok w s → Ok w' s)
    (h2 : ∀ s sha, Ok w s → C w s sha → C w' s sha) : ∀ (n : Nat) (t : Nest σ n), NestOk Ok C n w t →
      NestOk Ok C n w' t ∧ ∀ sha, NestHas C n w t sha → NestHas C n w' t sha
  | 0, s, h => ⟨h1 s h, fun sha => h2 s sha h⟩
  | n + 1, .inl s, h => ⟨h1 s h, fun sha => h2 s sha h⟩
  | n + 1, .inr c, h => by
    refine ⟨⟨fun s hs => (nestOk_grow h1 h2 n s (h.1 s hs)).1, ?_⟩, ?_⟩
    · intro sha i hi
      obtain ⟨s, e, hc⟩ := h.2 sha i hi
      exact ⟨s, e, (nestOk_grow h1 h2 n s (h.1 s (List.mem_of_getElem? e))).2 sha hc⟩
    · rintro sha ⟨s, hs, hc⟩
      exact ⟨s, hs, (nestOk_grow h1 h2 n s (h.1 s hs)).2 sha hc⟩

/-- Getting an object from a tree is getting it from one of the databases that have it. -/
theorem nest_get {O : DbOps ω σ α} {Ok : ω → σ → Prop} {C : ω → σ → Bytes → Prop} (hO : Locates O Ok C) {w : ω} {sha : Bytes}
    (hne : sha ≠ []) : ∀ (n : Nat) (t : Nest σ n), NestOk Ok C n w t → NestHas C n w t sha →
      ∃ s, Ok w s ∧ C w s sha ∧ ((nestOps O n).get w t sha).2 = (O.get w s sha).2
  | 0, s, h, hc => ⟨s, h, hc, rfl⟩
  | n + 1, .inl s, h, hc => ⟨s, h, hc, rfl⟩
  | n + 1, .inr c, h, hc => by
    rcases get_served (nest_locates hO n) h sha hne with ⟨s, h1, h2, -, h3⟩ | ⟨h1, -⟩
    · obtain ⟨x, h4, h5, h6⟩ := nest_get hO hne n s h1 h2
      exact ⟨x, h4, h5, h3.trans h6⟩
    · obtain ⟨s, hs, hc⟩ := hc
      exact absurd hc (h1 s hs)

/-! ## C52 -/

/-- Objects are added to loose databases: nothing else changes, and nothing disappears. -/
structure Grown (D D' : Disk) : Prop where
  pack : D'.pack = D.pack
  alt : D'.alt = D.alt
  same : ∀ p, (D'.loose p).isSome = (D.loose p).isSome
  keep : ∀ p x x', D.loose p = some x → D'.loose p = some x' → ∀ sha,
    (x.1 (objectPath (binToHex sha))).isSome = true → (x'.1 (objectPath (binToHex sha))).isSome = true

theorem grown_refl (D : Disk) : Grown D D :=
  ⟨rfl, rfl, fun _ => rfl, fun p x x' h h' sha hs => by rw [h] at h'; cases h'; exact hs⟩

theorem grown_trans {D D' D'' : Disk} (h : Grown D D') (h' : Grown D' D'') : Grown D D'' := by
  refine ⟨h'.pack.trans h.pack, h'.alt.trans h.alt, fun p => (h'.same p).trans (h.same p), ?_⟩
  intro p x x'' hx hx'' sha hs
  obtain ⟨x', hx'⟩ := Option.isSome_iff_exists.mp ((h.same p).trans (by rw [hx]; rfl))
  exact h'.keep p x' x'' hx' hx'' sha (h.keep p x x' hx hx' sha hs)

theorem leaf_grow {order : List Bytes → List Bytes} {D D' : Disk} (h : Grown D D') (s : GitLeaf) (hs : LeafOk order D s) :
    LeafOk order D' s ∧ ∀ sha, LeafHas order D s sha → LeafHas order D' s sha := by
  cases s with
  | stop => exact hs.elim
  | pack r db =>
    have hp : D'.pack r = D.pack r := by rw [h.pack]
    constructor
    · show PackedReady order (D'.pack r) db
      rw [hp]; exact hs
    · intro sha
      show PackedHas (D.pack r) (db.load order (D.pack r)).1 sha → PackedHas (D'.pack r) (db.load order (D'.pack r)).1 sha
      rw [hp]; exact id
  | loose r db =>
    refine ⟨trivial, fun sha => ?_⟩
    show LooseHas (D.looseAt r) db sha → LooseHas (D'.looseAt r) db sha
    rintro (hk | hf)
    · exact .inl hk
    · right
      unfold Disk.looseAt at hf ⊢
      rcases hx : D.loose r with _ | x
      · rw [hx] at hf; simp at hf
      · rw [hx] at hf
        obtain ⟨x', hx'⟩ := Option.isSome_iff_exists.mp ((h.same r).trans (by rw [hx]; rfl))
        rw [hx']
        exact h.keep r x x' hx hx' sha hf

/-- A `GitDB` is used, while objects are added to loose databases (by itself or by others). -/
inductive GitRun {n : Nat} (O : DbOps Disk (Nest GitLeaf n) α) : Disk × Nest GitLeaf n → Disk × Nest GitLeaf n → Prop
  | refl (x : Disk × Nest GitLeaf n) : GitRun O x x
  | read {x : Disk × Nest GitLeaf n} {D : Disk} {t : Nest GitLeaf n} (h : GitRun O x (D, t)) (op : DbOp) :
      GitRun O x (D, dbStep O D t op)
  | grow {x : Disk × Nest GitLeaf n} {D D' : Disk} {t : Nest GitLeaf n} (h : GitRun O x (D, t)) (hg : Grown D D') : GitRun O x (D', t)

/-- Which database it is. -/
def leafSite : GitLeaf → Option (Bool × Text)
  | .stop => none
  | .pack r _ => some (true, r)
  | .loose r _ => some (false, r)

theorem leafSite_step {order : List Bytes → List Bytes} {getP : Option PackDir → PackedDB → Bytes → PackedDB × Res α}
    {getL : Fs → Bytes → Res α} {D : Disk} (s : GitLeaf) (op : DbOp) :
    leafSite (dbStep (leafOps order getP getL) D s op) = leafSite s := by
  cases s <;> cases op <;> rfl

/-- A database in a place that can be reached. -/
def LeafAt (D0 : Disk) (p : Text) (s : GitLeaf) : Prop := ∃ b q, leafSite s = some (b, q) ∧ AltReach D0 p q

/-- What a database should find. -/
def LeafReal (N : Text → Bytes → Prop) (D : Disk) (s : GitLeaf) (sha : Bytes) : Prop :=
  match s with
  | .stop => False
  | .pack r _ => (D.pack r).isSome = true ∧ N r sha
  | .loose r _ => ∃ x, D.loose r = some x ∧ (x.1 (objectPath (binToHex sha))).isSome = true

/-- Good states, in which exactly what is there is found. -/
def LeafGood (order : List Bytes → List Bytes) (N : Text → Bytes → Prop) (D0 : Disk) (p : Text) (D : Disk) (s : GitLeaf) : Prop :=
  LeafOk order D s ∧ LeafAt D0 p s ∧ ∀ sha, LeafHas order D s sha ↔ LeafReal N D s sha

theorem leafReal_site {N : Text → Bytes → Prop} {D : Disk} {s s' : GitLeaf} (h : leafSite s = leafSite s')
    (sha : Bytes) : LeafReal N D s sha ↔ LeafReal N D s' sha := by
  cases s <;> cases s' <;> simp_all [leafSite, LeafReal]

theorem leafAt_site {D0 : Disk} {p : Text} {s s' : GitLeaf} (h : leafSite s = leafSite s') : LeafAt D0 p s ↔ LeafAt D0 p s' := by
  unfold LeafAt; rw [h]

theorem leaf_good_locates (zl : Zlib) (fuel : Nat) (order : List Bytes → List Bytes) (getL : Fs → Bytes → Res OStream)
    (N : Text → Bytes → Prop) (D0 : Disk) (p : Text) :
    Locates (leafOps order (fun d db sha => db.stream fuel order d sha) getL) (LeafGood order N D0 p) (LeafHas order) where
  has := fun h => (leaf_locates zl fuel order getL).has h.1
  yes := fun h => (leaf_locates zl fuel order getL).yes h.1
  ok := fun h op => ⟨(leaf_locates zl fuel order getL).ok h.1 op, (leafAt_site (leafSite_step _ op)).mpr h.2.1, fun sha =>
    ((leaf_locates zl fuel order getL).same h.1 op sha).trans ((h.2.2 sha).trans (leafReal_site (leafSite_step _ op) sha).symm)⟩
  same := fun h => (leaf_locates zl fuel order getL).same h.1

theorem leaf_good_grow {order : List Bytes → List Bytes} {N : Text → Bytes → Prop} {D0 : Disk} {p : Text} {D D' : Disk}
    (h : Grown D D') (s : GitLeaf) (hs : LeafGood order N D0 p D s) :
    LeafGood order N D0 p D' s ∧ ∀ sha, LeafHas order D s sha → LeafHas order D' s sha := by
  refine ⟨⟨(leaf_grow h s hs.1).1, hs.2.1, ?_⟩, (leaf_grow h s hs.1).2⟩
  intro sha
  cases s with
  | stop => exact hs.1.elim
  | pack r db =>
    have hp : D'.pack r = D.pack r := by rw [h.pack]
    show PackedHas (D'.pack r) (db.load order (D'.pack r)).1 sha ↔ (D'.pack r).isSome = true ∧ N r sha
    rw [hp]
    exact hs.2.2 sha
  | loose r db =>
    show binToHex sha ∈ db.known ∨ ((D'.looseAt r).1 (objectPath (binToHex sha))).isSome = true ↔
      ∃ x, D'.loose r = some x ∧ (x.1 (objectPath (binToHex sha))).isSome = true
    have key : ((D'.looseAt r).1 (objectPath (binToHex sha))).isSome = true ↔
        ∃ x, D'.loose r = some x ∧ (x.1 (objectPath (binToHex sha))).isSome = true := by
      unfold Disk.looseAt
      rcases hx : D'.loose r with _ | x <;> simp
    rw [← key]
    refine ⟨?_, .inr⟩
    rintro (hk | hf)
    · obtain ⟨x, h2, h3⟩ := (hs.2.2 sha).mp (.inl hk)
      obtain ⟨x', hx'⟩ := Option.isSome_iff_exists.mp ((h.same r).trans (by rw [h2]; rfl))
      exact key.mpr ⟨x', hx', h.keep r x x' h2 hx' sha h3⟩
    · exact hf

theorem nestOk_leaves {Ok E : ω → σ → Prop} {C : ω → σ → Bytes → Prop} {w : ω} : ∀ (n : Nat) (t : Nest σ n), NestOk Ok C n w t →
    (∀ s ∈ leaves n t, Ok w s → E w s) → NestOk E C n w t
  | 0, s, h, he => he s (List.mem_singleton.mpr rfl) h
  | _ + 1, .inl s, h, he => he s (List.mem_singleton.mpr rfl) h
  | n + 1, .inr _, h, he => ⟨fun s hs => nestOk_leaves n s (h.1 s hs) fun x hx => he x (List.mem_flatMap.mpr ⟨s, hs, hx⟩), h.2⟩

theorem nestOk_mem {Ok : ω → σ → Prop} {C : ω → σ → Bytes → Prop} {w : ω} : ∀ (n : Nat) (t : Nest σ n), NestOk Ok C n w t →
    ∀ s ∈ leaves n t, Ok w s
  | 0, s, h, x, hx => by obtain rfl := List.mem_singleton.mp hx; exact h
  | _ + 1, .inl s, h, x, hx => by obtain rfl := List.mem_singleton.mp hx; exact h
  | n + 1, .inr c, h, x, hx => by
    obtain ⟨s, hs, hx⟩ := List.mem_flatMap.mp hx
    exact nestOk_mem n s (h.1 s hs) x hx

/-- The databases of a `GitDB`: those at the places that can be reached. -/
theorem gitTree_leaves {D : Disk} (hr : Readable D) : ∀ (n : Nat) (p : Text) (s : GitLeaf), s ∈ leaves (2 * n) (gitTree D n p) →
    s = .stop ∨ ∃ q, AltReach D p q ∧ (((D.pack q).isSome = true ∧ s = .pack q {}) ∨ s = .loose q {})
  | 0, p, s, h => .inl (List.mem_singleton.mp h)
  | n + 1, p, s, h => by
    have h : s ∈ (List.map _ (gitDbs D p).1).flatMap (leaves (2 * n + 1)) := h
    obtain ⟨y, hy, hs⟩ := List.mem_flatMap.mp h
    obtain ⟨b, hb, rfl⟩ := List.mem_map.mp hy
    cases b with
    | pack =>
      obtain rfl := List.mem_singleton.mp hs
      refine .inr ⟨p, .refl p, .inl ⟨?_, rfl⟩⟩
      by_cases hp : (D.pack p).isSome = true
      · exact hp
      · have e : (gitDbs D p).1 = (if (D.pack p).isSome then [Sub.pack] else []) ++
            (if (D.loose p).isSome then [.loose] else []) ++ (if (D.alt p).isSome then [.ref] else []) := by
          unfold gitDbs
          by_cases h0 : (if (D.pack p).isSome then [Sub.pack] else []) ++
            (if (D.loose p).isSome then [.loose] else []) ++ (if (D.alt p).isSome then [.ref] else []) = []
          · simp only [if_pos h0]
          · by_cases h1 : (D.loose p).isNone = true
            · simp only [if_neg h0, if_pos h1]
            · simp only [if_neg h0, if_neg h1]
        rw [e, if_neg hp] at hb
        by_cases h1 : (D.loose p).isSome = true <;> by_cases h2 : (D.alt p).isSome = true <;> simp [h1, h2] at hb
    | loose =>
      obtain rfl := List.mem_singleton.mp hs
      exact .inr ⟨p, .refl p, .inr rfl⟩
    | ref =>
      have hs : s ∈ (List.map (gitTree D n) (altRoots D p)).flatMap (leaves (2 * n)) := hs
      obtain ⟨y, hy, hs⟩ := List.mem_flatMap.mp hs
      obtain ⟨q, hq, rfl⟩ := List.mem_map.mp hy
      rcases gitTree_leaves hr n q s hs with h | ⟨x, h1, h2⟩
      · exact .inl h
      · exact .inr ⟨x, .step ((mem_altRoots hr p q).mp hq) h1, h2⟩

/-- All of them. -/
theorem gitTree_sites {D : Disk} (hr : Readable D) (rank : Text → Nat) (hrank : ∀ p q, Alt D p q → rank q < rank p) :
    ∀ (n : Nat) (p q : Text), rank p < n → (D.loose p).isSome = true → AltReach D p q →
      GitLeaf.loose q {} ∈ leaves (2 * n) (gitTree D n p) ∧
        ((D.pack q).isSome = true → GitLeaf.pack q {} ∈ leaves (2 * n) (gitTree D n p))
  | 0, _, _, h, _, _ => absurd h (by omega)
  | n + 1, p, q, h, hl, hreach => by
    show GitLeaf.loose q {} ∈ (List.map _ (gitDbs D p).1).flatMap (leaves (2 * n + 1)) ∧
      (_ → GitLeaf.pack q {} ∈ (List.map _ (gitDbs D p).1).flatMap (leaves (2 * n + 1)))
    rw [gitDbs_of_loose hl]
    cases hreach with
    | refl =>
      constructor
      · exact List.mem_flatMap.mpr ⟨_, List.mem_map.mpr ⟨.loose, by simp, rfl⟩, List.mem_singleton.mpr rfl⟩
      · intro hp
        exact List.mem_flatMap.mpr ⟨_, List.mem_map.mpr ⟨.pack, by rw [if_pos hp]; simp, rfl⟩, List.mem_singleton.mpr rfl⟩
    | step ha hreach =>
      rename_i q'
      have hq' := (mem_altRoots hr p q').mpr ha
      have hsome : (D.alt p).isSome = true := by
        obtain ⟨t, ps, e, -⟩ := ha
        rw [e]; rfl
      have hlq := ha.choose_spec.choose_spec.2.2.2
      have ih := gitTree_sites hr rank hrank n q' q (by have := hrank p q' ha; omega) hlq hreach
      have up : ∀ s, s ∈ leaves (2 * n) (gitTree D n q') →
          s ∈ (List.map (gitTree D n) (altRoots D p)).flatMap (leaves (2 * n)) := fun s hs =>
        List.mem_flatMap.mpr ⟨_, List.mem_map_of_mem hq', hs⟩
      constructor
      · exact List.mem_flatMap.mpr ⟨_, List.mem_map.mpr ⟨.ref, by rw [if_pos hsome]; simp, rfl⟩, up _ ih.1⟩
      · intro hp
        exact List.mem_flatMap.mpr ⟨_, List.mem_map.mpr ⟨.ref, by rw [if_pos hsome]; simp, rfl⟩, up _ (ih.2 hp)⟩

section run
variable {order : List Bytes → List Bytes} {N : Text → Bytes → Prop} {D0 : Disk} {p : Text}

theorem gitRun_spec (zl : Zlib) {fuel : Nat} {getL : Fs → Bytes → Res OStream} {n : Nat} {x y : Disk × Nest GitLeaf n}
    (h : GitRun (nestOps (leafOps order (fun d db sha => db.stream fuel order d sha) getL) n) x y) :
    NestOk (LeafGood order N D0 p) (LeafHas order) n x.1 x.2 →
    NestOk (LeafGood order N D0 p) (LeafHas order) n y.1 y.2 ∧
      (leaves n y.2).map leafSite = (leaves n x.2).map leafSite ∧ Grown x.1 y.1 := by
  have hO := nest_locates (leaf_good_locates zl fuel order getL N D0 p) n
  intro hx
  induction h with
  | refl => exact ⟨hx, rfl, grown_refl _⟩
  | read h op ih =>
    obtain ⟨h1, h3, h4⟩ := ih
    exact ⟨hO.ok h1 op, (leaves_map (fun s op => leafSite_step s op) n _ op).trans h3, h4⟩
  | grow h hg ih =>
    obtain ⟨h1, h3, h4⟩ := ih
    obtain ⟨g1, -⟩ := nestOk_grow (fun s hs => (leaf_good_grow hg s hs).1) (fun s sha hs => (leaf_good_grow hg s hs).2 sha) n _ h1
    exact ⟨g1, h3, grown_trans h4 hg⟩

theorem gitTree_good (hr : Readable D0) (hN : ∀ p, PackSite order (D0.pack p) (N p)) (rank : Text → Nat)
    (hrank : ∀ p q, Alt D0 p q → rank q < rank p) (n : Nat) (hn : rank p < n) (hp : (D0.loose p).isSome = true) :
    NestOk (LeafGood order N D0 p) (LeafHas order) (2 * n) D0 (gitTree D0 n p) := by
  refine nestOk_leaves _ _ (gitTree_spec hr hN rank hrank n p hn hp).1 ?_
  intro s hs hok
  refine ⟨hok, ?_⟩
  rcases gitTree_leaves hr n p s hs with rfl | ⟨q, h1, ⟨h2, rfl⟩ | rfl⟩
  · exact hok.elim
  · refine ⟨⟨true, q, rfl, h1⟩, fun sha => ?_⟩
    exact ((hN q h2).2 sha).trans ⟨fun h => ⟨h2, h⟩, fun h => h.2⟩
  · refine ⟨⟨false, q, rfl, h1⟩, fun sha => ?_⟩
    show binToHex sha ∈ [] ∨ ((D0.looseAt q).1 (objectPath (binToHex sha))).isSome = true ↔
      ∃ x, D0.loose q = some x ∧ (x.1 (objectPath (binToHex sha))).isSome = true
    unfold Disk.looseAt
    rcases hx : D0.loose q with _ | x <;> simp

/-- **C52** The answers of a `GitDB` are never out of date as far as loose objects are concerned.  Run it (no cycles of alternates,
usable packs), with any reads, while objects are added to loose databases: at any time it has exactly the objects that are, at that
time, in the databases that can be reached; and it gets an object from a pack that lists it, or from a loose database where its
file exists. -/
theorem C52_current (zl : Zlib) (fuel : Nat) (getL : Fs → Bytes → Res OStream) (hr : Readable D0)
    (hN : ∀ p, PackSite order (D0.pack p) (N p)) (rank : Text → Nat) (hrank : ∀ p q, Alt D0 p q → rank q < rank p) (n : Nat)
    (hn : rank p < n) (hp : (D0.loose p).isSome = true) (D : Disk) (t : Nest GitLeaf (2 * n))
    (hrun : GitRun (nestOps (leafOps order (fun d db sha => db.stream fuel order d sha) getL) (2 * n)) (D0, gitTree D0 n p) (D, t))
    (sha : Bytes) (hne : sha ≠ []) :
    (∃ b, ((nestOps (leafOps order (fun d db sha => db.stream fuel order d sha) getL) (2 * n)).has D t sha).2 = .ok b ∧
      (b = true ↔ ∃ q, AltReach D0 p q ∧ SiteHas D N q sha)) ∧
    ((∃ q, AltReach D0 p q ∧ SiteHas D N q sha) →
      (∃ q db, AltReach D0 p q ∧ (D.pack q).isSome = true ∧ N q sha ∧
        ((nestOps (leafOps order (fun d db sha => db.stream fuel order d sha) getL) (2 * n)).get D t sha).2 =
          (PackedDB.stream fuel order (D.pack q) db sha).2) ∨
      ∃ q x, AltReach D0 p q ∧ D.loose q = some x ∧ (x.1 (objectPath (binToHex sha))).isSome = true ∧
        ((nestOps (leafOps order (fun d db sha => db.stream fuel order d sha) getL) (2 * n)).get D t sha).2 = getL x.1 sha) := by
  have hL := leaf_good_locates zl fuel order getL N D0 p
  have hO := nest_locates hL (2 * n)
  obtain ⟨h1, h2, h3⟩ := gitRun_spec (N := N) (D0 := D0) (p := p) zl hrun (gitTree_good hr hN rank hrank n hn hp)
  have key : NestHas (LeafHas order) (2 * n) D t sha ↔ ∃ q, AltReach D0 p q ∧ SiteHas D N q sha := by
    rw [nestHas_leaves]
    constructor
    · rintro ⟨s, hs, hh⟩
      obtain ⟨-, ⟨b, q, e, hq⟩, hiff⟩ := nestOk_mem _ _ h1 s hs
      have hreal := (hiff sha).mp hh
      cases s with
      | stop => exact hreal.elim
      | pack r db => cases e; exact ⟨_, hq, .inl hreal⟩
      | loose r db => cases e; exact ⟨_, hq, .inr hreal⟩
    · rintro ⟨q, hq, hh⟩
      obtain ⟨k1, k2⟩ := gitTree_sites hr rank hrank n p q hn hp hq
      rcases hh with hh | hh
      · have hm := List.mem_map_of_mem (f := leafSite) (k2 (by rw [← h3.pack]; exact hh.1))
        rw [← h2] at hm
        obtain ⟨s, hs, e⟩ := List.mem_map.mp hm
        refine ⟨s, hs, ((nestOk_mem _ _ h1 s hs).2.2 sha).mpr ?_⟩
        exact (leafReal_site e sha).mpr hh
      · have hm := List.mem_map_of_mem (f := leafSite) k1
        rw [← h2] at hm
        obtain ⟨s, hs, e⟩ := List.mem_map.mp hm
        refine ⟨s, hs, ((nestOk_mem _ _ h1 s hs).2.2 sha).mpr ?_⟩
        exact (leafReal_site e sha).mpr hh
  refine ⟨?_, fun h => ?_⟩
  · obtain ⟨b, e1, e2⟩ := hO.has h1 sha hne
    exact ⟨b, e1, e2.trans key⟩
  · obtain ⟨s, ⟨g1, ⟨b, q, e, hq⟩, g3⟩, g4, g5⟩ := nest_get hL hne (2 * n) t h1 (key.mpr h)
    have hreal := (g3 sha).mp g4
    cases s with
    | stop => exact hreal.elim
    | pack r db => cases e; exact .inl ⟨_, db, hq, hreal.1, hreal.2, g5⟩
    | loose r db =>
      cases e
      obtain ⟨x, hx, hf⟩ := hreal
      refine .inr ⟨_, x, hq, hx, hf, g5.trans ?_⟩
      show getL (D.looseAt _).1 sha = _
      unfold Disk.looseAt
      rw [hx]; rfl

end run

/-- The disk after `GitDB.store`, `gitdb/db/git.py` 76-77, which is `store` of the loose database of the same root path `p`
(`gitdb/db/git.py` 44-72 sets `_loose_db` to the one in `_dbs`). -/
def withLoose (D : Disk) (p : Text) (fs : Fs) (walk : List (Bytes × List Bytes)) : Disk :=
  { D with loose := fun q => if q = p then some (fs, walk) else D.loose q }

/-- A store adds to the loose database. -/
theorem store_grown {H : Hash} {zl : Zlib} {τ : Type} {fuel : Nat} {env : StoreEnv} {read : τ → Int → τ × Res Bytes} {i : IStream τ}
    {fs fs' : Fs} {walk walk' : List (Bytes × List Bytes)} {D : Disk} {p : Text} (hD : D.loose p = some (fs, walk))
    (hst : fs.run (looseStore H zl fuel env read i).1 = some fs') (hcol : ∀ d f : Bytes, fs [d, f] ≠ some .dir) :
    Grown D (withLoose D p fs' walk') := by
  refine ⟨rfl, rfl, ?_, ?_⟩
  · intro q
    simp only [withLoose]
    by_cases h : q = p
    · rw [if_pos h, h, hD]; rfl
    · rw [if_neg h]
  · intro q x x' hx hx' sha hs
    simp only [withLoose] at hx'
    by_cases h : q = p
    · rw [if_pos h] at hx'
      subst h
      rw [hD] at hx
      cases hx; cases hx'
      obtain ⟨name, -, -, h3, -⟩ := C37_additive H zl fuel env read i fs fs' hst
      have : IsFile fs (objectPath (binToHex sha)) := by
        obtain ⟨y, hy⟩ := Option.isSome_iff_exists.mp hs
        rcases y with _ | ⟨c, m⟩
        · exact absurd hy (hcol _ _)
        · exact ⟨c, m, hy⟩
      obtain ⟨c, m, e⟩ := h3 _ _ this
      simp only [objectPath] at e ⊢
      rw [e]; rfl
    · rw [if_neg h, hx] at hx'
      cases hx'
      exact hs

/-- **C52** `store` of a `GitDB` puts the object into its loose database; from then on, whatever is read, and whatever is added by
others, the `GitDB` has the object under the name returned.  For any source stream, and any operating system, if the store returns. -/
theorem C52_store {order : List Bytes → List Bytes} {N : Text → Bytes → Prop} {D0 : Disk} {p : Text}
    (zl : Zlib) (fuel : Nat) (getL : Fs → Bytes → Res OStream)
    (hr : Readable D0) (hN : ∀ p, PackSite order (D0.pack p) (N p)) (rank : Text → Nat)
    (hrank : ∀ p q, Alt D0 p q → rank q < rank p) (n : Nat) (hn : rank p < n) (hp : (D0.loose p).isSome = true)
    (D : Disk) (t : Nest GitLeaf (2 * n))
    (hrun : GitRun (nestOps (leafOps order (fun d db sha => db.stream fuel order d sha) getL) (2 * n)) (D0, gitTree D0 n p) (D, t))
    (H : Hash) {τ : Type} (fuel' : Nat) (env : StoreEnv) (read : τ → Int → τ × Res Bytes) (i : IStream τ) (fs fs' : Fs)
    (walk walk' : List (Bytes × List Bytes)) (hD : D.loose p = some (fs, walk)) (hcol : ∀ d f : Bytes, fs [d, f] ≠ some .dir)
    (hst : fs.run (looseStore H zl fuel' env read i).1 = some fs') (hok : (looseStore H zl fuel' env read i).2.2 = .ok ())
    (D' : Disk) (t' : Nest GitLeaf (2 * n))
    (hrun' : GitRun (nestOps (leafOps order (fun d db sha => db.stream fuel order d sha) getL) (2 * n))
      (withLoose D p fs' walk', t) (D', t')) :
    ∃ name, (looseStore H zl fuel' env read i).2.1.binsha = some name ∧
      (name ≠ [] →
        ((nestOps (leafOps order (fun d db sha => db.stream fuel order d sha) getL) (2 * n)).has D' t' name).2 = .ok true) := by
  have hg := store_grown (walk' := walk') hD hst hcol
  have trans : ∀ {x y z : Disk × Nest GitLeaf (2 * n)} {O : DbOps Disk (Nest GitLeaf (2 * n)) OStream}, GitRun O x y →
      GitRun O y z → GitRun O x z := by
    intro x y z O h1 h2
    induction h2 with
    | refl => exact h1
    | read _ op ih => exact .read ih op
    | grow _ hg ih => exact .grow ih hg
  have hall := trans (GitRun.grow hrun hg) hrun'
  rcases store_effect hst with ⟨⟨e, he⟩, _⟩ | ⟨hex, c, m, k1, k2, k3, k4, k5, k6⟩
  · rw [hok] at he; simp at he
  obtain ⟨b, rfl⟩ := looseWrite_name k1
  rcases k6 with ⟨_, _, b', k7, k8⟩ | ⟨e, he, _⟩
  rotate_left
  · rw [hok] at he; simp at he
  rw [hexToBin_binToHex] at k7
  simp only [Except.ok.injEq] at k7
  subst k7
  refine ⟨b, k8, fun hne => ?_⟩
  obtain ⟨⟨a, h1, h2⟩, -⟩ := C52_current zl fuel getL hr hN rank hrank n hn hp D' t' hall b hne
  obtain ⟨-, -, h3⟩ := gitRun_spec (N := N) (D0 := D0) (p := p) zl hrun'
    (gitRun_spec (N := N) (D0 := D0) (p := p) zl (GitRun.grow hrun hg) (gitTree_good hr hN rank hrank n hn hp)).1
  rw [h1, h2.mpr ?_]
  have hl : (withLoose D p fs' walk').loose p = some (fs', walk') := by simp [withLoose]
  obtain ⟨x, hx⟩ := Option.isSome_iff_exists.mp ((h3.same p).trans (by simp only [hl]; rfl))
  refine ⟨p, .refl p, .inr ⟨x, hx, h3.keep p (fs', walk') x hl hx b ?_⟩⟩
  simp only
  rw [k3, storedFs, Fs.set_same]
  rfl

/-! ### A case: `/a`, whose alternate is `/b`; an object is stored through `/a` -/

theorem twoRoots_rank (p q : Text) (h : Alt (twoRoots false) p q) :
    (fun p => if p = rootA then 1 else 0) q < (fun p => if p = rootA then 1 else 0) p := by
  obtain ⟨t, ps, h, h2, h3, -⟩ := h
  simp only [twoRoots] at h
  split at h
  · rename_i hp
    have := (refPaths_iff t ps).mpr h2
    obtain rfl := Except.ok.inj (Option.some.inj h)
    rw [(refPaths_iff _ _).mpr (alternates_one rootB rootB_plain)] at this
    obtain rfl := Except.ok.inj this
    rw [List.mem_singleton] at h3
    subst h3
    rw [hp]
    decide
  · simp at h

def smallHash : Hash := oneHash (object blob (natToDec 2) [1, 2])

/-- An object is not there at first, and `has_object` says so.  After the store it is there. -/
example (getL : Fs → Bytes → Res OStream) (name : Bytes) (hname : name = List.replicate 20 1) :
    ((nestOps (leafOps id (fun d db sha => db.stream 5 id d sha) getL) (2 * 2)).has (twoRoots false)
      (gitTree (twoRoots false) 2 rootA) name).2 = .ok false ∧
    ∃ fs', emptyFs.run (looseStore smallHash lightZlib 9 { tmp := some [1], isfile := false } bytesIORead smallStream).1 = some fs' ∧
      (looseStore smallHash lightZlib 9 { tmp := some [1], isfile := false } bytesIORead smallStream).2.1.binsha = some name ∧
      ((nestOps (leafOps id (fun d db sha => db.stream 5 id d sha) getL) (2 * 2)).has (withLoose (twoRoots false) rootA fs' [])
        (dbStep (nestOps (leafOps id (fun d db sha => db.stream 5 id d sha) getL) (2 * 2)) (twoRoots false)
          (gitTree (twoRoots false) 2 rootA) (.has name)) name).2 = .ok true := by
  have hne : name ≠ [] := by rw [hname]; simp
  constructor
  · obtain ⟨⟨b, h1, h2⟩, -⟩ := C52_current (N := fun _ _ => False) lightZlib 5 getL (twoRoots_readable false)
      (fun p hp => by simp [twoRoots] at hp) _ twoRoots_rank 2 (p := rootA) (by decide) rfl _ _ (.refl _) name hne
    rw [h1]
    cases b with
    | false => rfl
    | true =>
      obtain ⟨q, -, ⟨-, h⟩ | ⟨x, hx, h⟩⟩ := h2.mp rfl
      · exact h.elim
      · simp only [twoRoots] at hx
        split at hx
        · obtain rfl := Option.some.inj hx; simp at h
        · split at hx
          · obtain rfl := Option.some.inj hx
            have : ¬ objectPath (binToHex name) = objectPath (binToHex [7]) := by rw [hname]; decide
            simp [this] at h
          · simp at hx
  · obtain ⟨hok, fs', hst⟩ := C34_store_succeeds smallHash lightZlib lightZlib_laws 9 bytesIORead _ (Or.inl bytesIO_reads)
      smallStream [1, 2] rfl rfl rfl (by decide) (by decide) emptyFs [1] rfl false
      (fun d f => ⟨.inl rfl, fun _ => rfl, .inl rfl⟩) (by
        intro x p _ _
        constructor
        · simp
        · rintro ⟨c, m, h⟩; simp [emptyFs] at h)
    obtain ⟨nm, e, h⟩ := C52_store (N := fun _ _ => False) lightZlib 5 getL (twoRoots_readable false)
      (fun p hp => by simp [twoRoots] at hp) _ twoRoots_rank 2 (p := rootA) (by decide) rfl _ _ (.read (.refl _) (.has name))
      smallHash 9 _ bytesIORead smallStream emptyFs fs' [] [] rfl (by simp [emptyFs]) hst hok _ _ (.refl _)
    obtain ⟨x, p, c, h1, h2, -⟩ := C34_store smallHash lightZlib lightZlib_laws 9 _ bytesIORead _ (Or.inl bytesIO_reads)
      smallStream [1, 2] rfl rfl rfl emptyFs fs' (empty_complete _ _) (oneHash_noCollision blob [1, 2]) hok hst
    have hn : nm = name := by
      rw [h2] at e
      rw [← Option.some.inj e, hname]
      rw [isObject_unique h1 ⟨_, natToDec_isDecimal 2, rfl⟩]
      rfl
    rw [hn] at e h
    exact ⟨fs', hst, e, h hne⟩

end GitDB.Props
