import Verif.Props.LiveComplete
/-!
# C87: `sha_iter` and `size` of a `GitDB` with alternates
-/
set_option autoImplicit false

namespace GitDB.Props
open GitDB Spec

variable {ω σ τ α β γ : Type}

/-! ## Specification -/

/-- The names in the packs of a repository, each as often as the indices list it. -/
def PackNames (D : Disk) (q : Text) (out : List Bytes) : Prop :=
  (D.pack q = none ∧ out = []) ∨ ∃ (d : PackDir) (ps : List Bytes) (names : Bytes → List Bytes), D.pack q = some d ∧ ps.Nodup ∧
    (∀ p, p ∈ ps ↔ p ∈ d.files.map Prod.fst ∧ IsPackName p) ∧ (∀ p ∈ ps, ∃ i, d.get (idxName p) = some i ∧ IsIndex i (names p)) ∧
    out = ps.flatMap names

/-- The loose objects of a repository, each once. -/
def LooseNames (D : Disk) (q : Text) (out : List Bytes) : Prop := out.Nodup ∧ ∀ x, x ∈ out ↔ x.length = 20 ∧ LooseThere D q x

/-- The objects in a repository, followed by those of its alternates, in any order.  An alternate that can be reached in two ways counts
twice. -/
inductive Census (D : Disk) : Text → List Bytes → Prop
  | at {p : Text} {out a b : List Bytes} {qs : List Text} {below : Text → List Bytes} (hp : PackNames D p a) (hl : LooseNames D p b)
      (once : qs.Nodup) (alts : ∀ q, q ∈ qs ↔ Alt D p q) (rest : ∀ q ∈ qs, Census D q (below q))
      (perm : out.Perm (a ++ b ++ qs.flatMap below)) : Census D p out

/-! ## Lists -/

/-- Both operations work, with this result. -/
def Yields (O : DbOps ω σ α) (w : ω) (s : σ) (out : List Bytes) : Prop :=
  (O.shas w s).2 = .ok out ∧ (O.size w s).2 = .ok out.length

/-- The list, if there is one. -/
def okList : Res (List Bytes) → List Bytes
  | .ok l => l
  | .error _ => []

theorem yields_ok {O : DbOps ω σ α} {w : ω} {s : σ} {out : List Bytes} (h : Yields O w s out) : okList (O.shas w s).2 = out := by
  rw [h.1]; rfl

theorem compound_yields {O : DbOps ω σ α} {w : ω} {c : Compound σ} {g : σ → List Bytes} (h : ∀ s ∈ c.dbs, Yields O w s (g s)) :
    Yields (compoundOps O) w c (c.dbs.flatMap g) := by
  have h1 := eachDb_map (γ := Unit) (f := O.shas w) (g := g) c.dbs fun s hs => (h s hs).1
  have h2 := eachDb_map (γ := Unit) (f := O.size w) (g := fun s => (g s).length) c.dbs fun s hs => (h s hs).2
  constructor
  · show (c.shas O w).2 = _
    simp only [Compound.shas, h1, List.flatMap_def]
    rfl
  · show (c.size O w).2 = _
    simp only [Compound.size, h2]
    show Except.ok (List.foldl (· + ·) 0 _) = Except.ok _
    rw [foldl_add, List.length_flatMap, Nat.zero_add]

theorem mapM_ok : ∀ l : List Bytes, (l.map (Except.ok (ε := Err))).mapM id = .ok l
  | [] => rfl
  | a :: l => by
    rw [List.map_cons, List.mapM_cons, mapM_ok l]
    rfl

theorem find_once {f : σ → Text} : ∀ {l : List σ}, (l.map f).Nodup → ∀ y ∈ l, l.find? (fun z => decide (f z = f y)) = some y
  | [], _, _, h => by cases h
  | a :: l, hn, y, hy => by
    rw [List.map_cons, List.nodup_cons] at hn
    rcases List.mem_cons.mp hy with rfl | hy
    · simp
    · have : f a ≠ f y := fun e => hn.1 (e ▸ List.mem_map_of_mem hy)
      rw [List.find?_cons_of_neg (by simpa using this)]
      exact find_once hn.2 y hy

/-! ## The ends -/

theorem end_yields (fuel : Nat) {order : List Bytes → List Bytes} (getL : Fs → Bytes → Res OStream) (S : Text → Prop)
    {D : Disk} (hlf : LooseFine D) {s : GitLeaf} (h : LeafSeen order S D s) {b : Sub} {q : Text} (hb : partSite (σ := Unit) (.inl s) = some (b, q))
    (hlo : b = .loose → (D.loose q).isSome = true) :
    ∃ out, Yields (leafOps order (fun d db sha => db.stream fuel order d sha) getL) D s out ∧
      ((b = .pack ∧ PackNames D q out) ∨ (b = .loose ∧ LooseNames D q out)) := by
  cases s with
  | stop => exact h.2.elim
  | loose r db =>
    cases hb
    obtain ⟨w, hw⟩ := Option.isSome_iff_exists.mp (hlo rfl)
    obtain ⟨base, walk, e1, e2, e3⟩ := hlf.walk q w hw
    obtain ⟨ns, h1, h2, h3, h4⟩ := C51_sha_iter base w.1 walk e2 e3
    have e : (D.looseAt q).2 = seen base walk := by
      unfold Disk.looseAt
      rw [hw, ← e1]
      rfl
    refine ⟨ns, ⟨?_, ?_⟩, .inr ⟨rfl, h2, fun x => ?_⟩⟩
    · show (shaIter (D.looseAt q).2).mapM id = .ok ns
      rw [e, h1, mapM_ok]
    · show shaCount (shaIter (D.looseAt q).2) = .ok ns.length
      rw [e, h4]
    · rw [h3]
      refine and_congr_right fun k1 => ⟨fun k2 => ⟨w, hw, ?_⟩, fun ⟨w', hw', k2⟩ => ?_⟩
      · obtain ⟨p, ⟨hx, c1, rfl⟩, ⟨data, m, c3⟩, -⟩ := k2
        obtain rfl := isHexOf_unique c1 (binToHex_isHexOf x)
        show (w.1 [(binToHex x).take 2, (binToHex x).drop 2]).isSome = true
        rw [c3]
        rfl
      · rw [hw] at hw'
        cases hw'
        exact hlf.files q w x hw k1 k2
  | pack r db =>
    cases hb
    obtain ⟨hg, hS, -, d, hd, hnow⟩ := h
    obtain ⟨l, hl, hp⟩ := hnow.2
    have hidx : ∀ it ∈ l, ∃ i ns, d.get (idxName it.path) = some i ∧ IsIndex i ns ∧ it.content d = some i := by
      intro it hit
      have hpk := (mem_packs d it.path).mp ((hp _).mp (List.mem_map_of_mem hit))
      obtain ⟨-, i, ns, g1, g2⟩ := (hg q d hd).2 it.path hpk.1 hpk.2
      refine ⟨i, ns, g1, g2, ?_⟩
      obtain ⟨f1, -⟩ := hnow.1.2 l hl it hit
      unfold PackItem.content
      rcases hi : it.idx with _ | c
      · exact g1
      · have : d.get (idxName it.path) = some c := f1 c hi
        rw [g1] at this
        exact this.symm
    have hx : ∀ it ∈ l, ∃ i, d.get (idxName it.path) = some i ∧ it.content d = some i ∧
        IsIndex i (Classical.epsilon fun ns => ∃ i, d.get (idxName it.path) = some i ∧ IsIndex i ns) := by
      intro it hit
      obtain ⟨i, ns, g1, g2, g3⟩ := hidx it hit
      obtain ⟨i', k1, k2⟩ := Classical.epsilon_spec (p := fun ns => ∃ i, d.get (idxName it.path) = some i ∧ IsIndex i ns) ⟨ns, i, g1, g2⟩
      rw [g1] at k1
      cases k1
      exact ⟨i, g1, g3, k2⟩
    generalize hnames : (fun p => Classical.epsilon fun ns => ∃ i, d.get (idxName p) = some i ∧ IsIndex i ns) = names
    have hx : ∀ it ∈ l, ∃ i, d.get (idxName it.path) = some i ∧ it.content d = some i ∧ IsIndex i (names it.path) := by
      rw [← hnames]; exact hx
    obtain ⟨l', xs, e, s1, s2⟩ := loadIndices_lists (dir := d) (fun it => names it.path) (l := l) fun it hit => by
      obtain ⟨i, -, k2, k3⟩ := hx it hit
      exact ⟨i, k2, k3⟩
    have hload : db.load order (D.pack q) = (db, .ok l) := by unfold PackedDB.load; rw [hl]
    have hdir : dirFiles (D.pack q) = d := by rw [hd]; rfl
    refine ⟨(l.map PackItem.path).flatMap names, ⟨?_, ?_⟩, .inl ⟨rfl, .inr ⟨d, l.map PackItem.path, names, hd, hnow.1.1 l hl,
      fun p => (hp p).trans (mem_packs d p), fun p hp => ?_, rfl⟩⟩⟩
    · show (db.shaIter order (D.pack q)).2 = _
      simp only [PackedDB.shaIter, hload, hdir, e, s2, List.flatMap_map]
    · show (db.size order (D.pack q)).2 = _
      simp only [PackedDB.size, hload, hdir, e, s1, List.flatMap_map]
    · obtain ⟨it, hit, rfl⟩ := List.mem_map.mp hp
      obtain ⟨i, k1, -, k3⟩ := hx it hit
      exact ⟨i, k1, k3⟩

/-! ## Repositories -/

theorem map_opt {f : σ → Option (Sub × Text)} {p : Text} {b : Sub} {c : Bool} {l : List σ}
    (h : l.map f = (if c then [b] else []).map fun b => some (b, p)) : (c = false ∧ l = []) ∨ c = true ∧ ∃ x, l = [x] ∧ f x = some (b, p) := by
  cases c with
  | false => exact .inl ⟨rfl, by simpa using h⟩
  | true =>
    refine .inr ⟨rfl, ?_⟩
    match l, h with
    | [x], h => exact ⟨x, rfl, by simpa using h⟩
    | x :: y :: l, h => simp at h

theorem full_yields (fuel : Nat) {order : List Bytes → List Bytes} (orderT : List Text → List Text) (getL : Fs → Bytes → Res OStream)
    (S : Text → Prop) {D : Disk} (hlf : LooseFine D) : ∀ (n : Nat) (t : GitNode n), LiveOk (LeafSeen order S) order n D t → LiveFull D n t →
      ∃ out, Yields (liveOps orderT (leafOps order (fun d db sha => db.stream fuel order d sha) getL) n) D t out ∧ Census D (rootOf n t) out
  | 0, _, h, _ => h.elim
  | n + 1, t, ⟨l, h1, h2⟩, ⟨l', f1, f2, f3⟩ => by
    have ih := full_yields fuel (order := order) orderT getL S hlf n
    rw [h1] at f1
    cases f1
    generalize hL : leafOps order (fun d db sha => db.stream fuel order d sha) getL = L
    rw [hL] at ih
    have h2 := h2.1
    show ∃ out, _ ∧ Census D (GitState.root t) out
    generalize hp : GitState.root t = p at f2 f3 ⊢
    rw [gitDbs_list, List.map_append, List.map_append] at f2
    obtain ⟨l12, l3, rfl, e12, e3⟩ := List.map_eq_append_iff.mp f2
    obtain ⟨l1, l2, rfl, e1, e2⟩ := List.map_eq_append_iff.mp e12
    have hleaf : ∀ (s : GitLeaf) (b : Sub) (q : Text), LeafSeen order S D s → partSite (σ := GitNode n) (.inl s) = some (b, q) →
        (b = .loose → (D.loose q).isSome = true) → ∃ out, Yields L D s out ∧ ((b = .pack ∧ PackNames D q out) ∨ (b = .loose ∧ LooseNames D q out)) := by
      intro s b q hs hb hlo
      rw [← hL]
      refine end_yields fuel getL S hlf hs ?_ hlo
      cases s <;> exact hb
    have sum_l : ∀ {s : GitLeaf} {out}, Yields L D s out → Yields (sumOps L (refOps orderT (newNode n) (liveOps orderT L n))) D (.inl s) out :=
      fun h => h
    -- the packs
    have p1 : ∃ g1 : GitLeaf ⊕ RefNode (GitNode n) → List Bytes, (∀ x ∈ l1, Yields (sumOps L (refOps orderT (newNode n) (liveOps orderT L n))) D x (g1 x)) ∧
        PackNames D p (l1.flatMap g1) := by
      rcases map_opt e1 with ⟨hc, rfl⟩ | ⟨hc, x, rfl, hx⟩
      · exact ⟨fun _ => [], fun x hx => by (cases hx), .inl ⟨by simpa using hc, rfl⟩⟩
      · cases x with
        | inr r => cases hx
        | inl s =>
          obtain ⟨out, k1, k2⟩ := hleaf s .pack p (h2 (.inl s) (by simp)) hx (fun e => by (cases e))
          rcases k2 with ⟨-, k2⟩ | ⟨e, -⟩
          · refine ⟨fun _ => out, fun x hx => ?_, by simpa using k2⟩
            obtain rfl := List.mem_singleton.mp hx
            exact k1
          · cases e
    have p2 : ∃ g2 : GitLeaf ⊕ RefNode (GitNode n) → List Bytes, (∀ x ∈ l2, Yields (sumOps L (refOps orderT (newNode n) (liveOps orderT L n))) D x (g2 x)) ∧
        LooseNames D p (l2.flatMap g2) := by
      rcases map_opt e2 with ⟨hc, rfl⟩ | ⟨hc, x, rfl, hx⟩
      · refine ⟨fun _ => [], fun x hx => by (cases hx), List.nodup_nil, fun x => ⟨fun h => by (cases h), ?_⟩⟩
        rintro ⟨-, w, hw, -⟩
        rw [hw] at hc
        cases hc
      · cases x with
        | inr r => cases hx
        | inl s =>
          obtain ⟨out, k1, k2⟩ := hleaf s .loose p (h2 (.inl s) (by simp)) hx (fun _ => hc)
          rcases k2 with ⟨e, -⟩ | ⟨-, k2⟩
          · cases e
          · refine ⟨fun _ => out, fun x hx => ?_, by simpa using k2⟩
            obtain rfl := List.mem_singleton.mp hx
            exact k1
    have p3 : ∃ (g3 : GitLeaf ⊕ RefNode (GitNode n) → List Bytes) (qs : List Text) (below : Text → List Bytes),
        (∀ x ∈ l3, Yields (sumOps L (refOps orderT (newNode n) (liveOps orderT L n))) D x (g3 x)) ∧
        qs.Nodup ∧ (∀ q, q ∈ qs ↔ Alt D p q) ∧ (∀ q ∈ qs, Census D q (below q)) ∧ l3.flatMap g3 = qs.flatMap below := by
      rcases map_opt e3 with ⟨hc, rfl⟩ | ⟨hc, x, rfl, hx⟩
      · refine ⟨fun _ => [], [], fun _ => [], fun x hx => by (cases hx), List.nodup_nil, fun q => ⟨fun h => by (cases h), ?_⟩, fun q h => by (cases h), rfl⟩
        rintro ⟨txt, ps, c1, -⟩
        rw [c1] at hc
        cases hc
      · cases x with
        | inl s => cases s <;> cases hx
        | inr r =>
          obtain ⟨m, k1, ⟨k2, k3⟩, k4⟩ := f3 (.inr r) (by simp)
          obtain ⟨m', j1, j2⟩ := h2 (.inr r) (by simp)
          rw [k1] at j1
          cases j1
          have each : ∀ y ∈ m, Yields (pairOps (liveOps orderT L n)) D y (okList ((liveOps orderT L n).shas D y.2).2) ∧
              Census D (rootOf n y.2) (okList ((liveOps orderT L n).shas D y.2).2) := by
            intro y hy
            obtain ⟨out, c1, c2⟩ := ih y.2 (j2.1 y hy) (k4 y hy)
            rw [yields_ok c1]
            exact ⟨c1, c2⟩
          obtain ⟨g, each⟩ : ∃ g : Text × GitNode n → List Bytes, ∀ y ∈ m, Yields (pairOps (liveOps orderT L n)) D y (g y) ∧
              Census D (rootOf n y.2) (g y) := ⟨_, each⟩
          refine ⟨fun _ => m.flatMap g, m.map (fun y => rootOf n y.2), fun q => ((m.find? fun z => decide (rootOf n z.2 = q)).map g).getD [], fun x hx => ?_, k2, fun q => ?_, fun q hq => ?_, ?_⟩
          · obtain rfl := List.mem_singleton.mp hx
            obtain ⟨c1, c2⟩ := compound_yields (c := ⟨m, r.db.cache⟩) fun y hy => (each y hy).1
            constructor
            · show (RefNode.use orderT (newNode n) D (fun c => c.shas (pairOps (liveOps orderT L n)) D) r).2 = _
              rw [refUse_loaded k1]
              exact c1
            · show (RefNode.use orderT (newNode n) D (fun c => c.size (pairOps (liveOps orderT L n)) D) r).2 = _
              rw [refUse_loaded k1]
              exact c2
          · rw [← k3 q, List.mem_map]
          · obtain ⟨y, hy, rfl⟩ := List.mem_map.mp hq
            simp only [find_once (f := fun y : Text × GitNode n => rootOf n y.2) k2 y hy]
            exact (each y hy).2
          · rw [List.flatMap_map, List.flatMap_singleton, List.flatMap_def, List.flatMap_def]
            congr 1
            refine List.map_congr_left fun y hy => ?_
            rw [find_once (f := fun y : Text × GitNode n => rootOf n y.2) k2 y hy]
            rfl
    obtain ⟨g1, a1, a2⟩ := p1
    obtain ⟨g2, b1, b2⟩ := p2
    obtain ⟨g3, qs, below, c1, c2, c3, c4, c5⟩ := p3
    generalize hP : sumOps L (refOps orderT (newNode n) (liveOps orderT L n)) = P at a1 b1 c1
    have ok : ∀ x ∈ l1 ++ l2 ++ l3, Yields P D x (okList (P.shas D x).2) := by
      intro x hx
      rcases List.mem_append.mp hx with hx | hx
      · rcases List.mem_append.mp hx with hx | hx
        · rw [yields_ok (a1 x hx)]; exact a1 x hx
        · rw [yields_ok (b1 x hx)]; exact b1 x hx
      · rw [yields_ok (c1 x hx)]; exact c1 x hx
    have heq : ∀ (k : List (GitLeaf ⊕ RefNode (GitNode n))) (g : _ → List Bytes), (∀ x ∈ k, Yields P D x (g x)) →
        (k.flatMap fun x => okList (P.shas D x).2) = k.flatMap g := by
      intro k g hk
      rw [List.flatMap_def, List.flatMap_def]
      congr 1
      exact List.map_congr_left fun x hx => yields_ok (hk x hx)
    refine ⟨(l1 ++ l2 ++ l3).flatMap fun x => okList (P.shas D x).2, ?_, ?_⟩
    · obtain ⟨d1, d2⟩ := compound_yields (c := ⟨l1 ++ l2 ++ l3, GitState.cache t⟩) ok
      have h1 : GitState.dbs t = some (l1 ++ l2 ++ l3) := h1
      constructor
      · show (GitState.use D (fun c => c.shas (sumOps L (refOps orderT (newNode n) (liveOps orderT L n))) D) t).2 = _
        rw [hP, stateUse_loaded h1]
        exact d1
      · show (GitState.use D (fun c => c.size (sumOps L (refOps orderT (newNode n) (liveOps orderT L n))) D) t).2 = _
        rw [hP, stateUse_loaded h1]
        exact d2
    · refine .at a2 b2 c2 c3 c4 ?_
      rw [List.flatMap_append, List.flatMap_append, heq l1 g1 a1, heq l2 g2 b1, heq l3 g3 c1, c5]

/-- What is listed is what is there. -/
theorem census_mem {D : Disk} {p : Text} {out : List Bytes} (h : Census D p out) (x : Bytes) :
    x ∈ out ↔ x.length = 20 ∧ ∃ q, AltReach D p q ∧ SiteNow D q x := by
  induction h with
  | @«at» p out a b qs below hp hl once alts rest perm ih =>
    have hpm : x ∈ a ↔ ∃ d, D.pack p = some d ∧ InPacks d x := by
      rcases hp with ⟨hn, rfl⟩ | ⟨d, ps, names, hd, -, h2, h3, rfl⟩
      · constructor
        · intro h; cases h
        · rintro ⟨d, hd, -⟩; rw [hn] at hd; cases hd
      · rw [List.mem_flatMap]
        constructor
        · rintro ⟨pk, hpk, hx⟩
          obtain ⟨i, k1, k2⟩ := h3 pk hpk
          exact ⟨d, hd, pk, ((h2 pk).mp hpk).1, ((h2 pk).mp hpk).2, i, _, k1, k2, hx⟩
        · rintro ⟨d', hd', pk, c1, c2, i, ns, c3, c4, c5⟩
          rw [hd] at hd'
          cases hd'
          have hpk := (h2 pk).mpr ⟨c1, c2⟩
          obtain ⟨i', k1, k2⟩ := h3 pk hpk
          rw [c3] at k1
          cases k1
          exact ⟨pk, hpk, isIndex_unique c4 k2 ▸ c5⟩
    rw [perm.mem_iff, List.mem_append, List.mem_append, hpm, hl.2, List.mem_flatMap]
    have hlen : ∀ {q}, (∃ d, D.pack q = some d ∧ InPacks d x) → x.length = 20 := by
      rintro q ⟨d, -, pk, -, -, i, ns, -, c4, c5⟩
      exact isIndex_len c4 x c5
    constructor
    · rintro ((h | ⟨h1, h⟩) | ⟨q, hq, h⟩)
      · exact ⟨hlen h, p, .refl p, .inl h⟩
      · exact ⟨h1, p, .refl p, .inr h⟩
      · obtain ⟨k1, q', k2, k3⟩ := (ih q hq).mp h
        exact ⟨k1, q', .step ((alts q).mp hq) k2, k3⟩
    · rintro ⟨h1, q, hq, h⟩
      cases hq with
      | refl => exact .inl (h.imp id fun h => ⟨h1, h⟩)
      | step hq hq' =>
        have hm := (alts _).mpr hq
        exact .inr ⟨_, hm, (ih _ hm).mpr ⟨h1, _, hq', h⟩⟩

theorem flatMap_perm {f g : σ → List Bytes} : ∀ {l : List σ}, (∀ x ∈ l, (f x).Perm (g x)) → (l.flatMap f).Perm (l.flatMap g)
  | [], _ => .refl _
  | a :: l, h => by
    rw [List.flatMap_cons, List.flatMap_cons]
    exact (h a (by simp)).append (flatMap_perm fun x hx => h x (by simp [hx]))

theorem packNames_perm {D : Disk} {q : Text} {a a' : List Bytes} (h : PackNames D q a) (h' : PackNames D q a') : a.Perm a' := by
  rcases h with ⟨hn, rfl⟩ | ⟨d, ps, names, hd, h1, h2, h3, rfl⟩
  · rcases h' with ⟨-, rfl⟩ | ⟨d, ps, names, hd, -⟩
    · exact .refl _
    · rw [hn] at hd; cases hd
  · rcases h' with ⟨hn, rfl⟩ | ⟨d', ps', names', hd', h1', h2', h3', rfl⟩
    · rw [hn] at hd; cases hd
    · rw [hd] at hd'
      cases hd'
      have hp : ps.Perm ps' := (List.perm_ext_iff_of_nodup h1 h1').mpr fun p => (h2 p).trans (h2' p).symm
      refine .trans (flatMap_perm fun p hp' => ?_) (hp.flatMap_right names')
      obtain ⟨i, k1, k2⟩ := h3 p hp'
      obtain ⟨i', k1', k2'⟩ := h3' p (hp.mem_iff.mp hp')
      rw [k1] at k1'
      cases k1'
      rw [isIndex_unique k2 k2']

/-- There is one such list, up to its order. -/
theorem census_perm {D : Disk} {p : Text} {out out' : List Bytes} (h : Census D p out) (h' : Census D p out') : out.Perm out' := by
  induction h generalizing out' with
  | @«at» p out a b qs below hp hl once alts rest perm ih =>
    cases h' with
    | @«at» _ _ a' b' qs' below' hp' hl' once' alts' rest' perm' =>
      have hq : qs.Perm qs' := (List.perm_ext_iff_of_nodup once once').mpr fun q => (alts q).trans (alts' q).symm
      refine perm.trans (.trans (.append (.append (packNames_perm hp hp') ?_) (.trans ?_ (hq.flatMap_right below'))) perm'.symm)
      · exact (List.perm_ext_iff_of_nodup hl.1 hl'.1).mpr fun x => (hl.2 x).trans (hl'.2 x).symm
      · exact flatMap_perm fun q hq' => ih q hq' (rest' q (hq.mem_iff.mp hq'))

/-! ## C87 -/

/-- **C87.**  A `GitDB` is used for any time while packs and alternates come and go.  After `update_cache(True)`, and any reads and
abbreviations, `sha_iter` yields the objects of the repository and of those reachable through alternates, as often as they are there: once
for each index that lists them and once as a loose object, and an alternate is counted for each way to it.  `size` is the number of these. -/
theorem C87_census (zl : Zlib) (fuel : Nat) {order : List Bytes → List Bytes} (ho : ∀ l, (order l).Perm l)
    {orderT : List Text → List Text} (hoT : ∀ l, (orderT l).Perm l) (getL : Fs → Bytes → Res OStream) {D : Disk}
    (hg : ∀ q d, D.pack q = some d → GoodDir d) (hr : Readable D) {rank : Text → Nat} (hrank : ∀ p q, Alt D p q → rank q < rank p)
    (hlf : LooseFine D)
    (n : Nat) (p : Text) (hn : rank p < n) (hl : (D.loose p).isSome = true) (past : List (Disk × LiveCall))
    (hpast : ∀ e ∈ past, Before D e.1) (ops : List LookUp) :
    let L := leafOps order (fun d db sha => db.stream fuel order d sha) getL
    let O := liveOps orderT L n
    let t := past.foldl (fun t e => callStep O e.1 t e.2) (freshNode n p)
    let t' := ops.foldl (lookUp orderT L n D) (O.update D t true).1
    ∃ out, (O.shas D t').2 = .ok out ∧ (O.size D t').2 = .ok out.length ∧ Census D p out ∧
      ∀ x, x ∈ out ↔ x.length = 20 ∧ ∃ q, AltReach D p q ∧ SiteNow D q x := by
  intro L O t t'
  have hinv : NodeInv D n p t := nodeInv_past zl fuel ho hoT getL n p past hpast
  obtain ⟨-, h2, -⟩ := node_refreshed fuel ho hoT getL hg hr hrank (S := AltReach D p) (fun _ _ h h' => altReach_snoc h' h) n p t hn
    (.refl p) hl hinv
  obtain ⟨f1, f2⟩ := node_full zl fuel ho hoT getL hg hr hrank n p t hn hl hinv
  obtain ⟨a1, a2, -, a4⟩ := lookUps_same zl fuel ho orderT getL (AltReach D p) ops _ h2 f2
  obtain ⟨out, k1, k2⟩ := full_yields fuel orderT getL (AltReach D p) hlf n _ a1 a2
  rw [a4, f1] at k2
  exact ⟨out, k1.1, k1.2, k2, census_mem k2⟩

/-- Whatever happened before, two databases at one place count the same. -/
theorem C87_same (zl : Zlib) (fuel : Nat) {order : List Bytes → List Bytes} (ho : ∀ l, (order l).Perm l)
    {orderT : List Text → List Text} (hoT : ∀ l, (orderT l).Perm l) (getL : Fs → Bytes → Res OStream) {D : Disk}
    (hg : ∀ q d, D.pack q = some d → GoodDir d) (hr : Readable D) {rank : Text → Nat} (hrank : ∀ p q, Alt D p q → rank q < rank p)
    (hlf : LooseFine D)
    (n : Nat) (p : Text) (hn : rank p < n) (hl : (D.loose p).isSome = true) (past past' : List (Disk × LiveCall))
    (hpast : ∀ e ∈ past, Before D e.1) (hpast' : ∀ e ∈ past', Before D e.1) (ops ops' : List LookUp) :
    let L := leafOps order (fun d db sha => db.stream fuel order d sha) getL
    let O := liveOps orderT L n
    let t := fun (past : List (Disk × LiveCall)) (ops : List LookUp) =>
      ops.foldl (lookUp orderT L n D) (O.update D (past.foldl (fun t e => callStep O e.1 t e.2) (freshNode n p)) true).1
    ∃ out out', (O.shas D (t past ops)).2 = .ok out ∧ (O.shas D (t past' ops')).2 = .ok out' ∧ out.Perm out' ∧
      (O.size D (t past ops)).2 = (O.size D (t past' ops')).2 := by
  intro L O t
  obtain ⟨out, a1, a2, a3, -⟩ := C87_census zl fuel ho hoT getL hg hr hrank hlf n p hn hl past hpast ops
  obtain ⟨out', b1, b2, b3, -⟩ := C87_census zl fuel ho hoT getL hg hr hrank hlf n p hn hl past' hpast' ops'
  refine ⟨out, out', a1, b1, census_perm a3 b3, ?_⟩
  exact a2.trans ((congrArg Except.ok (census_perm a3 b3).length_eq).trans b2.symm)

/-- A database at `/a` that was used while it had no packs and no alternates. -/
def partCensus (getL : Fs → Bytes → Res OStream) (early : Bytes) (d : PackDir) : Res (List Bytes) × Res Nat :=
  let L := leafOps List.reverse (fun d db sha => db.stream 5 List.reverse d sha) getL
  let O := liveOps id L 2
  let D := partDisk d (rootB ++ ['\n'])
  let t := [(partDisk ⟨1, []⟩ [], LiveCall.read (.has early)), (partDisk ⟨2, []⟩ [], .update false)].foldl
    (fun t e => callStep O e.1 t e.2) (freshNode 2 rootA)
  let t' := [LookUp.complete [97, 98], .read (.has early)].foldl (lookUp id L 2 D) (O.update D t true).1
  ((O.shas D t').2, (O.size D t').2)

theorem partCensus_yields (zl : Zlib) (getL : Fs → Bytes → Res OStream) (early : Bytes) (d : PackDir) (hg : GoodDir d)
    (r : Res (List Bytes) × Res Nat) (hr : partCensus getL early d = r) :
    ∃ out, r = (.ok out, .ok out.length) ∧ Census (partDisk d (rootB ++ ['\n'])) rootA out := by
  rw [← hr]
  obtain ⟨out, k1, k2, k3, -⟩ := C87_census zl 5 (order := List.reverse) (fun l => List.reverse_perm l) (orderT := id) (fun l => .refl l) getL
    (partDisk_good d hg _) (partDisk_readable d _)
    (fun p q h => liveDisk_rank d p q ((partDisk_alt _ _ _ _).mp h)) (partDisk_fine _ _) 2 rootA (by decide) rfl
    [(partDisk ⟨1, []⟩ [], LiveCall.read (.has early)), (partDisk ⟨2, []⟩ [], .update false)]
    (fun e he => by
      simp only [List.mem_cons, List.not_mem_nil, or_false] at he
      rcases he with rfl | rfl <;> exact partDisk_before _ _) [LookUp.complete [97, 98], .read (.has early)]
  exact ⟨out, Prod.ext k1 k2, k3⟩

/-- `/a` has one pack of three objects, and one with the first of these again; `/b` has a loose object. -/
theorem partDisk_census : Census (partDisk bothPacks (rootB ++ ['\n'])) rootA
    (exEntries.map Entry.name ++ (exEntries.take 1).map Entry.name ++ [[0xab, 0xcd] ++ List.replicate 18 0]) := by
  have hl : ∀ q, (partDisk bothPacks (rootB ++ ['\n'])).loose q = if q = rootA then some (fun _ => none, seen [111] [([], [])]) else
    if q = rootB then some (oneFs, seen [111] oneWalk) else none := fun _ => rfl
  have hAB : ∀ q, Alt (partDisk bothPacks (rootB ++ ['\n'])) rootA q ↔ q = rootB := by
    intro q
    constructor
    · intro h
      refine (partDisk_reach _ (.step h (.refl q))).resolve_left fun e => ?_
      subst e
      exact Nat.lt_irrefl _ (liveDisk_rank bothPacks _ _ ((partDisk_alt _ _ _ _).mp h))
    · rintro rfl
      exact (partDisk_alt _ _ _ _).mpr (liveDisk_alt _)
  refine .at (a := exEntries.map Entry.name ++ (exEntries.take 1).map Entry.name) (b := []) (qs := [rootB])
    (below := fun _ => [[0xab, 0xcd] ++ List.replicate 18 0]) (.inr ?_) ⟨List.nodup_nil, ?_⟩ (by simp) ?_ ?_ (by simp)
  · have ea : bothPacks.get (idxName nameA) = some (indexV2 exEntries [] []) := by
      unfold bothPacks
      generalize indexV2 exEntries [] [] = ia
      generalize indexV1 (exEntries.take 1) [] [] = ib
      rfl
    have eb : bothPacks.get (idxName nameB) = some (indexV1 (exEntries.take 1) [] []) := by
      unfold bothPacks
      generalize indexV2 exEntries [] [] = ia
      generalize indexV1 (exEntries.take 1) [] [] = ib
      rfl
    have hne : ¬ nameB = nameA := by decide
    refine ⟨bothPacks, [nameA, nameB], fun p => if p = nameA then exEntries.map Entry.name else (exEntries.take 1).map Entry.name, rfl,
      by decide, fun p => by rw [← bothPacks_packs]; exact mem_packs bothPacks p, fun p hp => ?_, ?_⟩
    · simp only [List.mem_cons, List.not_mem_nil, or_false] at hp
      rcases hp with rfl | rfl
      · exact ⟨_, ea, by simp only [if_pos]; exact exEntries_isIndex⟩
      · exact ⟨_, eb, by simp only [if_neg hne]; exact exEntries1_isIndex⟩
    · rw [List.flatMap_cons, List.flatMap_cons, if_pos rfl, if_neg hne, List.flatMap_nil, List.append_nil]
  · intro x
    simp only [List.not_mem_nil, false_iff]
    rintro ⟨-, w, hw, h⟩
    rw [hl, if_pos rfl] at hw
    cases hw; cases h
  · intro q
    rw [hAB]
    simp
  · intro q hq
    obtain rfl := List.mem_singleton.mp hq
    refine .at (a := []) (b := [[0xab, 0xcd] ++ List.replicate 18 0]) (qs := []) (below := fun _ => []) (.inl ⟨rfl, rfl⟩) ⟨by simp, ?_⟩
      List.nodup_nil ?_ (fun q h => by (cases h)) (by simp)
    · intro x
      rw [List.mem_singleton]
      constructor
      · rintro rfl
        exact ⟨by decide, _, rfl, by decide +kernel⟩
      · rintro ⟨hx, w, hw, h1⟩
        cases hw
        have h1 : (oneFs [(binToHex x).take 2, (binToHex x).drop 2]).isSome = true := h1
        unfold oneFs at h1
        split at h1
        · rename_i e; simp at e
        · split at h1
          · rename_i e
            simp only [List.cons.injEq, and_true] at e
            have := congrArg hexToBin (show binToHex x = [97, 98] ++ oneFile by rw [← List.take_append_drop 2 (binToHex x), e.1, e.2])
            rw [hexToBin_binToHex, show hexToBin ([97, 98] ++ oneFile) = .ok ([0xab, 0xcd] ++ List.replicate 18 0) by decide +kernel] at this
            exact Except.ok.inj this
          · cases h1
    · intro q
      simp only [List.not_mem_nil, false_iff]
      rintro ⟨t, ps, e, -⟩
      cases e

/-- Five objects, of which one is listed twice. -/
example (zl : Zlib) (getL : Fs → Bytes → Res OStream) (early : Bytes) : ∃ out, partCensus getL early bothPacks = (.ok out, .ok 5) ∧
    out.Perm (exEntries.map Entry.name ++ (exEntries.take 1).map Entry.name ++ [[0xab, 0xcd] ++ List.replicate 18 0]) := by
  have h := partCensus_yields zl getL early bothPacks bothPacks_good _ rfl
  generalize partCensus getL early bothPacks = r at h ⊢
  obtain ⟨out, rfl, h⟩ := h
  have hp := census_perm h partDisk_census
  exact ⟨out, by rw [hp.length_eq]; rfl, hp⟩

end GitDB.Props
