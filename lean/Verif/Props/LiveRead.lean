import Verif.Props.Live
/-!
# C81: what is read after `update_cache(True)`
-/
set_option autoImplicit false

namespace GitDB.Props
open GitDB Spec

variable {ω σ α β γ : Type}

/-! ## Specification -/

/-- The object is in the repository at `q`, alternates not counted, and `r` is what is read of it: the contents of its file, or what
a pack of that repository gives. -/
def ReadAt (getL : Fs → Bytes → Res OStream) (fuel : Nat) (D : Disk) (q : Text) (sha : Bytes) (r : Res OStream) : Prop :=
  (∃ x, D.loose q = some x ∧ (x.1 (objectPath (binToHex sha))).isSome = true ∧ r = getL x.1 sha) ∨
  ∃ d, D.pack q = some d ∧ ∃ p ∈ d.files.map Prod.fst, IsPackName p ∧ ∃ c pk i x ns, d.get p = some c ∧ PackFile.load c = .ok pk ∧
    d.get (idxName p) = some i ∧ IndexFile.load i = .ok x ∧ IsIndex i ns ∧ sha ∈ ns ∧ r = PackEntity.stream ⟨x, pk⟩ fuel sha

/-! ## Databases that serve what they find -/

/-- What is found can be read, with a result of this kind. -/
def Serves (O : DbOps ω σ α) (Ok : ω → σ → Prop) (C : ω → σ → Bytes → Prop) (A : ω → Bytes → Res α → Prop) : Prop :=
  ∀ w s, Ok w s → ∀ sha, sha ≠ [] → C w s sha → A w sha (O.get w s sha).2

theorem compound_get {O : DbOps ω σ α} {Ok : ω → σ → Prop} {C : ω → σ → Bytes → Prop} (hO : Locates O Ok C)
    {A : ω → Bytes → Res α → Prop} (hS : Serves O Ok C A) {w : ω} {c : Compound σ} (h : CompoundOk Ok C w c) {sha : Bytes} (hne : sha ≠ []) :
    ((∃ s ∈ c.dbs, C w s sha) → A w sha (c.get O w sha).2) ∧ ((¬ ∃ s ∈ c.dbs, C w s sha) → (c.get O w sha).2 = .error .badObject) := by
  obtain ⟨q1, q2, q⟩ := query_locates hO h sha
  unfold Compound.get
  rcases hq : c.query O w sha with ⟨c', r⟩
  rw [hq] at q q1 q2
  rcases q with ⟨i, s, e1, e2, e3⟩ | ⟨e1, e2⟩ | ⟨e1, -⟩
  · simp only at e1
    subst e1
    refine ⟨fun _ => ?_, fun hno => absurd ⟨s, List.mem_of_getElem? e2, e3⟩ hno⟩
    obtain ⟨s', g1, g2⟩ := sameContents_get q1 i s e2
    show A w sha (onDb (fun s => O.get w s sha) c'.dbs i).2
    rw [onDb_at c'.dbs i s' g1]
    exact hS w s' (q2.1 s' (List.mem_of_getElem? g1)) sha hne ((g2 sha).mpr e3)
  · simp only at e1
    subst e1
    exact ⟨fun ⟨s, hs, hc⟩ => absurd hc (e2 hne s hs), fun _ => rfl⟩
  · exact absurd e1 hne

theorem ref_serves {O : DbOps Disk σ α} {Ok : Disk → σ → Prop} {C : Disk → σ → Bytes → Prop} (hO : Locates O Ok C)
    {A : Disk → Bytes → Res α → Prop} (hS : Serves O Ok C A) (order : List Text → List Text) (mk : Disk → Text → Option σ) :
    Serves (refOps order mk O)
      (fun D r => ∃ l, r.db.dbs = some l ∧ CompoundOk (fun D y => Ok D y.2) (fun D y => C D y.2) D { dbs := l, cache := r.db.cache })
      (fun D r sha => ∃ l, r.db.dbs = some l ∧ ∃ y ∈ l, C D y.2 sha) A := by
  rintro D r ⟨l, h1, h2⟩ sha hne ⟨l', h3, h4⟩
  rw [h1] at h3
  cases h3
  show A D sha (r.use order mk D fun c => c.get (pairOps O) D sha).2
  rw [refUse_loaded h1]
  exact (compound_get (pair_locates hO) (A := A) (fun w y hy sha hs hc => hS w y.2 hy sha hs hc) h2 hne).1 h4

theorem part_serves {L : DbOps Disk GitLeaf α} {K : Disk → GitLeaf → Prop} {order : List Bytes → List Bytes}
    {A : Disk → Bytes → Res α → Prop} (hL : Serves L K (LeafHas order) A)
    {O : DbOps Disk (RefNode σ) α} {Ok : Disk → σ → Prop} {C : Disk → σ → Bytes → Prop}
    (hO : Serves O
      (fun D r => ∃ l, r.db.dbs = some l ∧ CompoundOk (fun D y => Ok D y.2) (fun D y => C D y.2) D { dbs := l, cache := r.db.cache })
      (fun D r sha => ∃ l, r.db.dbs = some l ∧ ∃ y ∈ l, C D y.2 sha) A) :
    Serves (sumOps L O) (PartOk K Ok C) (PartHas order C) A := by
  rintro D (s | r) h sha hne hc
  · exact hL D s h sha hne hc
  · exact hO D r h sha hne hc

/-- A repository: what it finds can be read, for the others there is `BadObject`. -/
theorem live_get {L : DbOps Disk GitLeaf α} {K : Disk → GitLeaf → Prop} {order : List Bytes → List Bytes}
    (hL : Locates L K (LeafHas order)) {A : Disk → Bytes → Res α → Prop} (hS : Serves L K (LeafHas order) A)
    (orderT : List Text → List Text) : ∀ (n : Nat) (D : Disk) (t : GitNode n), LiveOk K order n D t → ∀ sha, sha ≠ [] →
      (LiveHas order n D t sha → A D sha ((liveOps orderT L n).get D t sha).2) ∧
      (¬ LiveHas order n D t sha → ((liveOps orderT L n).get D t sha).2 = .error .badObject)
  | 0, _, _, h, _, _ => h.elim
  | n + 1, D, t, ⟨l, h1, h2⟩, sha, hne => by
    have ih : Serves (liveOps orderT L n) (LiveOk K order n) (LiveHas order n) A := fun D t h sha hne hc =>
      (live_get hL hS orderT n D t h sha hne).1 hc
    have hloc := live_locates hL orderT n
    obtain ⟨g1, g2⟩ := compound_get (part_locates hL (ref_locates hloc orderT (newNode n)))
      (part_serves hS (ref_serves hloc ih orderT (newNode n))) h2 hne
    have e : ((liveOps orderT L (n + 1)).get D t sha).2 = (Compound.get (sumOps L (refOps orderT (newNode n) (liveOps orderT L n))) D
        ⟨l, GitState.cache t⟩ sha).2 := by
      show (GitState.use D (fun c => c.get (sumOps L (refOps orderT (newNode n) (liveOps orderT L n))) D sha) t).2 = _
      rw [stateUse_loaded h1]
    rw [e]
    refine ⟨fun ⟨l', h3, h4⟩ => ?_, fun hno => g2 fun h4 => hno ⟨l, h1, h4⟩⟩
    rw [h1] at h3
    cases h3
    exact g1 h4

/-- The databases at the ends. -/
theorem leaf_serves (zl : Zlib) (fuel : Nat) (order : List Bytes → List Bytes) (getL : Fs → Bytes → Res OStream) (S : Text → Prop) :
    Serves (leafOps order (fun d db sha => db.stream fuel order d sha) getL) (LeafSeen order S) (LeafHas order)
      (fun D sha r => ∃ q, S q ∧ ReadAt getL fuel D q sha r) := by
  rintro D (_ | ⟨r, db⟩ | ⟨r, db⟩) h sha hne hc
  · exact h.2.elim
  · obtain ⟨-, hSr, ⟨-, hready⟩, d, hd, hnow⟩ := h
    obtain ⟨l, hl, hp⟩ := hnow.2
    have hload : db.load order (D.pack r) = (db, .ok l) := by unfold PackedDB.load; rw [hl]
    rw [hload] at hready
    have hc : PackedHas (D.pack r) (db.load order (D.pack r)).1 sha := hc
    rw [hload] at hc
    obtain ⟨l1, e1, hlists⟩ := hready
    have e1 : db.entities = some l1 := e1
    rw [hl] at e1
    cases e1
    obtain ⟨l2, e2, it, hit, ns, hns, hsha⟩ := hc
    have e2 : db.entities = some l2 := e2
    rw [hl] at e2
    cases e2
    have hx : ∀ it ∈ l, Lists (dirFiles (D.pack r)) it (Classical.epsilon fun ns => Lists (dirFiles (D.pack r)) it ns) :=
      fun it hit => Classical.epsilon_spec (hlists it hit)
    refine ⟨r, hSr, .inr ⟨d, hd, ?_⟩⟩
    rcases C42_served zl fuel order (D.pack r) db l hl _ hx sha hne with ⟨hno, -⟩ | ⟨it', hit', hm, c, x, hcon, hx', hget, -⟩
    · exact absurd ((keyHas_iff (hx it hit) hne).mp ((keyHas_iff hns hne).mpr hsha)) (hno it hit)
    · obtain ⟨c', hc', hi'⟩ := hx it' hit'
      have hc' : it'.content (dirFiles (D.pack r)) = some c' := hc'
      rw [hcon] at hc'
      cases hc'
      obtain ⟨f1, c1, f2, f3⟩ := hnow.1.2 l hl it' hit'
      have hpk := (mem_packs d it'.path).mp ((hp it'.path).mp (List.mem_map_of_mem hit'))
      have hidx : d.get (idxName it'.path) = some c := by
        unfold PackItem.content at hcon
        rw [hd] at hcon
        rcases hi : it'.idx with _ | c2
        · rw [hi] at hcon; exact hcon
        · rw [hi] at hcon
          cases hcon
          exact f1 c hi
      exact ⟨it'.path, hpk.1, hpk.2, c1, it'.pack, c, x, _, f3, f2, hidx, hx', hi', hm, hget⟩
  · obtain ⟨-, hSr, hk⟩ := h
    have hc : LooseHas (D.looseAt r) db sha := hc
    have ht : LooseThere D r sha := by
      rcases hc with hc | hc
      · exact hk sha hc
      · exact (looseThere_at sha).mp hc
    obtain ⟨x, hx, hf⟩ := ht
    refine ⟨r, hSr, .inl ⟨x, hx, hf, ?_⟩⟩
    show getL (D.looseAt r).1 sha = _
    unfold Disk.looseAt
    rw [hx]
    rfl

theorem altReach_snoc {D : Disk} {p q r : Text} (h : AltReach D p q) (h' : Alt D q r) : AltReach D p r := by
  induction h with
  | refl p => exact .step h' (.refl r)
  | step h1 _ ih => exact .step h1 (ih h')

/-! ## C81 -/

/-- **C81 (`stream` after `update_cache(force=True)`).**  A `GitDB` is used for any time, with any calls, while packs and alternates come
and go.  After `update_cache(True)` and any reads, `stream` of an object that is now in the repository or one that can be reached through
alternates gives what its file holds or what a pack there holds; of any other object, it raises `BadObject`. -/
theorem C81_read (zl : Zlib) (fuel : Nat) {order : List Bytes → List Bytes} (ho : ∀ l, (order l).Perm l)
    {orderT : List Text → List Text} (hoT : ∀ l, (orderT l).Perm l) (getL : Fs → Bytes → Res OStream) {D : Disk}
    (hg : ∀ q d, D.pack q = some d → GoodDir d) (hr : Readable D) {rank : Text → Nat} (hrank : ∀ p q, Alt D p q → rank q < rank p)
    (n : Nat) (p : Text) (hn : rank p < n) (hl : (D.loose p).isSome = true) (past : List (Disk × LiveCall))
    (hpast : ∀ e ∈ past, Before D e.1) (reads : List DbOp) (sha : Bytes) (hne : sha ≠ []) :
    let O := liveOps orderT (leafOps order (fun d db sha => db.stream fuel order d sha) getL) n
    let t := past.foldl (fun t e => callStep O e.1 t e.2) (freshNode n p)
    let r := (O.get D (reads.foldl (dbStep O D) (O.update D t true).1) sha).2
    ((∃ q, AltReach D p q ∧ SiteNow D q sha) → ∃ q, AltReach D p q ∧ ReadAt getL fuel D q sha r) ∧
    ((¬ ∃ q, AltReach D p q ∧ SiteNow D q sha) → r = .error .badObject) := by
  intro O t r
  have hinv : NodeInv D n p t := nodeInv_past zl fuel ho hoT getL n p past hpast
  obtain ⟨-, h2, h3⟩ := node_refreshed fuel ho hoT getL hg hr hrank (S := AltReach D p) (fun _ _ h h' => altReach_snoc h' h) n p t hn
    (.refl p) hl hinv
  have hleaf := leafSeen_locates zl fuel ho getL (AltReach D p)
  obtain ⟨k1, k2⟩ := steps_locates (live_locates hleaf orderT n) reads h2
  obtain ⟨g1, g2⟩ := live_get hleaf (leaf_serves zl fuel order getL (AltReach D p)) orderT n D _ k1 sha hne
  exact ⟨fun h => g1 ((k2 sha).mpr ((h3 sha).mpr h)), fun h => g2 fun h' => h ((h3 sha).mp ((k2 sha).mp h'))⟩

/-! ### A case -/

theorem liveDisk_reach (d : PackDir) {q : Text} (h : AltReach (liveDisk d (rootB ++ ['\n'])) rootA q) : q = rootA ∨ q = rootB := by
  have hb : ∀ q, AltReach (liveDisk d (rootB ++ ['\n'])) rootB q → q = rootB := by
    intro q h
    cases h with
    | refl => rfl
    | step h _ => exact absurd (liveDisk_rank d _ _ h) (Nat.not_lt_zero _)
  cases h with
  | refl => exact .inl rfl
  | step h h' =>
    obtain ⟨t, ps, h, h2, h3, -⟩ := h
    have := (refPaths_iff t ps).mpr h2
    obtain rfl := Except.ok.inj (Option.some.inj h)
    rw [(refPaths_iff _ _).mpr (alternates_one rootB rootB_plain)] at this
    obtain rfl := Except.ok.inj this
    rw [List.mem_singleton] at h3
    subst h3
    exact .inr (hb _ h')

/-- A `GitDB` at `/a`, asked for an object while the alternates file was empty; afterwards `/b` has been added, which has one object.
After `update_cache(True)` it is read from there, others are not found. -/
example (zl : Zlib) (getL : Fs → Bytes → Res OStream) (sha : Bytes) (hne : sha ≠ []) (early : Bytes) :
    let O := liveOps id (leafOps List.reverse (fun d db sha => db.stream 5 List.reverse d sha) getL) 2
    let D := liveDisk ⟨5, []⟩ (rootB ++ ['\n'])
    let t := [(liveDisk ⟨1, []⟩ [], LiveCall.read (.get early)), (liveDisk ⟨2, []⟩ [], .update false)].foldl
      (fun t e => callStep O e.1 t e.2) (freshNode 2 rootA)
    (O.get D ([DbOp.has early, .get early, .size].foldl (dbStep O D) (O.update D t true).1) sha).2 =
      if sha = [7] then getL (D.looseAt rootB).1 [7] else .error .badObject := by
  intro O D t
  have hgood : GoodDir (⟨5, []⟩ : PackDir) := ⟨List.nodup_nil, fun p hp => by cases hp⟩
  obtain ⟨h1, h2⟩ := C81_read zl 5 (order := List.reverse) (fun l => List.reverse_perm l) (orderT := id) (fun l => .refl l) getL
    (liveDisk_good ⟨5, []⟩ hgood _) (liveDisk_readable _ _) (liveDisk_rank ⟨5, []⟩) 2 rootA (by decide) rfl
    [(liveDisk ⟨1, []⟩ [], LiveCall.read (.get early)), (liveDisk ⟨2, []⟩ [], .update false)]
    (fun e he => by
      simp only [List.mem_cons, List.not_mem_nil, or_false] at he
      rcases he with rfl | rfl <;> exact liveDisk_before _ _) [.has early, .get early, .size] sha hne
  have hpack : ∀ q d, D.pack q = some d → d.files = [] := by
    intro q d h
    simp only [D, liveDisk] at h
    split at h
    · cases h; rfl
    · cases h
  by_cases hs : sha = [7]
  · subst hs
    rw [if_pos rfl]
    obtain ⟨q, hq, hread⟩ := h1 ⟨rootB, .step (liveDisk_alt _) (.refl _), .inr ⟨_, rfl, by decide⟩⟩
    rcases hread with ⟨x, hx, hf, e⟩ | ⟨d, hd, p, hp, -⟩
    · rcases liveDisk_reach _ hq with rfl | rfl
      · cases hx; cases hf
      · cases hx; exact e
    · rw [hpack q d hd] at hp; cases hp
  · rw [if_neg hs]
    refine h2 ?_
    rintro ⟨q, hq, ⟨d, hd, p, hp, -⟩ | ⟨x, hx, hf⟩⟩
    · rw [hpack q d hd] at hp; cases hp
    · rcases liveDisk_reach _ hq with rfl | rfl
      · cases hx; cases hf
      · cases hx
        have hf : (if objectPath (binToHex sha) = objectPath (binToHex [7]) then some (Node.file [1] 0o444) else none).isSome = true := hf
        split at hf
        · rename_i he
          unfold objectPath at he
          simp only [List.cons.injEq, and_true] at he
          have := congrArg hexToBin (show binToHex sha = binToHex [7] by
            rw [← List.take_append_drop 2 (binToHex sha), he.1, he.2, List.take_append_drop])
          rw [hexToBin_binToHex, hexToBin_binToHex] at this
          exact hs (Except.ok.inj this)
        · cases hf

end GitDB.Props
