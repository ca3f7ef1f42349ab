import Verif.Props.GitRaises
import Verif.Model.LiveComplete
/-!
# C96: exceptions of refreshing a `GitDB` and of abbreviations
-/
set_option autoImplicit false

namespace GitDB.Props
open GitDB Spec

variable {ω σ τ α β : Type}

/-! ## Every `ReferenceDB` has each path once -/

/-- A `ReferenceDB` whose databases have different paths. -/
def RefTidy (I : σ → Prop) (r : RefNode σ) : Prop := ∀ l, r.db.dbs = some l → RefsOnly I l

/-- A `GitDB` such that this holds for all `ReferenceDB`s below it. -/
def NodeTidy : (n : Nat) → GitNode n → Prop
  | 0, _ => True
  | n + 1, t => ∀ l, GitState.dbs t = some l → ∀ x ∈ l, Sum.elim (fun _ => True) (RefTidy (NodeTidy n)) x

theorem newParts_tidy (D : Disk) (I : σ → Prop) (q : Text) :
    ∀ x ∈ (newParts D q : List (GitLeaf ⊕ RefNode σ)), Sum.elim (fun _ => True) (RefTidy I) x := by
  intro x hx
  obtain ⟨s, -, rfl⟩ := List.mem_map.mp hx
  cases s with
  | pack => trivial
  | loose => trivial
  | ref => exact fun l hl => (nomatch (hl : (none : Option (Refs σ)) = some l))

theorem gitLoad_tidy (D : Disk) {n : Nat} {t : GitState (GitNode n)} (h : NodeTidy (n + 1) t) :
    NodeTidy (n + 1) (t.load D).1 ∧ ∀ l, (t.load D).2 = .ok l → (t.load D).1.dbs = some l := by
  unfold GitState.load
  rcases hl : t.dbs with _ | l
  · simp only
    rcases (gitDbs D t.root).2 with e | u
    · exact ⟨fun l' h' => by cases h'; exact newParts_tidy D _ _, fun l' h' => (nomatch h')⟩
    · exact ⟨fun l' h' => by cases h'; exact newParts_tidy D _ _, fun l' h' => by cases h'; rfl⟩
  · exact ⟨h, fun l' h' => by cases h'; exact hl⟩

theorem newNode_tidy (D : Disk) : ∀ (n : Nat) (q : Text) (t : GitNode n), newNode n D q = some t → NodeTidy n t
  | 0, _, _, _ => trivial
  | n + 1, q, t, h => by
    have h1 := (gitLoad_tidy D (n := n) (t := { root := q }) (fun l hl => nomatch hl)).1
    simp only [newNode] at h
    rcases hx : GitState.load D ({ root := q } : GitState (GitNode n)) with ⟨g, e | l⟩
    · rw [hx] at h; cases h
    · rw [hx] at h h1
      cases h
      exact h1

theorem refUse_tidy {D : Disk} {order : List Text → List Text} (ho : ∀ l, (order l).Perm l) {I : σ → Prop} {mk : Disk → Text → Option σ}
    (hm : ∀ q t, mk D q = some t → I t) {r : RefNode σ} (f : Compound (Text × σ) → Compound (Text × σ) × Res β)
    (hf : ∀ c, RefsOnly I c.dbs → RefsOnly I (f c).1.dbs) (h : RefTidy I r) : RefTidy I (r.use order mk D f).1 := by
  obtain ⟨h1, h2, -⟩ := refLoad_only ho (D.altFile r.root) (fun _ q t _ _ => hm q t) h
  unfold RefNode.use
  rcases hl : r.db.load order (mk D) (D.altFile r.root) with ⟨db, e | l⟩
  · rw [hl] at h1; exact h1
  · rw [hl] at h1 h2
    exact fun l' hl' => by cases hl'; exact hf _ (h1 l (h2 l rfl))

theorem pairs_tidy {O : DbOps Disk σ α} {D : Disk} {I : σ → Prop} (hO : ∀ s call, I s → I (callStep O D s call)) (c : Compound (Text × σ))
    (call : LiveCall) (h : RefsOnly I c.dbs) : RefsOnly I (callStep (compoundOps (pairOps O)) D c call).dbs := by
  have h1 := compound_inv (O := pairOps O) (w := D) (g := Prod.fst) (I := fun y => I y.2) (fun x call hx => by
      rw [pair_call]; exact ⟨rfl, hO _ call hx⟩) c call h.2
  exact ⟨by rw [h1.1]; exact h.1, h1.2⟩

theorem refresh_tidy {D : Disk} {order : List Text → List Text} (ho : ∀ l, (order l).Perm l) {I : σ → Prop}
    {mk : Disk → Text → Option σ} (hm : ∀ q t, mk D q = some t → I t) {r : RefNode σ} (h : RefTidy I r) :
    ∀ l, (r.db.refresh order (mk D) (D.altFile r.root)).1.dbs = some l → RefsOnly I l := by
  obtain ⟨h1, h2, -⟩ := refLoad_only ho (D.altFile r.root) (fun _ q t _ _ => hm q t) h
  unfold RefDB.refresh
  rcases hp : refPaths (D.altFile r.root) with e | paths
  · exact h
  · simp only
    rcases hl : r.db.load order (mk D) (D.altFile r.root) with ⟨db, e | l⟩
    · rw [hl] at h1; exact h1
    · rw [hl] at h1 h2
      have hu := updateRefs_only ho (D.altFile r.root) (fun _ q t _ _ => hm q t) (h1 l (h2 l rfl))
      simp only
      rcases hx : updateRefs order (mk D) (D.altFile r.root) l with ⟨l', e | u⟩
      · rw [hx] at hu
        exact fun l'' h'' => by cases h''; exact hu
      · rw [hx] at hu
        exact fun l'' h'' => by cases h''; exact hu

theorem ref_tidy {O : DbOps Disk σ α} {D : Disk} {order : List Text → List Text} (ho : ∀ l, (order l).Perm l) {I : σ → Prop}
    {mk : Disk → Text → Option σ} (hm : ∀ q t, mk D q = some t → I t) (hO : ∀ s call, I s → I (callStep O D s call)) :
    ∀ r call, RefTidy I r → RefTidy I (callStep (refOps order mk O) D r call) := by
  intro r call h
  have hf := fun c call h => pairs_tidy (D := D) hO c call h
  cases call with
  | read op =>
    cases op with
    | has sha => exact refUse_tidy ho hm _ (fun c => hf c (.read (.has sha))) h
    | get sha => exact refUse_tidy ho hm _ (fun c => hf c (.read (.get sha))) h
    | size => exact refUse_tidy ho hm _ (fun c => hf c (.read .size)) h
    | shas => exact refUse_tidy ho hm _ (fun c => hf c (.read .shas)) h
  | update force =>
    have hr := refresh_tidy ho hm h
    show RefTidy I ((refOps order mk O).update D r force).1
    simp only [refOps]
    rcases hx : r.db.refresh order (mk D) (D.altFile r.root) with ⟨db, e | u⟩
    · rw [hx] at hr; exact hr
    · rw [hx] at hr
      exact refUse_tidy (r := { r with db := db }) ho hm _ (fun c => hf c (.update force)) hr

theorem stateUse_tidy {D : Disk} {n : Nat} (f : Compound (GitLeaf ⊕ RefNode (GitNode n)) → Compound (GitLeaf ⊕ RefNode (GitNode n)) × Res β)
    (hf : ∀ c, (∀ x ∈ c.dbs, Sum.elim (fun _ => True) (RefTidy (NodeTidy n)) x) →
      ∀ x ∈ (f c).1.dbs, Sum.elim (fun _ => True) (RefTidy (NodeTidy n)) x)
    {t : GitState (GitNode n)} (h : NodeTidy (n + 1) t) : NodeTidy (n + 1) (t.use D f).1 := by
  obtain ⟨h1, h2⟩ := gitLoad_tidy D h
  unfold GitState.use
  rcases hl : t.load D with ⟨g, e | l⟩
  · rw [hl] at h1; exact h1
  · rw [hl] at h1 h2
    exact fun l' hl' => by cases hl'; exact hf _ (h1 l (h2 l rfl))

theorem live_tidy {orderT : List Text → List Text} (hoT : ∀ l, (orderT l).Perm l) (L : DbOps Disk GitLeaf α) (D : Disk) :
    ∀ (n : Nat) (t : GitNode n) (call : LiveCall), NodeTidy n t → NodeTidy n (callStep (liveOps orderT L n) D t call)
  | 0, _, _, _ => trivial
  | n + 1, t, call, h => by
    have hR := ref_tidy hoT (newNode_tidy D n) (live_tidy hoT L D n)
    have hs : ∀ x call, Sum.elim (fun _ => True) (RefTidy (NodeTidy n)) x →
        Sum.elim (fun _ => True) (RefTidy (NodeTidy n)) (callStep (sumOps L (refOps orderT (newNode n) (liveOps orderT L n))) D x call) := by
      rintro (x | x) call hx
      · cases call with
        | update force => trivial
        | read op => cases op <;> trivial
      · have := hR x call hx
        cases call with
        | update force => exact this
        | read op => cases op <;> exact this
    have hf := fun c call hc => (compound_inv (O := sumOps L (refOps orderT (newNode n) (liveOps orderT L n))) (w := D) (g := fun _ => ())
      (I := Sum.elim (fun _ => True) (RefTidy (NodeTidy n))) (fun x call hx => ⟨rfl, hs x call hx⟩) c call hc).2
    cases call with
    | update force => exact stateUse_tidy _ (fun c => hf c (.update force)) h
    | read op =>
      cases op with
      | has sha => exact stateUse_tidy _ (fun c => hf c (.read (.has sha))) h
      | get sha => exact stateUse_tidy _ (fun c => hf c (.read (.get sha))) h
      | size => exact stateUse_tidy _ (fun c => hf c (.read .size)) h
      | shas => exact stateUse_tidy _ (fun c => hf c (.read .shas)) h

/-! ## Abbreviations -/

theorem eachDb_keep {f : σ → σ × Res β} {I : σ → Prop} {g : σ → τ} (h : ∀ s, I s → g (f s).1 = g s ∧ I (f s).1) :
    ∀ l : List σ, (∀ s ∈ l, I s) → (eachDb f l).1.map g = l.map g ∧ ∀ s ∈ (eachDb f l).1, I s
  | [], _ => ⟨rfl, by simp [eachDb]⟩
  | s :: l, hl => by
    have h1 := h s (hl s (by simp))
    have h2 := eachDb_keep h l (fun s hs => hl s (by simp [hs]))
    have h3 : ∀ s ∈ l, I s := fun s hs => hl s (by simp [hs])
    unfold eachDb
    rcases hf : f s with ⟨s', e | x⟩
    · rw [hf] at h1
      exact ⟨by simp only [List.map_cons, h1.1], List.forall_mem_cons.mpr ⟨h1.2, h3⟩⟩
    · rw [hf] at h1
      simp only
      rcases hx : eachDb f l with ⟨l', e | xs⟩
      · rw [hx] at h2
        exact ⟨by simp only [List.map_cons, h1.1, h2.1], List.forall_mem_cons.mpr ⟨h1.2, h2.2⟩⟩
      · rw [hx] at h2
        exact ⟨by simp only [List.map_cons, h1.1, h2.1], List.forall_mem_cons.mpr ⟨h1.2, h2.2⟩⟩

theorem putBack_keep {put : σ → List β → σ × List β} {I : σ → Prop} {g : σ → τ} (h : ∀ s l, I s → g (put s l).1 = g s ∧ I (put s l).1) :
    ∀ (ds : List σ) (l : List β), (∀ s ∈ ds, I s) →
      (putBackList put (fun _ => true) ds l).1.map g = ds.map g ∧ ∀ s ∈ (putBackList put (fun _ => true) ds l).1, I s
  | [], _, _ => ⟨rfl, by simp [putBackList]⟩
  | s :: ds, l, hl => by
    have h1 := h s l (hl s (by simp))
    have h2 := putBack_keep h ds (put s l).2 (fun s hs => hl s (by simp [hs]))
    simp only [putBackList, if_pos]
    exact ⟨by simp only [List.map_cons, h1.1, h2.1], List.forall_mem_cons.mpr ⟨h1.2, h2.2⟩⟩

theorem collect_tidy {orderT : List Text → List Text} (hoT : ∀ l, (orderT l).Perm l) (D : Disk) :
    ∀ (n : Nat) (t : GitNode n), NodeTidy n t → NodeTidy n (liveCollect orderT n D t).1
  | 0, _, _ => trivial
  | n + 1, t, h => by
    obtain ⟨h1, h2⟩ := gitLoad_tidy D h
    unfold liveCollect
    rcases hl : GitState.load D t with ⟨g, e | l⟩
    · rw [hl] at h1; exact h1
    · rw [hl] at h1 h2
      simp only
      intro l' hl'
      cases hl'
      refine (eachDb_keep (g := fun _ => ()) (I := Sum.elim (fun _ => True) (RefTidy (NodeTidy n))) ?_ l (h1 l (h2 l rfl))).2
      rintro (x | x) hx
      · exact ⟨rfl, trivial⟩
      · refine ⟨rfl, refUse_tidy hoT (newNode_tidy D n) _ (fun c hc => ?_) hx⟩
        have h5 := eachDb_keep (f := fun d : Text × GitNode n => let u := liveCollect orderT n D d.2; ((d.1, u.1), u.2)) (g := Prod.fst)
          (I := fun y => NodeTidy n y.2) (fun s hs => ⟨rfl, collect_tidy hoT D n s.2 hs⟩) c.dbs hc.2
        exact ⟨by rw [h5.1]; exact hc.1, h5.2⟩

theorem put_tidy : ∀ (n : Nat) (t : GitNode n) (l : List GitLeaf), NodeTidy n t → NodeTidy n (livePut n t l).1
  | 0, _, _, _ => trivial
  | n + 1, t, l, h => by
    unfold livePut
    rcases hl : GitState.dbs t with _ | parts
    · exact h
    · simp only
      intro l' hl'
      cases hl'
      have h1 := (putBack_keep (put := putLeaf) (g := fun _ => ()) (I := Sum.elim (fun _ => True) (RefTidy (NodeTidy n)))
        (fun s l hs => ⟨rfl, by rcases s with s | s <;> exact hs⟩) parts l (h parts hl)).2
      refine (putBack_keep (put := putRef (livePut n)) (g := fun _ => ()) (I := Sum.elim (fun _ => True) (RefTidy (NodeTidy n))) ?_ _ _ h1).2
      rintro (s | r) l hs
      · exact ⟨rfl, trivial⟩
      · refine ⟨rfl, ?_⟩
        unfold putRef
        rcases hd : r.db.dbs with _ | ds
        · simp only [hd]; exact hs
        · simp only [hd]
          intro l'' hl''
          cases hl''
          have hk : RefsOnly (NodeTidy n) ds := hs ds hd
          have h5 := putBack_keep (put := fun (d : Text × GitNode n) l => let u := livePut n d.2 l; ((d.1, u.1), u.2)) (g := Prod.fst)
            (I := fun y => NodeTidy n y.2) (fun s l hs => ⟨rfl, put_tidy n s.2 l hs⟩) ds l hk.2
          exact ⟨by rw [h5.1]; exact hk.1, h5.2⟩

theorem complete_tidy {orderT : List Text → List Text} (hoT : ∀ l, (orderT l).Perm l) (L : DbOps Disk GitLeaf α) (D : Disk)
    (n : Nat) (t : GitNode n) (part : Bytes) (h : NodeTidy n t) : NodeTidy n (liveComplete orderT L n D t part).1 := by
  have h1 := collect_tidy hoT D n t h
  unfold liveComplete
  rcases hl : liveCollect orderT n D t with ⟨t', e | leaves⟩
  · rw [hl] at h1; exact h1
  · rw [hl] at h1
    simp only [completeHex]
    rcases hexToBin (if part.length % 2 ≠ 0 then part ++ [0x30] else part) with e | b
    · exact h1
    · simp only
      have h2 := put_tidy n t' (completeDbs L D part leaves none).1 h1
      rcases (completeDbs L D part leaves none).2 with e | (_ | (_ | ⟨b, f⟩)) <;> exact h2

/-! ## Exceptions -/

theorem eachDb_raises_mem {f : σ → σ × Res β} {S : List Err} : ∀ l : List σ, (∀ s ∈ l, Raises (f s).2 S) → Raises (eachDb f l).2 S
  | [], _ => raises_ok _
  | s :: l, h => by
    have h1 := h s (by simp)
    have h2 := eachDb_raises_mem l (fun s hs => h s (by simp [hs]))
    unfold eachDb
    rcases hf : f s with ⟨s', e | x⟩
    · rw [hf] at h1
      exact fun e' he' => h1 e' (by simpa using he')
    · simp only
      rcases hx : eachDb f l with ⟨l', e | xs⟩
      · rw [hx] at h2
        exact fun e' he' => h2 e' (by simpa using he')
      · exact raises_ok _

theorem packUpdate_raises (order : List Bytes → List Bytes) (dir : Option PackDir) (force : Bool) (db : PackedDB) :
    Raises (db.updateCache order dir force).2 hasErrors := by
  unfold PackedDB.updateCache
  rcases dir with _ | d
  · exact raises_error (by decide)
  · simp only
    by_cases hc : force = false ∧ d.mtime ≤ db.mtime
    · rw [if_pos hc]; exact raises_ok _
    · rw [if_neg hc]
      have h1 := packLoad_raises order (some d) { db with mtime := d.mtime }
      rcases hx : PackedDB.load order (some d) { db with mtime := d.mtime } with ⟨db', e | l⟩
      · rw [hx] at h1
        exact fun e' he' => h1 e' (by simpa using he')
      · simp only [refreshItems]
        have h2 := addPacks_raises d (order (d.packs.filter fun f => decide (f ∉ l.map PackItem.path))) l
        rcases hy : addPacks d (order (d.packs.filter fun f => decide (f ∉ l.map PackItem.path))) l with ⟨l', e | u⟩
        · rw [hy] at h2
          exact fun e' he' => h2 e' (by simpa using he')
        · exact raises_ok _

theorem refPaths_raises {D : Disk} (hr : ∀ q e, D.alt q = some (.error e) → e ∈ [Err.osError, .fileNotFound, .permissionError, .unicodeError])
    (q : Text) : Raises (refPaths (D.altFile q)) hasErrors := by
  unfold Disk.altFile
  rcases ha : D.alt q with _ | (e | t)
  · exact raises_ok _
  · have := hr _ e ha
    simp only [List.mem_cons, List.not_mem_nil, or_false] at this
    rcases this with rfl | rfl | rfl | rfl
    · exact raises_ok _
    · exact raises_ok _
    · exact raises_ok _
    · exact raises_error (by decide)
  · exact raises_ok _

theorem refresh_raises {D : Disk} {order : List Text → List Text} (ho : ∀ l, (order l).Perm l) {I : σ → Prop}
    {mk : Disk → Text → Option σ} (hm : ∀ q t, mk D q = some t → I t)
    (hr : ∀ q e, D.alt q = some (.error e) → e ∈ [Err.osError, .fileNotFound, .permissionError, .unicodeError])
    {r : RefNode σ} (h : RefTidy I r) : Raises (r.db.refresh order (mk D) (D.altFile r.root)).2 hasErrors := by
  obtain ⟨h1, h2, -⟩ := refLoad_only ho (D.altFile r.root) (fun _ q t _ _ => hm q t) h
  have h3 := refLoad_raises order mk hr (by simpa using ho []) r
  have h4 := refPaths_raises hr r.root
  unfold RefDB.refresh
  rcases hp : refPaths (D.altFile r.root) with e | paths
  · exact h4.of hp (fun _ h => h)
  · simp only
    rcases hl : r.db.load order (mk D) (D.altFile r.root) with ⟨db, e | l⟩
    · rw [hl] at h3
      exact fun e' he' => h3 e' (by simpa using he')
    · rw [hl] at h1 h2
      simp only
      rw [updateRefs_spec ho (mk D) _ paths hp l (h1 l (h2 l rfl)).1]
      exact raises_ok _

theorem update_raises (order : List Bytes → List Bytes) {orderT : List Text → List Text} (ho : ∀ l, (orderT l).Perm l)
    (getP : Option PackDir → PackedDB → Bytes → PackedDB × Res α) (getL : Fs → Bytes → Res α) {D : Disk}
    (hr : ∀ q e, D.alt q = some (.error e) → e ∈ [Err.osError, .fileNotFound, .permissionError, .unicodeError]) (force : Bool) :
    ∀ (n : Nat) (t : GitNode n), NodeTidy n t → Raises ((liveOps orderT (leafOps order getP getL) n).update D t force).2 hasErrors
  | 0, _, _ => raises_error (by decide)
  | n + 1, t, h => by
    have ih := update_raises order ho getP getL hr force n
    have hl := gitLoad_raises D t
    obtain ⟨h1, h2⟩ := gitLoad_tidy D h
    show Raises (GitState.use D _ t).2 hasErrors
    unfold GitState.use
    rcases hx : GitState.load D t with ⟨g, e | l⟩
    · rw [hx] at hl
      exact fun e' he' => hl e' (by simpa using he')
    · rw [hx] at h1 h2
      refine map_raises (eachDb_raises_mem _ ?_) _
      rintro (s | r) hs
      · cases s with
        | stop => exact raises_error (by decide)
        | pack q db => exact map_raises (packUpdate_raises order (D.pack q) force db) _
        | loose q db => exact raises_ok _
      · have hR : RefTidy (NodeTidy n) r := h1 l (h2 l rfl) _ hs
        have h3 := refresh_raises ho (newNode_tidy D n) hr hR
        have h4 := refresh_tidy ho (newNode_tidy D n) hR
        show Raises ((refOps orderT (newNode n) (liveOps orderT (leafOps order getP getL) n)).update D r force).2 hasErrors
        simp only [refOps]
        rcases hy : r.db.refresh orderT (newNode n D) (D.altFile r.root) with ⟨db, e | u⟩
        · rw [hy] at h3
          exact fun e' he' => h3 e' (by simpa using he')
        · rw [hy] at h4
          simp only
          obtain ⟨k1, k2, -⟩ := refLoad_only (db := db) ho (D.altFile r.root) (fun _ q t _ _ => newNode_tidy D n q t) h4
          have k3 := refLoad_raises orderT (newNode n) hr (by simpa using ho []) { r with db := db }
          unfold RefNode.use
          simp only at k3 ⊢
          rcases hz : db.load orderT (newNode n D) (D.altFile r.root) with ⟨db', e | l'⟩
          · rw [hz] at k3
            exact fun e' he' => k3 e' (by simpa using he')
          · rw [hz] at k1 k2
            refine map_raises (eachDb_raises_mem _ ?_) _
            intro y hy
            exact ih y.2 ((k1 l' (k2 l' rfl)).2 y hy)

theorem canonical_raises (n : Nat) (m s : Bytes) : Raises (isEqualCanonicalSha n m s) [.indexError] := by
  unfold isEqualCanonicalSha
  simp only
  have hp : ∀ i, Raises (pyIndex s i) [.indexError] := by
    intro i
    unfold pyIndex
    split
    · exact raises_ok _
    · exact raises_error (by simp)
  have hi := hp (m.length - 1)
  by_cases h1 : m.take (n / 2) ≠ s.take (n / 2)
  · rw [if_pos h1]; exact raises_ok _
  rw [if_neg h1]
  by_cases h2 : n - n / 2 ≠ 0
  · rw [if_pos h2]
    rcases m.getLast? with _ | a
    · exact raises_error (by simp)
    · rcases hx : pyIndex s (m.length - 1) with e | b
      · exact hi.of hx (fun _ h => h)
      · by_cases h3 : (a.toNat ^^^ b) &&& 0xf0 ≠ 0
        · show Raises (if (a.toNat ^^^ b) &&& 0xf0 ≠ 0 then _ else _) _
          rw [if_pos h3]; exact raises_ok _
        · show Raises (if (a.toNat ^^^ b) &&& 0xf0 ≠ 0 then _ else _) _
          rw [if_neg h3]; exact raises_ok _
  · rw [if_neg h2]; exact raises_ok _

theorem hexToBin_len : ∀ h b : Bytes, hexToBin h = .ok b → h.length = 2 * b.length
  | [], b, e => by cases e; rfl
  | [_], b, e => by cases e
  | x :: y :: rest, b, e => by
    unfold hexToBin at e
    rcases hx : hexVal x with _ | u
    · rw [hx] at e; cases e
    · rcases hy : hexVal y with _ | v
      · rw [hx, hy] at e; cases e
      · rcases hr : hexToBin rest with e' | r
        · rw [hx, hy, hr] at e; cases e
        · rw [hx, hy, hr] at e
          cases e
          have := hexToBin_len rest r hr
          simp only [List.length_cons]
          omega

/-- What `partial_to_complete_sha_hex` of a `GitDB` may raise, besides `ValueError` for short abbreviations. -/
def completeErrors : List Err := hasErrors ++ [.badObject, .ambiguousObjectName, .binasciiError, .indexError]

section
variable {S : List Err} (hS : ∀ e ∈ completeErrors, e ∈ S)
include hS

theorem partialIndex_raises (x : IndexFile) (part : Bytes) (n : Nat) (hv : part.length < 2 → .valueError ∈ S) : Raises (x.partialShaToIndex part n) S := by
  unfold IndexFile.partialShaToIndex
  split
  · next h => exact raises_error (hv h)
  · split
    · exact raises_error (hS _ (by decide))
    · simp only
      split
      · rcases hc : isEqualCanonicalSha n part _ with e | (_ | _)
        · exact (canonical_raises _ _ _).of hc (fun e h => hS e (by cases List.mem_singleton.mp h; decide))
        · exact raises_ok _
        · simp only
          repeat' split
          all_goals first | exact raises_ok _ | exact raises_error (e := .ambiguousObjectName) (hS _ (by decide))
      · exact raises_ok _

theorem completeLoop_raises (dir : PackDir) (part : Bytes) (n : Nat) (hv : part.length < 2 → .valueError ∈ S) :
    ∀ (l : List PackItem) (cand : Option Bytes), Raises (completeLoop dir part n l cand).2 S
  | [], _ => raises_ok _
  | a :: l, cand => by
    have h1 : Raises (a.complete dir part n).2 S := by
      unfold PackItem.complete
      split
      · next h => exact raises_error (hv h)
      · have h := index_raises dir a
        rcases hx : a.index dir with ⟨a', e | x⟩
        · rw [hx] at h
          exact fun e' he' => hS _ <| List.mem_append_left _ (h e' (by simpa using he'))
        · simp only
          rcases hp : x.partialShaToIndex part n with e | (_ | i)
          · exact (partialIndex_raises hS x part n hv).of hp (fun _ h => h)
          · exact raises_ok _
          · exact raises_ok _
    unfold completeLoop
    rcases hx : a.complete dir part n with ⟨a', e | (_ | sha)⟩
    · rw [hx] at h1
      exact fun e' he' => h1 e' (by simpa using he')
    · exact completeLoop_raises dir part n hv l cand
    · simp only
      split
      · exact raises_error (hS _ (by decide))
      · exact completeLoop_raises dir part n hv l (some sha)

theorem partialLoop_raises (part : Bytes) : ∀ (l : List (Res Bytes)) (cand : Option Bytes), (∀ r ∈ l, Raises r [.binasciiError]) →
    Raises (partialLoop part cand l) S
  | [], none, _ => raises_error (hS _ (by decide))
  | [], some _, _ => raises_ok _
  | .error e :: _, cand, h => by
    have := h (.error e) (by simp) e rfl
    cases List.mem_singleton.mp this
    cases cand <;> exact raises_error (hS _ (by decide))
  | .ok b :: r, cand, h => by
    have h' : ∀ x ∈ r, Raises x [.binasciiError] := fun x hx => h x (by simp [hx])
    have hc : ∀ c : Option Bytes, partialLoop part c (.ok b :: r) =
        if part.isPrefixOf (binToHex b) then (match c with | some _ => .error .ambiguousObjectName | none => partialLoop part (some b) r)
        else partialLoop part c r := by
      intro c
      cases c <;> rfl
    rw [hc]
    split
    · cases cand with
      | some _ => exact raises_error (hS _ (by decide))
      | none => exact partialLoop_raises part r _ h'
    · exact partialLoop_raises part r cand h'

theorem leafComplete_raises (order : List Bytes → List Bytes) (getP : Option PackDir → PackedDB → Bytes → PackedDB × Res α)
    (getL : Fs → Bytes → Res α) (D : Disk) (s : GitLeaf) (part : Bytes) (hv : part.length < 3 → .valueError ∈ S) :
    Raises ((leafOps order getP getL).complete D s part).2 S := by
  cases s with
  | stop => exact raises_error (hS _ (by decide))
  | pack q db =>
    show Raises ((packedOps order getP).complete (D.pack q) db part).2 S
    simp only [packedOps]
    have hh := hexToBin_raises (if part.length % 2 ≠ 0 then part ++ [0x30] else part)
    rcases hx : hexToBin (if part.length % 2 ≠ 0 then part ++ [0x30] else part) with e | bin
    · exact hh.of hx (fun e h => hS e (by cases List.mem_singleton.mp h; decide))
    · simp only [PackedDB.partialToComplete]
      have h1 := packLoad_raises order (D.pack q) db
      rcases hy : db.load order (D.pack q) with ⟨db', e | l⟩
      · rw [hy] at h1
        exact fun e' he' => hS _ <| List.mem_append_left _ (h1 e' (by simpa using he'))
      · simp only
        have h2 := completeLoop_raises hS (dirFiles (D.pack q)) bin part.length (fun h => hv (by
          have := hexToBin_len _ _ hx
          split at this
          · rw [List.length_append, List.length_singleton] at this; omega
          · omega)) l none
        rcases hz : completeLoop (dirFiles (D.pack q)) bin part.length l none with ⟨l', e | (_ | (_ | ⟨b, f⟩))⟩
        · rw [hz] at h2
          exact fun e' he' => h2 e' (by simpa using he')
        · exact raises_error (hS _ (by decide))
        · exact raises_error (hS _ (by decide))
        · exact raises_ok _
  | loose q db => exact partialLoop_raises hS part _ none (shaIter_raises (D.looseAt q).2)

theorem completeDbs_raises {O : DbOps ω σ α} {w : ω} {part : Bytes} (h : ∀ s, Raises (O.complete w s part).2 S) :
    ∀ (l : List σ) (cand : Option Bytes), Raises (completeDbs O w part l cand).2 S
  | [], _ => raises_ok _
  | s :: l, cand => by
    have h1 := h s
    have ih := completeDbs_raises h l
    unfold completeDbs
    rcases hx : O.complete w s part with ⟨s', e | full⟩
    · rw [hx] at h1
      have := h1 e rfl
      cases e <;> first | exact ih cand | exact raises_error this
    · simp only
      split
      · exact ih cand
      · split
        · exact raises_error (hS _ (by decide))
        · exact ih (some full)

end

theorem collect_raises {orderT : List Text → List Text} (ho : orderT [] = []) {D : Disk}
    (hr : ∀ q e, D.alt q = some (.error e) → e ∈ [Err.osError, .fileNotFound, .permissionError, .unicodeError]) :
    ∀ (n : Nat) (t : GitNode n), Raises (liveCollect orderT n D t).2 hasErrors
  | 0, _ => raises_error (by decide)
  | n + 1, t => by
    have hl := gitLoad_raises D t
    unfold liveCollect
    rcases hx : GitState.load D t with ⟨g, e | l⟩
    · rw [hx] at hl
      exact fun e' he' => hl e' (by simpa using he')
    · refine map_raises (eachDb_raises ?_ l) _
      rintro (s | r)
      · exact raises_ok _
      · exact refUse_raises ho _ hr (fun _ h => h) (fun c => map_raises (eachDb_raises (fun d : Text × GitNode n =>
          collect_raises ho hr n d.2) _) _) r

/-- One step of a history: a call, or the completion of an abbreviation. -/
def anyStep (orderT : List Text → List Text) (L : DbOps Disk GitLeaf α) (n : Nat) (t : GitNode n) (e : Disk × (LiveCall ⊕ Bytes)) : GitNode n :=
  match e.2 with
  | .inl call => callStep (liveOps orderT L n) e.1 t call
  | .inr part => (liveComplete orderT L n e.1 t part).1

/-- **C96** a new `GitDB`, used in any way while the disk changes in any way (also exceptions that are caught), is asked to update its
caches: the only exceptions.  The removal of databases from a `ReferenceDB`, which deletes from the list by counting in a copy of it, never
goes wrong (`IndexError`), however the alternates files change. -/
theorem C96_refresh (order : List Bytes → List Bytes) {orderT : List Text → List Text} (ho : ∀ l, (orderT l).Perm l)
    (getP : Option PackDir → PackedDB → Bytes → PackedDB × Res α) (getL : Fs → Bytes → Res α) {D : Disk}
    (hr : ∀ q e, D.alt q = some (.error e) → e ∈ [Err.osError, .fileNotFound, .permissionError, .unicodeError])
    (n : Nat) (p : Text) (past : List (Disk × (LiveCall ⊕ Bytes))) (force : Bool) :
    let t := past.foldl (anyStep orderT (leafOps order getP getL) n) (freshNode n p)
    Raises ((liveOps orderT (leafOps order getP getL) n).update D t force).2
      [.fileNotFound, .structError, .parseError, .assertionError, .unicodeError, .invalidDBRoot, .diverge] := by
  intro t
  have h0 : NodeTidy n (freshNode n p) := by
    cases n with
    | zero => trivial
    | succ n => exact fun l hl => (nomatch (hl : (none : Option (List (GitLeaf ⊕ RefNode (GitNode n)))) = some l))
  have ht : ∀ (l : List (Disk × (LiveCall ⊕ Bytes))) (s : GitNode n), NodeTidy n s →
      NodeTidy n (l.foldl (anyStep orderT (leafOps order getP getL) n) s) := by
    intro l
    induction l with
    | nil => intro s h; exact h
    | cons e l ih =>
      intro s h
      refine ih _ ?_
      rcases e with ⟨D', call | part⟩
      · exact live_tidy ho _ D' n s call h
      · exact complete_tidy ho _ D' n s part h
  exact update_raises order ho getP getL hr force n t (ht past _ h0)

/-- **C96** `partial_to_complete_sha_hex` of a `GitDB` in any state on any disk: the only exceptions.  `ValueError` only for
abbreviations of less than three digits. -/
theorem C96_complete (order : List Bytes → List Bytes) {orderT : List Text → List Text} (ho : orderT [] = [])
    (getP : Option PackDir → PackedDB → Bytes → PackedDB × Res α) (getL : Fs → Bytes → Res α) {D : Disk}
    (hr : ∀ q e, D.alt q = some (.error e) → e ∈ [Err.osError, .fileNotFound, .permissionError, .unicodeError])
    (n : Nat) (t : GitNode n) (part : Bytes) :
    Raises (liveComplete orderT (leafOps order getP getL) n D t part).2
      ([.badObject, .ambiguousObjectName, .binasciiError, .indexError, .fileNotFound, .structError, .parseError,
        .assertionError, .unicodeError, .invalidDBRoot, .diverge] ++ if part.length < 3 then [.valueError] else []) := by
  generalize hS : ([.badObject, .ambiguousObjectName, .binasciiError, .indexError, .fileNotFound, .structError, .parseError,
        .assertionError, .unicodeError, .invalidDBRoot, .diverge] ++ if part.length < 3 then [.valueError] else [] : List Err) = S
  have h0 : ∀ e ∈ completeErrors, e ∈ S := by
    intro e he
    rw [← hS]
    exact List.mem_append_left _ (by revert e; decide)
  have hv : part.length < 3 → Err.valueError ∈ S := by
    intro h
    rw [← hS, if_pos h]
    simp
  have h1 := collect_raises ho hr n t
  unfold liveComplete
  rcases hl : liveCollect orderT n D t with ⟨t', e | leaves⟩
  · rw [hl] at h1
    exact fun e' he' => h0 _ <| List.mem_append_left _ (h1 e' (by simpa using he'))
  · simp only [completeHex]
    have hh := hexToBin_raises (if part.length % 2 ≠ 0 then part ++ [0x30] else part)
    rcases hx : hexToBin (if part.length % 2 ≠ 0 then part ++ [0x30] else part) with e | b
    · exact hh.of hx (fun e h => h0 e (by cases List.mem_singleton.mp h; decide))
    · simp only
      have h2 := completeDbs_raises h0 (O := leafOps order getP getL) (w := D) (part := part)
        (fun s => leafComplete_raises h0 order getP getL D s part hv) leaves none
      rcases hy : (completeDbs (leafOps order getP getL) D part leaves none).2 with e | (_ | (_ | ⟨b, f⟩))
      · exact h2.of hy (fun _ h => h)
      · exact raises_error (h0 _ (by decide))
      · exact raises_error (h0 _ (by decide))
      · exact raises_ok _

/-! ## Examples -/

/-- The alternate and the packs are gone; the alternates are not UTF-8 any more; an empty pack has appeared; the alternate is the repository
itself now. -/
example (getL : Fs → Bytes → Res OStream) :
    let L := leafOps id (fun d db sha => db.stream 5 id d sha) getL
    let O := liveOps id L 2
    let t := [(liveDisk ⟨1, []⟩ (rootB ++ ['\n']), Sum.inl (LiveCall.read (.has [7]))), (liveDisk ⟨1, []⟩ (rootB ++ ['\n']), .inr [0x30])].foldl
      (anyStep id L 2) (freshNode 2 rootA)
    (O.update (liveDisk ⟨2, []⟩ []) t false).2 = .ok (some true) ∧
    (O.has (liveDisk ⟨2, []⟩ []) (O.update (liveDisk ⟨2, []⟩ []) t false).1 [7]).2 = .ok false ∧
    (O.update bareDisk t false).2 = .error .fileNotFound ∧
    (O.update { liveDisk ⟨2, []⟩ [] with alt := fun _ => some (.error .unicodeError) } t false).2 = .error .unicodeError ∧
    (O.update (liveDisk ⟨2, [(nameA, [])]⟩ []) t false).2 = .error .structError ∧
    (O.update (liveDisk ⟨2, [(nameA, List.replicate 12 0)]⟩ []) t false).2 = .error .parseError ∧
    (O.update (liveDisk ⟨2, []⟩ (rootA ++ ['\n'])) t false).2 = .error .diverge ∧
    (O.update bareDisk (freshNode 2 ['x']) false).2 = .error .invalidDBRoot := by
  intro L O t
  exact ⟨rfl, rfl, rfl, rfl, rfl, rfl, rfl, rfl⟩

/-- The removal would go wrong for a list with a path in it twice. -/
example : (updateRefs id (fun _ => some ()) (.ok []) [(rootA, ()), (rootB, ()), (rootB, ())]).2 = .error .indexError := rfl

/-- An index that ends after two bytes of the only name, which is not where its first byte says. -/
example : IndexFile.partialShaToIndex ⟨List.replicate 1032 0 ++ [1, 2], 2, List.replicate 255 0 ++ [1], 0, 0, 0⟩ [1, 2, 0x30] 5 =
    .error .indexError := by decide +kernel

/-- No such object; not a number; two digits in a repository with a pack. -/
example (getL : Fs → Bytes → Res OStream) :
    let L := leafOps id (fun d db sha => db.stream 5 id d sha) getL
    (liveComplete id L 2 bareDisk (freshNode 2 rootA) [0x30]).2 = .error .badObject ∧
    (liveComplete id L 2 bareDisk (freshNode 2 rootA) [0x7a, 0x7a]).2 = .error .binasciiError ∧
    (liveComplete id L 2 (liveDisk (oddDir []) []) (freshNode 2 rootA) [0x30, 0x30]).2 = .error .valueError ∧
    (liveComplete id L 2 (liveDisk (oddDir [0xff, 0x74, 0x4f, 0x63]) []) (freshNode 2 rootA) [0x30, 0x30, 0x30]).2 = .error .structError ∧
    (liveComplete id L 2 (liveDisk ⟨5, []⟩ (rootA ++ ['\n'])) (freshNode 2 rootA) [0x30]).2 = .error .diverge := by
  intro L
  exact ⟨rfl, rfl, rfl, rfl, rfl⟩

end GitDB.Props
