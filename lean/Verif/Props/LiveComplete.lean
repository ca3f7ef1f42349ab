import Verif.Model.LiveComplete
import Verif.Props.LiveRead
import Verif.Props.Details
/-!
# C86: abbreviations in a `GitDB` with alternates
-/
set_option autoImplicit false

namespace GitDB.Props
open GitDB Spec

variable {ω σ τ α β γ : Type}

/-! ## Specification -/

/-- The text is spelled by these digits, in lower case. -/
def Spells (part : Bytes) (digits : List Nat) : Prop := part.map some = digits.map (hexAscii[·]?)

/-- `x` is, in the index of a pack of the directory, the first name that begins with the digits. -/
def PackLead (d : PackDir) (digits : List Nat) (x : Bytes) : Prop :=
  ∃ p ∈ d.files.map Prod.fst, IsPackName p ∧ ∃ i ns, d.get (idxName p) = some i ∧ IsIndex i ns ∧
    ns.find? (fun n => decide (HasDigits digits n)) = some x

/-- The names that count in the repository at `q`, alternates not counted: the first match in the index of each pack, and all matches
among loose objects. -/
def SiteLead (D : Disk) (digits : List Nat) (q : Text) (x : Bytes) : Prop :=
  (∃ d, D.pack q = some d ∧ PackLead d digits x) ∨ (LooseThere D q x ∧ x.length = 20 ∧ HasDigits digits x)

/-- Object directories with the usual layout; the objects are files. -/
structure LooseFine (D : Disk) : Prop where
  walk : ∀ q w, D.loose q = some w → ∃ base walk, w.2 = seen base walk ∧ IsWalk w.1 walk ∧ ObjectLayout base w.1
  files : ∀ q w x, D.loose q = some w → x.length = 20 → (w.1 (objectPath (binToHex x))).isSome = true → Contains w.1 x

/-- No index of a pack lists a name twice. -/
def NamesOnce (D : Disk) : Prop :=
  ∀ q d p i ns, D.pack q = some d → p ∈ d.files.map Prod.fst → IsPackName p → d.get (idxName p) = some i → IsIndex i ns → ns.Nodup

/-- Calls that do not refresh. -/
inductive LookUp where
  | read (op : DbOp)
  | complete (part : Bytes)

/-- The database after such a call. -/
def lookUp (orderT : List Text → List Text) (L : DbOps Disk GitLeaf α) (n : Nat) (D : Disk) (t : GitNode n) : LookUp → GitNode n
  | .read op => dbStep (liveOps orderT L n) D t op
  | .complete part => (liveComplete orderT L n D t part).1

/-! ## Lists -/

theorem putBackList_all2 {put : τ → List β → τ × List β} {lv : τ → List β} {Rel : β → β → Prop} {R : τ → τ → Prop} :
    ∀ (ds : List τ) (l rest : List β), (∀ d ∈ ds, ∀ l rest, All2 Rel (lv d) l → (put d (l ++ rest)).2 = rest ∧ R d (put d (l ++ rest)).1) →
      All2 Rel (ds.flatMap lv) l → (putBackList put (fun _ => true) ds (l ++ rest)).2 = rest ∧
        All2 R ds (putBackList put (fun _ => true) ds (l ++ rest)).1
  | [], l, rest, _, h => by cases h; exact ⟨rfl, .nil⟩
  | d :: ds, l, rest, hput, h => by
    rw [List.flatMap_cons] at h
    obtain ⟨l1, l2, rfl, h1, h2⟩ : ∃ l1 l2, l = l1 ++ l2 ∧ All2 Rel (lv d) l1 ∧ All2 Rel (ds.flatMap lv) l2 := by
      generalize lv d = a at h
      generalize ds.flatMap lv = b at h
      induction a generalizing l with
      | nil => exact ⟨[], l, rfl, .nil, h⟩
      | cons x a ih =>
        cases h with
        | @cons _ y _ l' hxy t =>
          obtain ⟨l1, l2, rfl, h1, h2⟩ := ih l' t
          exact ⟨y :: l1, l2, rfl, .cons hxy h1, h2⟩
    obtain ⟨p1, p2⟩ := hput d (by simp) l1 (l2 ++ rest) h1
    obtain ⟨q1, q2⟩ := putBackList_all2 ds l2 rest (fun d hd => hput d (by simp [hd])) h2
    unfold putBackList
    rw [if_pos rfl, List.append_assoc]
    simp only [p1]
    exact ⟨q1, .cons p2 q2⟩

theorem all2_append_split {Rel : β → β → Prop} : ∀ (a b l : List β), All2 Rel (a ++ b) l →
    ∃ l1 l2, l = l1 ++ l2 ∧ All2 Rel a l1 ∧ All2 Rel b l2
  | [], b, l, h => ⟨[], l, rfl, .nil, h⟩
  | x :: a, b, l, h => by
    cases h with
    | @cons _ y _ l' hxy t =>
      obtain ⟨l1, l2, rfl, h1, h2⟩ := all2_append_split a b l' t
      exact ⟨y :: l1, l2, rfl, .cons hxy h1, h2⟩

/-! ## The shape of a repository -/

/-- `root_path()`. -/
def rootOf : (n : Nat) → GitNode n → Text
  | 0, p => p
  | _ + 1, t => GitState.root t

/-- The part refers to the alternates there are, to each once, and `F` is true of them. -/
def PartFull (D : Disk) (p : Text) (root : σ → Text) (F : σ → Prop) : GitLeaf ⊕ RefNode σ → Prop
  | .inl _ => True
  | .inr r => ∃ l, r.db.dbs = some l ∧ ((l.map fun y => root y.2).Nodup ∧ ∀ q, (∃ y ∈ l, root y.2 = q) ↔ Alt D p q) ∧ ∀ y ∈ l, F y.2

/-- Everything has been loaded, and is as on the disk. -/
def LiveFull (D : Disk) : (n : Nat) → GitNode n → Prop
  | 0, _ => False
  | n + 1, t => ∃ l, GitState.dbs t = some l ∧ l.map partSite = (gitDbs D (GitState.root t)).1.map (fun b => some (b, GitState.root t)) ∧
      ∀ x ∈ l, PartFull D (GitState.root t) (rootOf n) (LiveFull D n) x

/-- The databases at the ends below a part, apart from itself. -/
def refEnds (f : σ → List GitLeaf) : GitLeaf ⊕ RefNode σ → List GitLeaf
  | .inl _ => []
  | .inr r => (r.db.dbs.getD []).flatMap fun y => f y.2

/-- The databases at the ends, in the order of `_databases_recursive`. -/
def liveEnds : (n : Nat) → GitNode n → List GitLeaf
  | 0, _ => []
  | n + 1, t => ((GitState.dbs t).getD []).flatMap partLeaf ++ ((GitState.dbs t).getD []).flatMap (refEnds (liveEnds n))

theorem eachDb_same {f : σ → σ × Res β} {g : σ → β} : ∀ (l : List σ), (∀ s ∈ l, f s = (s, .ok (g s))) → eachDb f l = (l, .ok (l.map g))
  | [], _ => rfl
  | s :: l, h => by
    unfold eachDb
    rw [h s (by simp)]
    simp only
    rw [eachDb_same l fun t ht => h t (by simp [ht])]
    rfl

/-- Collecting changes nothing when everything is loaded. -/
theorem collect_full (orderT : List Text → List Text) {D : Disk} : ∀ (n : Nat) (t : GitNode n), LiveFull D n t →
    liveCollect orderT n D t = (t, .ok (liveEnds n t))
  | 0, _, h => h.elim
  | n + 1, t, ⟨l, h1, _, h3⟩ => by
    have ih := collect_full orderT (D := D) n
    have hload : GitState.load D t = (t, .ok l) := by unfold GitState.load; rw [h1]; rfl
    unfold liveCollect
    rw [hload]
    simp only
    rw [eachDb_same (g := refEnds (liveEnds n)) l ?_]
    · unfold liveEnds
      rw [h1]
      simp only [Except.map, Option.getD_some, List.flatMap_def]
      congr 1
      rw [← h1]
      rfl
    · rintro (s | r) hx
      · rfl
      · obtain ⟨m, k1, -, k3⟩ := h3 _ hx
        simp only
        rw [refUse_loaded k1]
        simp only
        rw [eachDb_same (g := fun y => liveEnds n y.2) m fun y hy => by rw [ih y.2 (k3 y hy)]]
        simp only [refEnds, k1, Option.getD_some, List.flatMap_def, Except.map]
        congr 2
        rcases r with ⟨r, ⟨d, c⟩⟩
        simp only at k1 ⊢
        rw [k1]

theorem alt_ref {D : Disk} {p q : Text} (h : Alt D p q) : Sub.ref ∈ (gitDbs D p).1 := by
  obtain ⟨t, ps, h, -⟩ := h
  have e : (gitDbs D p).1 = (if (D.pack p).isSome then [Sub.pack] else []) ++ (if (D.loose p).isSome then [.loose] else []) ++
      (if (D.alt p).isSome then [.ref] else []) := by
    unfold gitDbs
    simp only
    generalize ((if (D.pack p).isSome = true then [Sub.pack] else []) ++ (if (D.loose p).isSome = true then [.loose] else []) ++
      (if (D.alt p).isSome = true then [.ref] else [])) = L
    split
    · rfl
    · split <;> rfl
  rw [e, h]
  simp

/-- Which databases there are at the ends. -/
theorem ends_full {D : Disk} : ∀ (n : Nat) (t : GitNode n), LiveFull D n t → ∀ b q,
    (∃ s ∈ liveEnds n t, partSite (σ := Unit) (.inl s) = some (b, q)) ↔ AltReach D (rootOf n t) q ∧ b ∈ (gitDbs D q).1 ∧ b ≠ .ref
  | 0, _, h, _, _ => h.elim
  | n + 1, t, ⟨l, h1, h2, h3⟩, b, q => by
    have ih := ends_full (D := D) n
    have e : liveEnds (n + 1) t = l.flatMap partLeaf ++ l.flatMap (refEnds (liveEnds n)) := by
      unfold liveEnds; rw [h1]; rfl
    have hps : ∀ s : GitLeaf, partSite (σ := Unit) (.inl s) = partSite (σ := GitNode n) (.inl s) := by intro s; cases s <;> rfl
    have hnr : ∀ s : GitLeaf, ∀ q, partSite (σ := GitNode n) (.inl s) ≠ some (.ref, q) := by intro s q; cases s <;> simp [partSite]
    rw [e]
    show _ ↔ AltReach D (GitState.root t) q ∧ _
    generalize GitState.root t = p at h2 h3
    constructor
    · rintro ⟨s, hs, hb⟩
      rw [hps] at hb
      rcases List.mem_append.mp hs with hs | hs
      · obtain ⟨x, hx, hs⟩ := List.mem_flatMap.mp hs
        cases x with
        | inr r => cases hs
        | inl s' =>
          obtain rfl := List.mem_singleton.mp hs
          have : partSite (σ := GitNode n) (.inl s) ∈ (gitDbs D p).1.map (fun b => some (b, p)) := h2 ▸ List.mem_map_of_mem hx
          rw [hb] at this
          obtain ⟨b', hb', e⟩ := List.mem_map.mp this
          cases e
          exact ⟨.refl _, hb', fun h => hnr s _ (h ▸ hb)⟩
      · obtain ⟨x, hx, hs⟩ := List.mem_flatMap.mp hs
        cases x with
        | inl s' => cases hs
        | inr r =>
          obtain ⟨m, k1, k2, k3⟩ := h3 _ hx
          simp only [refEnds, k1, Option.getD_some] at hs
          obtain ⟨y, hy, hs⟩ := List.mem_flatMap.mp hs
          obtain ⟨g1, g2⟩ := (ih y.2 (k3 y hy) b q).mp ⟨s, hs, by rw [hps]; exact hb⟩
          exact ⟨.step ((k2.2 _).mp ⟨y, hy, rfl⟩) g1, g2⟩
    · rintro ⟨hr, hb, hne⟩
      cases hr with
      | refl =>
        have : some (b, q) ∈ l.map partSite := h2 ▸ List.mem_map_of_mem (f := fun b => some (b, q)) hb
        obtain ⟨x, hx, e⟩ := List.mem_map.mp this
        cases x with
        | inr r => cases e; exact absurd rfl hne
        | inl s => exact ⟨s, List.mem_append_left _ (List.mem_flatMap.mpr ⟨_, hx, List.mem_singleton.mpr rfl⟩), by rw [hps]; exact e⟩
      | @step _ q' _ hq hr =>
        have hbr : Sub.ref ∈ (gitDbs D p).1 := alt_ref hq
        have : some (Sub.ref, p) ∈ l.map partSite := h2 ▸ List.mem_map_of_mem (f := fun b => some (b, p)) hbr
        obtain ⟨x, hx, e⟩ := List.mem_map.mp this
        cases x with
        | inl s => exact absurd e (hnr s p)
        | inr r =>
          obtain ⟨m, k1, k2, k3⟩ := h3 _ hx
          obtain ⟨y, hy, hy'⟩ := (k2.2 q').mpr hq
          subst hy'
          obtain ⟨s, hs, hb'⟩ := (ih y.2 (k3 y hy) b q).mpr ⟨hr, hb, hne⟩
          exact ⟨s, List.mem_append_right _ (List.mem_flatMap.mpr ⟨_, hx, by
            simp only [refEnds, k1, Option.getD_some]; exact List.mem_flatMap.mpr ⟨y, hy, hs⟩⟩), hb'⟩

/-! ## Reads keep the shape -/

section rel
variable {R : σ → σ → Prop} (hr : ∀ s, R s s)
include hr

/-- As `compound_rel`, for reads. -/
theorem read_rel (ht : ∀ a b c, R a b → R b c → R a c) {O : DbOps ω σ α} {w : ω} (h : ∀ s op, R s (dbStep O w s op))
    (c : Compound σ) (op : DbOp) : All2 R c.dbs (dbStep (compoundOps O) w c op).dbs := by
  cases op with
  | has sha =>
    have : dbStep (compoundOps O) w c (.has sha) = (c.query O w sha).1 := compoundHas_fst O w c sha
    rw [this]
    exact query_rel hr sha (fun s => h s (.has sha)) c
  | get sha =>
    have h1 := query_rel hr sha (fun s => h s (.has sha)) c
    show All2 R c.dbs (c.get O w sha).1.dbs
    unfold Compound.get
    rcases hq : c.query O w sha with ⟨c', e | i⟩
    · rw [hq] at h1; exact h1
    · rw [hq] at h1
      exact all2_trans ht h1 (onDb_rel hr (f := fun s => O.get w s sha) (fun s => h s (.get sha)) c'.dbs i)
  | size => exact eachDb_rel hr (f := O.size w) (fun s => h s .size) c.dbs
  | shas => exact eachDb_rel hr (f := O.shas w) (fun s => h s .shas) c.dbs
end rel

/-- As `compound_inv`, for reads. -/
theorem read_inv {O : DbOps ω σ α} {w : ω} {I : σ → Prop} {g : σ → β}
    (h : ∀ s op, I s → g (dbStep O w s op) = g s ∧ I (dbStep O w s op)) (c : Compound σ) (op : DbOp) (hc : ∀ s ∈ c.dbs, I s) :
    (dbStep (compoundOps O) w c op).dbs.map g = c.dbs.map g ∧ ∀ s ∈ (dbStep (compoundOps O) w c op).dbs, I s := by
  have h1 := read_rel (R := fun s s' => I s → g s' = g s ∧ I s') (fun s hs => ⟨rfl, hs⟩)
    (fun a b c h1 h2 ha => ⟨(h2 (h1 ha).2).1.trans (h1 ha).1, (h2 (h1 ha).2).2⟩) (O := O) (w := w) h c op
  generalize (dbStep (compoundOps O) w c op).dbs = l at h1
  generalize c.dbs = l0 at h1 hc
  induction h1 with
  | nil => exact ⟨rfl, by simp⟩
  | cons h3 _ ih =>
    have h4 := h3 (hc _ (by simp))
    have h5 := ih fun s hs => hc s (by simp [hs])
    exact ⟨by simp only [List.map_cons, h4.1, h5.1], List.forall_mem_cons.mpr ⟨h4.2, h5.2⟩⟩

theorem roots_map {D : Disk} {p : Text} {root : σ → Text} {l l' : Refs σ} (e : l'.map (fun y => root y.2) = l.map (fun y => root y.2))
    (h : (l.map fun y => root y.2).Nodup ∧ ∀ q, (∃ y ∈ l, root y.2 = q) ↔ Alt D p q) :
    (l'.map fun y => root y.2).Nodup ∧ ∀ q, (∃ y ∈ l', root y.2 = q) ↔ Alt D p q := by
  refine ⟨e ▸ h.1, fun q => ?_⟩
  rw [← h.2 q]
  have : q ∈ l'.map (fun y => root y.2) ↔ q ∈ l.map (fun y => root y.2) := by rw [e]
  simpa only [List.mem_map] using this

theorem full_step {L : DbOps Disk GitLeaf α} {orderT : List Text → List Text} {D : Disk}
    (hL : ∀ s op, leafSite (dbStep L D s op) = leafSite s) : ∀ (n : Nat) (t : GitNode n) (op : DbOp), LiveFull D n t →
      rootOf n (dbStep (liveOps orderT L n) D t op) = rootOf n t ∧ LiveFull D n (dbStep (liveOps orderT L n) D t op)
  | 0, _, _, h => h.elim
  | n + 1, t, op, ⟨l, h1, h2, h3⟩ => by
    have ih := full_step (orderT := orderT) hL n
    have step : (dbStep (liveOps orderT L (n + 1)) D t op : GitState (GitNode n)) = ⟨GitState.root t,
          some (dbStep (compoundOps (sumOps L (refOps orderT (newNode n) (liveOps orderT L n)))) D ⟨l, GitState.cache t⟩ op).dbs,
          (dbStep (compoundOps (sumOps L (refOps orderT (newNode n) (liveOps orderT L n)))) D ⟨l, GitState.cache t⟩ op).cache⟩ := by
      have h1 : GitState.dbs t = some l := h1
      cases op <;> simp only [dbStep, liveOps, stateOps, stateUse_loaded h1, compoundOps]
    have hpart : ∀ (x : GitLeaf ⊕ RefNode (GitNode n)) (op : DbOp), PartFull D (GitState.root t) (rootOf n) (LiveFull D n) x →
        partSite (dbStep (sumOps L (refOps orderT (newNode n) (liveOps orderT L n))) D x op) = partSite x ∧
        PartFull D (GitState.root t) (rootOf n) (LiveFull D n) (dbStep (sumOps L (refOps orderT (newNode n) (liveOps orderT L n))) D x op) := by
      rintro (s | r) op hx
      · have e : dbStep (sumOps L (refOps orderT (newNode n) (liveOps orderT L n))) D (.inl s) op = .inl (dbStep L D s op) := by
          cases op <;> rfl
        rw [e]
        have h1 := hL s op
        refine ⟨?_, trivial⟩
        generalize dbStep L D s op = s' at h1
        cases s <;> cases s' <;> simp_all [leafSite, partSite]
      · obtain ⟨m, k1, k2, k3⟩ := hx
        have e : dbStep (sumOps L (refOps orderT (newNode n) (liveOps orderT L n))) D (.inr r) op =
            .inr ⟨r.root, ⟨some (dbStep (compoundOps (pairOps (liveOps orderT L n))) D ⟨m, r.db.cache⟩ op).dbs,
              (dbStep (compoundOps (pairOps (liveOps orderT L n))) D ⟨m, r.db.cache⟩ op).cache⟩⟩ := by
          cases op <;> simp only [dbStep, sumOps, refOps, refUse_loaded k1, compoundOps]
        rw [e]
        obtain ⟨g1, g2⟩ := read_inv (O := pairOps (liveOps orderT L n)) (w := D) (g := fun y => rootOf n y.2) (I := fun y => LiveFull D n y.2)
          (fun y op hy => by
            have := ih y.2 op hy
            cases op <;> exact this) ⟨m, r.db.cache⟩ op k3
        exact ⟨rfl, _, rfl, roots_map g1 k2, g2⟩
    obtain ⟨g1, g2⟩ := read_inv (O := sumOps L (refOps orderT (newNode n) (liveOps orderT L n))) (w := D) (g := partSite)
      (fun x op hx => hpart x op hx) ⟨l, GitState.cache t⟩ op h3
    have fin : ∀ T : GitState (GitNode n), T = ⟨GitState.root t,
          some (dbStep (compoundOps (sumOps L (refOps orderT (newNode n) (liveOps orderT L n)))) D ⟨l, GitState.cache t⟩ op).dbs,
          (dbStep (compoundOps (sumOps L (refOps orderT (newNode n) (liveOps orderT L n)))) D ⟨l, GitState.cache t⟩ op).cache⟩ →
        rootOf (n + 1) T = rootOf (n + 1) t ∧ LiveFull D (n + 1) T := by
      rintro T rfl
      exact ⟨rfl, _, rfl, g1.trans h2, g2⟩
    exact fin _ step

/-! ## Refreshing gives the shape -/

theorem eachDb_done {f : σ → σ × Res β} : ∀ (l : List σ) (ys : List β), (eachDb f l).2 = .ok ys → (eachDb f l).1 = l.map fun s => (f s).1
  | [], _, _ => rfl
  | s :: l, ys, h => by
    have ih := eachDb_done (f := f) l
    unfold eachDb at h ⊢
    rcases hs : f s with ⟨s', e | y⟩
    · rw [hs] at h; cases h
    · rw [hs] at h
      simp only at h ⊢
      rcases hl : eachDb f l with ⟨l', e | zs⟩
      · rw [hl] at h; cases h
      · rw [hl] at ih
        have := ih zs rfl
        simp only at this ⊢
        rw [this, List.map_cons, hs]

theorem update_done {O : DbOps ω σ α} {w : ω} {c : Compound σ} {force : Bool} {b : Option Bool} (h : (c.update O w force).2 = .ok b) :
    (c.update O w force).1.dbs = c.dbs.map fun s => (O.update w s force).1 := by
  unfold Compound.update at h ⊢
  rcases hq : eachDb (fun s => O.update w s force) c.dbs with ⟨l, e | ys⟩
  · rw [hq] at h; cases h
  · have := eachDb_done (f := fun s => O.update w s force) c.dbs ys (by rw [hq])
    rw [hq] at this
    simp only [hq]
    exact this

theorem node_full (zl : Zlib) (fuel : Nat) {order : List Bytes → List Bytes} (ho : ∀ l, (order l).Perm l)
    {orderT : List Text → List Text} (hoT : ∀ l, (orderT l).Perm l) (getL : Fs → Bytes → Res OStream) {D : Disk}
    (hg : ∀ q d, D.pack q = some d → GoodDir d) (hr : Readable D) {rank : Text → Nat} (hrank : ∀ p q, Alt D p q → rank q < rank p) :
    ∀ (n : Nat) (p : Text) (t : GitNode n), rank p < n → (D.loose p).isSome = true → NodeInv D n p t →
      let r := (liveOps orderT (leafOps order (fun d db sha => db.stream fuel order d sha) getL) n).update D t true
      rootOf n r.1 = p ∧ LiveFull D n r.1
  | 0, _, _, h, _, _ => absurd h (Nat.not_lt_zero _)
  | n + 1, p, t, hn, hl, h => by
    have ih := node_full zl fuel ho hoT getL hg hr hrank n
    have hbb := before_refl hg
    have hinv : NodeInv D (n + 1) p ((liveOps orderT (leafOps order (fun d db sha => db.stream fuel order d sha) getL) (n + 1)).update D t true).1 :=
      nodeInv_call hoT hbb (fun s call hs => ⟨leafSite_call s call, leafInv_call zl fuel ho getL hbb s call hs⟩) (n + 1) p t (.update true) h
    obtain ⟨⟨b, hb⟩, -, -⟩ := node_refreshed fuel ho hoT getL hg hr hrank (S := fun _ => True) (fun _ _ _ _ => trivial) (n + 1) p t hn trivial hl h
    obtain ⟨g1, g2⟩ := gitLoad_inv hbb h
    intro r
    have huse : r = GitState.use D (fun c => c.update (sumOps (leafOps order (fun d db sha => db.stream fuel order d sha) getL)
          (refOps orderT (newNode n) (liveOps orderT (leafOps order (fun d db sha => db.stream fuel order d sha) getL) n))) D true) t := rfl
    have hb : r.2 = .ok (some b) := hb
    have hinv : NodeInv D (n + 1) p r.1 := hinv
    clear_value r
    unfold GitState.use at huse
    rcases hq : GitState.load D t with ⟨g, e | l⟩
    · rw [hq] at huse
      rw [huse] at hb
      cases hb
    · rw [hq] at huse g1 g2
      simp only at huse
      obtain ⟨k1, k2⟩ := g1.2 l (g2 l rfl)
      have hsite : ∀ x ∈ l, ∃ b ∈ (gitDbs D p).1, partSite x = some (b, p) := by
        intro x hx
        have : partSite x ∈ (gitDbs D p).1.map (fun b => some (b, p)) := k1 ▸ List.mem_map_of_mem hx
        obtain ⟨b, hb, e⟩ := List.mem_map.mp this
        exact ⟨b, hb, e.symm⟩
      have hres : ((Compound.update (sumOps (leafOps order (fun d db sha => db.stream fuel order d sha) getL)
          (refOps orderT (newNode n) (liveOps orderT (leafOps order (fun d db sha => db.stream fuel order d sha) getL) n))) D
          ⟨l, g.cache⟩ true).2) = .ok (some b) := by rw [huse] at hb; exact hb
      have hdbs := update_done hres
      have hpinv : ∀ x ∈ l, PartInv D (NodeInv D n) ((sumOps (leafOps order (fun d db sha => db.stream fuel order d sha) getL)
          (refOps orderT (newNode n) (liveOps orderT (leafOps order (fun d db sha => db.stream fuel order d sha) getL) n))).update D x true).1 := by
        intro x hx
        rw [huse] at hinv
        refine (hinv.2 _ rfl).2 _ ?_
        show _ ∈ (Compound.update (sumOps (leafOps order (fun d db sha => db.stream fuel order d sha) getL)
          (refOps orderT (newNode n) (liveOps orderT (leafOps order (fun d db sha => db.stream fuel order d sha) getL) n))) D
          ⟨l, g.cache⟩ true).1.dbs
        rw [hdbs]
        exact List.mem_map_of_mem hx
      have hpart : ∀ x ∈ l, PartFull D p (rootOf n) (LiveFull D n) ((sumOps (leafOps order (fun d db sha => db.stream fuel order d sha) getL)
          (refOps orderT (newNode n) (liveOps orderT (leafOps order (fun d db sha => db.stream fuel order d sha) getL) n))).update D x true).1 := by
        rintro (s | x) hx
        · trivial
        · obtain ⟨b, hb, hs⟩ := hsite _ hx
          cases hs
          have ha : (D.alt x.root).isSome = true := (gitDbs_why _ _ hb).2 rfl
          have key : ∀ q0 : Text, _ := fun q0 => ref_refreshed (K := LeafSeen order (fun _ => True)) (order := order) hoT hr
            (O := liveOps orderT (leafOps order (fun d db sha => db.stream fuel order d sha) getL) n)
            (Ok := fun D s => LiveFull D n s) (C := fun _ s _ => rootOf n s = q0) (I := NodeInv D n)
            (mk := newNode n) (fun q t ht => newNode_spec hbb n q t ht) (fun q hq => newNode_some hq) (p := x.root)
            (W := fun q _ => q = q0)
            (fun q s hq hs => by
              obtain ⟨txt, paths, c1, c2, c3, c4⟩ := id hq
              have hlt : rank q < n := by have := hrank _ _ hq; omega
              obtain ⟨⟨b, b1⟩, -, -⟩ := node_refreshed fuel ho hoT getL hg hr hrank (S := fun _ => True) (fun _ _ _ _ => trivial) n q s hlt
                trivial c4 hs
              obtain ⟨d1, d2⟩ := ih q s hlt c4 hs
              exact ⟨⟨_, b1⟩, d2, fun _ => by rw [d1]⟩) rfl ha (k2 _ hx)
          obtain ⟨-, ⟨m, e1, e2⟩, -⟩ := key []
          have hnd : (m.map fun y => rootOf n y.2).Nodup := by
            obtain ⟨c1, c2⟩ := hpinv _ hx m e1
            have : m.map (fun y => rootOf n y.2) = m.map Prod.fst := by
              refine List.map_congr_left fun y hy => ?_
              have f1 := (c2 y hy).2
              have f2 := e2.1 y hy
              cases n with
              | zero => exact f2.elim
              | succ n => exact f1.1
            rw [this]
            exact c1
          refine ⟨m, e1, ⟨hnd, fun q0 => ?_⟩, e2.1⟩
          obtain ⟨-, -, e3⟩ := key q0
          refine Iff.trans ⟨fun hy => ?_, fun hy => ?_⟩ ((e3 []).trans ⟨fun ⟨q, hq, e⟩ => e ▸ hq, fun hq => ⟨q0, hq, rfl⟩⟩)
          · exact ⟨m, e1, hy⟩
          · obtain ⟨m', e1', hy⟩ := hy
            rw [e1] at e1'
            cases e1'
            exact hy
      rw [huse] at hinv ⊢
      refine ⟨hinv.1, _, rfl, ?_, ?_⟩
      · have hroot : g.root = p := hinv.1
        obtain ⟨d1, -⟩ := hinv.2 _ rfl
        show _ = (gitDbs D g.root).1.map (fun b => some (b, g.root))
        rw [hroot]
        exact d1
      · have hroot : g.root = p := hinv.1
        show ∀ x ∈ _, PartFull D g.root _ _ x
        rw [hroot]
        intro x hx
        have hx : x ∈ (Compound.update (sumOps (leafOps order (fun d db sha => db.stream fuel order d sha) getL)
          (refOps orderT (newNode n) (liveOps orderT (leafOps order (fun d db sha => db.stream fuel order d sha) getL) n))) D
          ⟨l, g.cache⟩ true).1.dbs := hx
        rw [hdbs] at hx
        obtain ⟨x0, hx0, rfl⟩ := List.mem_map.mp hx
        exact hpart x0 hx0

/-! ## Putting back -/

/-- What becomes of a database at an end: the same, in a good state. -/
def EndSame (K : Disk → GitLeaf → Prop) (order : List Bytes → List Bytes) (D : Disk) (s s' : GitLeaf) : Prop :=
  K D s' ∧ (∀ sha, LeafHas order D s' sha ↔ LeafHas order D s sha) ∧ leafSite s' = leafSite s

/-- What becomes of a repository: the same, in a good state. -/
def NodeSame (K : Disk → GitLeaf → Prop) (order : List Bytes → List Bytes) (D : Disk) (n : Nat) (t t' : GitNode n) : Prop :=
  LiveOk K order n D t' ∧ LiveFull D n t' ∧ (∀ sha, LiveHas order n D t' sha ↔ LiveHas order n D t sha) ∧ rootOf n t' = rootOf n t

theorem sites_leaf {s s' : GitLeaf} (h : leafSite s' = leafSite s) : partSite (σ := σ) (.inl s') = partSite (σ := σ) (.inl s) := by
  cases s <;> cases s' <;> simp_all [leafSite, partSite]

theorem all2_map_eq {R : σ → σ → Prop} {g : σ → β} (h : ∀ a b, R a b → g b = g a) {l l' : List σ} (hl : All2 R l l') : l'.map g = l.map g := by
  induction hl with
  | nil => rfl
  | cons h1 _ ih => rw [List.map_cons, List.map_cons, h _ _ h1, ih]

theorem all2_right {R : σ → σ → Prop} {P : σ → Prop} (h : ∀ a b, R a b → P b) {l l' : List σ} (hl : All2 R l l') : ∀ x ∈ l', P x := by
  induction hl with
  | nil => simp
  | cons h1 _ ih => exact List.forall_mem_cons.mpr ⟨h _ _ h1, ih⟩

theorem all2_origin {R : σ → σ → Prop} {l l' : List σ} (hl : All2 R l l') : ∀ x' ∈ l', ∃ x ∈ l, R x x' := by
  induction hl with
  | nil => simp
  | cons h1 _ ih =>
    refine List.forall_mem_cons.mpr ⟨⟨_, by simp, h1⟩, fun x' hx' => ?_⟩
    obtain ⟨x, hx, h⟩ := ih x' hx'
    exact ⟨x, by simp [hx], h⟩

theorem all2_mem {R : σ → σ → Prop} {l l' : List σ} (hl : All2 R l l') : All2 (fun a b => a ∈ l ∧ R a b) l l' := by
  suffices ∀ m : List σ, (∀ x ∈ l, x ∈ m) → All2 (fun a b => a ∈ m ∧ R a b) l l' from this l fun _ h => h
  intro m hm
  induction hl with
  | nil => exact .nil
  | cons h1 _ ih => exact .cons ⟨hm _ (by simp), h1⟩ (ih fun x hx => hm x (by simp [hx]))

theorem all2_imp {R R' : σ → σ → Prop} (h : ∀ a b, R a b → R' a b) {l l' : List σ} (hl : All2 R l l') : All2 R' l l' := by
  induction hl with
  | nil => exact .nil
  | cons h1 _ ih => exact .cons (h _ _ h1) ih

theorem all2_comp {R R' R'' : σ → σ → Prop} (h : ∀ a b c, R a b → R' b c → R'' a c) {l l' l'' : List σ} (h1 : All2 R l l')
    (h2 : All2 R' l' l'') : All2 R'' l l'' := by
  induction h1 generalizing l'' with
  | nil => cases h2; exact .nil
  | cons h3 _ ih =>
    cases h2 with
    | cons h4 t => exact .cons (h _ _ _ h3 h4) (ih t)

/-- What becomes of a part. -/
def PartSame (K : Disk → GitLeaf → Prop) (order : List Bytes → List Bytes) (D : Disk) (p : Text) (n : Nat)
    (x x' : GitLeaf ⊕ RefNode (GitNode n)) : Prop :=
  (PartOk K (LiveOk K order n) (LiveHas order n) D x' ∧
    ∀ sha, PartHas order (LiveHas order n) D x' sha ↔ PartHas order (LiveHas order n) D x sha) ∧
  partSite x' = partSite x ∧ PartFull D p (rootOf n) (LiveFull D n) x'

/-- After the first pass. -/
def LeafStep (K : Disk → GitLeaf → Prop) (order : List Bytes → List Bytes) (D : Disk) (n : Nat) :
    GitLeaf ⊕ RefNode (GitNode n) → GitLeaf ⊕ RefNode (GitNode n) → Prop
  | .inl s, .inl s' => EndSame K order D s s'
  | .inr r, .inr r' => r' = r
  | _, _ => False

/-- After the second pass. -/
def RefStep (K : Disk → GitLeaf → Prop) (order : List Bytes → List Bytes) (D : Disk) (n : Nat) :
    GitLeaf ⊕ RefNode (GitNode n) → GitLeaf ⊕ RefNode (GitNode n) → Prop
  | .inl s, .inl s' => s' = s
  | .inr r, .inr r' => ∃ ds ds', r.db.dbs = some ds ∧ r'.db.dbs = some ds' ∧ r'.root = r.root ∧ r'.db.cache = r.db.cache ∧
      All2 (fun y y' => NodeSame K order D n y.2 y'.2) ds ds'
  | _, _ => False

theorem put_same {K : Disk → GitLeaf → Prop} {order : List Bytes → List Bytes} {D : Disk} : ∀ (n : Nat) (t : GitNode n),
    LiveOk K order n D t → LiveFull D n t → ∀ ls rest, All2 (EndSame K order D) (liveEnds n t) ls →
      (livePut n t (ls ++ rest)).2 = rest ∧ NodeSame K order D n t (livePut n t (ls ++ rest)).1
  | 0, _, h, _, _, _, _ => h.elim
  | n + 1, t, ⟨l, h1, h2⟩, ⟨l', f1, f2, f3⟩, ls, rest, hls => by
    have ih := put_same (K := K) (order := order) (D := D) n
    rw [h1] at f1
    cases f1
    unfold liveEnds at hls
    rw [h1, Option.getD_some] at hls
    obtain ⟨a, b, rfl, ha, hb⟩ := all2_append_split _ _ _ hls
    -- first the databases that are not compound
    obtain ⟨p1, p2⟩ := putBackList_all2 (put := putLeaf (σ := GitNode n)) (R := LeafStep K order D n) l a (b ++ rest) (by
      rintro (s | r) - m rest hm
      · cases hm with
        | cons h t => cases t; exact ⟨rfl, h⟩
      · cases hm; exact ⟨rfl, rfl⟩) ha
    rcases hx : putBackList (putLeaf (σ := GitNode n)) (fun _ => true) l (a ++ (b ++ rest)) with ⟨l1, rest1⟩
    rw [hx] at p1 p2
    simp only at p1 p2
    subst p1
    have hends : l1.flatMap (refEnds (liveEnds n)) = l.flatMap (refEnds (liveEnds n)) := by
      have := all2_map_eq (g := refEnds (liveEnds n)) (fun x x' h => by
        rcases x with s | r <;> rcases x' with s' | r'
        · rfl
        · exact h.elim
        · exact h.elim
        · have h : r' = r := h
          rw [h]) p2
      rw [List.flatMap_def, List.flatMap_def, this]
    rw [← hends] at hb
    -- what holds of the parts in between
    have hl1 : ∀ x ∈ l1, (∀ r, x = .inr r → x ∈ l) := by
      intro x hx r e
      subst e
      obtain ⟨x0, hx0, h0⟩ := all2_origin p2 _ hx
      rcases x0 with s | r0
      · exact h0.elim
      · have h0 : r = r0 := h0
        rw [h0]
        exact hx0
    obtain ⟨q1, q2⟩ := putBackList_all2 (put := putRef (livePut n)) (R := RefStep K order D n) l1 b rest (by
      rintro (s | r) hr m rest hm
      · cases hm; exact ⟨rfl, rfl⟩
      · have hr := hl1 _ hr r rfl
        obtain ⟨ds, e1, e2⟩ := h2.1 _ hr
        obtain ⟨ds', e3, e4, e5⟩ := f3 _ hr
        rw [e1] at e3
        cases e3
        have hm : All2 (EndSame K order D) ((r.db.dbs.getD []).flatMap fun y => liveEnds n y.2) m := hm
        rw [e1, Option.getD_some] at hm
        obtain ⟨g1, g2⟩ := putBackList_all2 (put := fun (d : Text × GitNode n) l => ((d.1, (livePut n d.2 l).1), (livePut n d.2 l).2))
          (R := fun y y' => NodeSame K order D n y.2 y'.2) ds m rest (fun y hy m rest hm => ih y.2 (e2.1 y hy) (e5 y hy) m rest hm) hm
        simp only [putRef, e1]
        exact ⟨g1, ds, _, e1, rfl, rfl, rfl, g2⟩) hb
    rcases hy : putBackList (putRef (livePut n)) (fun _ => true) l1 (b ++ rest) with ⟨l2, rest2⟩
    rw [hy] at q1 q2
    simp only at q1 q2
    subst q1
    have hput : livePut (n + 1) t (a ++ b ++ rest2) = ((⟨GitState.root t, some l2, GitState.cache t⟩ : GitState (GitNode n)), rest2) := by
      simp only [livePut]
      have h1 : GitState.dbs t = some l := h1
      rw [h1]
      simp only [List.append_assoc]
      rw [hx]
      simp only
      rw [hy]
      rfl
    have hall : All2 (PartSame K order D (GitState.root t) n) l l2 := by
      refine all2_comp ?_ (all2_mem p2) q2
      rintro (s | r) (s1 | r1) (s2 | r2) ⟨hm, hp⟩ hq
      · obtain ⟨e1, e2, e3⟩ := hp
        have hq : s2 = s1 := hq
        subst hq
        exact ⟨⟨e1, e2⟩, sites_leaf e3, trivial⟩
      · exact hq.elim
      · exact hp.elim
      · exact hp.elim
      · exact hp.elim
      · exact hp.elim
      · exact hq.elim
      · have hp : r1 = r := hp
        subst hp
        obtain ⟨ds, ds', e1, e2, e3, e4, e5⟩ := hq
        obtain ⟨m, k1, k2⟩ := h2.1 _ hm
        rw [e1] at k1
        cases k1
        obtain ⟨m, g1, g2, g3⟩ := f3 _ hm
        rw [e1] at g1
        cases g1
        have hs : SameContents (fun D (y : Text × GitNode n) => LiveOk K order n D y.2) (fun D y => LiveHas order n D y.2) D ds ds' :=
          all2_imp (fun y y' h => ⟨h.1, h.2.2.1⟩) e5
        refine ⟨⟨⟨ds', e2, ?_⟩, fun sha => ?_⟩, ?_, ds', e2, ?_, ?_⟩
        · have := sameContents_ok k2 hs
          rw [e4]
          exact this
        · have := sameContents_union hs sha
          constructor
          · rintro ⟨m, c1, c2⟩
            rw [e2] at c1
            cases c1
            exact ⟨ds, e1, this.mp c2⟩
          · rintro ⟨m, c1, c2⟩
            rw [e1] at c1
            cases c1
            exact ⟨ds', e2, this.mpr c2⟩
        · show some (Sub.ref, r2.root) = some (Sub.ref, r1.root)
          rw [e3]
        · exact roots_map (all2_map_eq (g := fun y : Text × GitNode n => rootOf n y.2) (fun y y' h => h.2.2.2) e5) g2
        · exact all2_right (P := fun y : Text × GitNode n => LiveFull D n y.2) (fun y y' h => h.2.1) e5
    rw [hput]
    have hs : SameContents (PartOk K (LiveOk K order n) (LiveHas order n)) (PartHas order (LiveHas order n)) D l l2 :=
      all2_imp (fun _ _ h => h.1) hall
    refine ⟨rfl, ⟨l2, rfl, sameContents_ok h2 hs⟩, ⟨l2, rfl, ?_, ?_⟩, fun sha => ?_, rfl⟩
    · exact (all2_map_eq (g := partSite) (fun _ _ h => h.2.1) hall).trans f2
    · exact all2_right (fun _ _ h => h.2.2) hall
    · have := sameContents_union hs sha
      constructor
      · rintro ⟨m, c1, c2⟩
        cases c1
        exact ⟨l, h1, this.mp c2⟩
      · rintro ⟨m, c1, c2⟩
        rw [h1] at c1
        cases c1
        exact ⟨l2, rfl, this.mpr c2⟩

/-! ## Abbreviations at the ends -/

theorem completeLoop_fits {Q : Bytes → Bytes → Prop} {dir : PackDir} (hq : ∀ p c, dir.get p = some c → Q p c) (part : Bytes) (k : Nat) :
    ∀ {l : List PackItem} (cand : Option Bytes), (∀ it ∈ l, ItemFits Q it) → ∀ it ∈ (completeLoop dir part k l cand).1, ItemFits Q it
  | [], _, h => h
  | a :: l, cand, h => by
    have h1 : ItemFits Q (a.complete dir part k).1 := by
      have := index_fits hq (h a (by simp))
      unfold PackItem.complete
      split
      · exact h a (by simp)
      · rcases hi : a.index dir with ⟨it', e | x⟩
        · rw [hi] at this; exact this
        · rw [hi] at this
          simp only
          rcases x.partialShaToIndex part k with e | _ | i <;> exact this
    have h2 : ∀ it ∈ l, ItemFits Q it := fun it hit => h it (by simp [hit])
    unfold completeLoop
    rcases hf : a.complete dir part k with ⟨a1, e | _ | sha⟩ <;> rw [hf] at h1
    · exact List.forall_mem_cons.mpr ⟨h1, h2⟩
    · exact List.forall_mem_cons.mpr ⟨h1, completeLoop_fits hq part k cand h2⟩
    · simp only
      split
      · exact List.forall_mem_cons.mpr ⟨h1, h2⟩
      · exact List.forall_mem_cons.mpr ⟨h1, completeLoop_fits hq part k (some sha) h2⟩

theorem complete_now (zl : Zlib) {order : List Bytes → List Bytes} {d : PackDir} {db : PackedDB} (h : PackedNow d db) (part : Bytes) (k : Nat) :
    PackedNow d (db.partialToComplete order (some d) part k).1 := by
  obtain ⟨⟨ho, hf⟩, l, hl, hp⟩ := h
  obtain ⟨l0, l', k1, k2, k3, -⟩ := step_paths zl order (some d) db (.complete part k)
  have hload : db.load order (some d) = (db, .ok l) := by unfold PackedDB.load; rw [hl]
  rw [hload, hl] at k1
  cases k1
  have k2 : (db.partialToComplete order (some d) part k).1.entities = some l' := k2
  refine ⟨⟨fun m hm => ?_, fun m hm => ?_⟩, l', k2, fun p => k3.mem_iff.trans (hp p)⟩
  · rw [k2] at hm
    cases hm
    exact k3.nodup_iff.mpr (ho l hl)
  · have := completeLoop_fits (Q := FileNow d) (dir := d) (fun p c hc => hc) part k (l := l) none (hf l hl)
    have e : (db.partialToComplete order (some d) part k).1.entities = some (completeLoop d part k l none).1 := by
      unfold PackedDB.partialToComplete
      rw [hload]
      simp only [dirFiles, Option.getD_some]
      rcases completeLoop d part k l none with ⟨l2, e | _ | _ | ⟨b, x⟩⟩ <;> rfl
    rw [e] at hm
    cases hm
    exact this

theorem end_complete (zl : Zlib) (fuel : Nat) {order : List Bytes → List Bytes} (getL : Fs → Bytes → Res OStream) (S : Text → Prop)
    {D : Disk} {s : GitLeaf} (h : LeafSeen order S D s) (part : Bytes) :
    EndSame (LeafSeen order S) order D s ((leafOps order (fun d db sha => db.stream fuel order d sha) getL).complete D s part).1 := by
  cases s with
  | stop => exact h.2.elim
  | loose r db => exact ⟨h, fun _ => Iff.rfl, rfl⟩
  | pack r db =>
    obtain ⟨hg, hS, hr, d, hd, hn⟩ := h
    have key : ∀ bin k, LeafSeen order S D (.pack r (db.partialToComplete order (D.pack r) bin k).1) ∧
        ∀ sha, LeafHas order D (.pack r (db.partialToComplete order (D.pack r) bin k).1) sha ↔ LeafHas order D (.pack r db) sha := by
      intro bin k
      obtain ⟨a1, a2⟩ := packedReady_step (zl := zl) hr (.complete bin k)
      refine ⟨⟨hg, hS, a1, d, hd, ?_⟩, a2⟩
      rw [hd]
      exact complete_now zl hn bin k
    show EndSame _ _ _ _ (GitLeaf.pack r ((packedOps order fun d db sha => db.stream fuel order d sha).complete (D.pack r) db part).1)
    simp only [packedOps]
    rcases hexToBin (if part.length % 2 ≠ 0 then part ++ [0x30] else part) with e | bin
    · exact ⟨⟨hg, hS, hr, d, hd, hn⟩, fun _ => Iff.rfl, rfl⟩
    · exact ⟨(key bin part.length).1, (key bin part.length).2, rfl⟩

theorem completeDbs_all2 {O : DbOps ω σ α} {w : ω} {part : Bytes} {R : σ → σ → Prop} : ∀ (l : List σ) (cand : Option Bytes),
    (∀ s ∈ l, R s s ∧ R s (O.complete w s part).1) → All2 R l (completeDbs O w part l cand).1
  | [], _, _ => .nil
  | s :: l, cand, h => by
    have h1 := (h s (by simp)).2
    have h2 : ∀ s ∈ l, R s s ∧ R s (O.complete w s part).1 := fun t ht => h t (by simp [ht])
    have hstop : All2 R l l := by
      clear h h1
      induction l with
      | nil => exact .nil
      | cons a l ih => exact .cons (h2 a (by simp)).1 (ih fun t ht => h2 t (by simp [ht]))
    have ih := fun cand => completeDbs_all2 (O := O) (w := w) (part := part) l cand h2
    unfold completeDbs
    rcases hs : O.complete w s part with ⟨s', e | full⟩
    · rw [hs] at h1
      cases e
      case badObject => exact .cons h1 (ih cand)
      all_goals exact .cons h1 hstop
    · rw [hs] at h1
      simp only
      split
      · exact .cons h1 (ih cand)
      · split
        · exact .cons h1 hstop
        · exact .cons h1 (ih _)

/-- Asking for an abbreviation leaves a repository as it is. -/
theorem complete_same (zl : Zlib) (fuel : Nat) {order : List Bytes → List Bytes} (orderT : List Text → List Text)
    (getL : Fs → Bytes → Res OStream) (S : Text → Prop) {D : Disk} {n : Nat} {t : GitNode n} (h : LiveOk (LeafSeen order S) order n D t)
    (hf : LiveFull D n t) (hk : ∀ s ∈ liveEnds n t, LeafSeen order S D s) (part : Bytes) :
    NodeSame (LeafSeen order S) order D n t
      (liveComplete orderT (leafOps order (fun d db sha => db.stream fuel order d sha) getL) n D t part).1 := by
  unfold liveComplete
  rw [collect_full orderT n t hf]
  simp only
  unfold completeHex
  rcases hexToBin (if part.length % 2 ≠ 0 then part ++ [0x30] else part) with e | bin
  · exact ⟨h, hf, fun _ => Iff.rfl, rfl⟩
  · have hall := completeDbs_all2 (O := leafOps order (fun d db sha => db.stream fuel order d sha) getL) (w := D) (part := part)
      (R := EndSame (LeafSeen order S) order D) (liveEnds n t) none
      (fun s hs => ⟨⟨hk s hs, fun _ => Iff.rfl, rfl⟩, end_complete zl fuel getL S (hk s hs) part⟩)
    have hp := (put_same n t h hf _ [] hall).2
    rw [List.append_nil] at hp
    simp only
    rcases hq : completeDbs (leafOps order (fun d db sha => db.stream fuel order d sha) getL) D part (liveEnds n t) none with
      ⟨l, e | _ | _ | ⟨c, x⟩⟩ <;> rw [hq] at hp <;> exact hp

theorem ends_ok {K : Disk → GitLeaf → Prop} {order : List Bytes → List Bytes} {D : Disk} : ∀ (n : Nat) (t : GitNode n),
    LiveOk K order n D t → ∀ s ∈ liveEnds n t, K D s
  | 0, _, h => h.elim
  | n + 1, t, ⟨l, h1, h2⟩ => by
    intro s hs
    unfold liveEnds at hs
    rw [h1, Option.getD_some] at hs
    rcases List.mem_append.mp hs with hs | hs <;> obtain ⟨x, hx, hs⟩ := List.mem_flatMap.mp hs
    · cases x with
      | inr r => cases hs
      | inl s' =>
        obtain rfl := List.mem_singleton.mp hs
        exact h2.1 _ hx
    · cases x with
      | inl s' => cases hs
      | inr r =>
        obtain ⟨m, k1, k2⟩ := h2.1 _ hx
        simp only [refEnds, k1, Option.getD_some] at hs
        obtain ⟨y, hy, hs⟩ := List.mem_flatMap.mp hs
        exact ends_ok n y.2 (k2.1 y hy) s hs

/-! ## Digits -/

theorem hexAscii_lt {n : Nat} {c : UInt8} (h : hexAscii[n]? = some c) : n < 16 := by
  have := (List.getElem?_eq_some_iff.mp h).1
  simpa [hexAscii] using this

theorem hexAscii_inj {a b : Nat} {c : UInt8} (ha : hexAscii[a]? = some c) (hb : hexAscii[b]? = some c) : a = b := by
  have key : ∀ a < 16, ∀ b < 16, hexAscii[a]? = hexAscii[b]? → a = b := by decide
  exact key a (hexAscii_lt ha) b (hexAscii_lt hb) (ha.trans hb.symm)

theorem spells_inj : ∀ {h : Bytes} {a b : List Nat}, Spells h a → Spells h b → a = b
  | [], [], [], _, _ => rfl
  | [], _ :: _, _, h, _ => by cases h
  | [], _, _ :: _, _, h => by cases h
  | _ :: _, [], _, h, _ => by cases h
  | _ :: _, _, [], _, h => by cases h
  | c :: h, a :: as, b :: bs, ha, hb => by
    unfold Spells at ha hb
    simp only [List.map_cons, List.cons.injEq] at ha hb
    rw [hexAscii_inj ha.1.symm hb.1.symm, spells_inj (h := h) ha.2 hb.2]

theorem spells_lower {h : Bytes} {digits : List Nat} (hs : Spells h digits) : LowerHex h := by
  intro c hc
  have : some c ∈ digits.map (hexAscii[·]?) := hs ▸ List.mem_map_of_mem hc
  obtain ⟨n, -, e⟩ := List.mem_map.mp this
  exact List.mem_of_getElem? e

theorem spells_length {h : Bytes} {digits : List Nat} (hs : Spells h digits) : h.length = digits.length := by
  simpa [List.length_map] using congrArg List.length hs

theorem spells_abbrev {part : Bytes} {digits : List Nat} (hs : Spells part digits) :
    ∃ bin, hexToBin (if part.length % 2 ≠ 0 then part ++ [0x30] else part) = .ok bin ∧ IsAbbrev bin digits := by
  have hl := spells_length hs
  have hpad : ∃ k, (if part.length % 2 ≠ 0 then part ++ [0x30] else part).length = 2 * k ∧
      Spells (if part.length % 2 ≠ 0 then part ++ [0x30] else part) (digits ++ List.replicate (digits.length % 2) 0) := by
    by_cases hp : part.length % 2 = 0
    · refine ⟨part.length / 2, by rw [if_neg (by omega)]; omega, ?_⟩
      rw [if_neg (by omega), ← hl, hp]
      simpa using hs
    · have h1 : part.length % 2 = 1 := by omega
      refine ⟨part.length / 2 + 1, by rw [if_pos (by omega), List.length_append]; simp only [List.length_singleton]; omega, ?_⟩
      rw [if_pos (by omega), ← hl, h1]
      unfold Spells at hs ⊢
      rw [List.map_append, List.map_append, hs]
      rfl
  obtain ⟨k, h1, h2⟩ := hpad
  obtain ⟨b, e1, e2⟩ := hexToBin_lower k _ h1 (spells_lower h2)
  have h3 : Spells (binToHex b) (nibbles b) := binToHex_isHexOf b
  rw [e2.2] at h3
  exact ⟨b, e1, spells_inj h3 h2⟩

theorem spells_take {h : Bytes} {digits : List Nat} (hs : Spells h digits) (k : Nat) : Spells (h.take k) (digits.take k) := by
  unfold Spells at hs ⊢
  rw [List.map_take, List.map_take, hs]

theorem spells_abbreviates {part : Bytes} {digits : List Nat} (hs : Spells part digits) (x : Bytes) :
    Abbreviates part x ↔ HasDigits digits x := by
  have hl := spells_length hs
  unfold HasDigits
  constructor
  · rintro ⟨h, h1, h2⟩
    have h1 : Spells h (nibbles x) := h1
    have h3 := spells_take h1 part.length
    rw [← List.prefix_iff_eq_take.mp h2] at h3
    rw [← hl]
    exact spells_inj h3 hs
  · intro hd
    have h1 : Spells (binToHex x) (nibbles x) := binToHex_isHexOf x
    refine ⟨binToHex x, h1, ?_⟩
    have h3 := spells_take h1 digits.length
    rw [hd] at h3
    have : (binToHex x).take digits.length = part := by
      have h4 : ((binToHex x).take digits.length).map some = part.map some := h3.trans hs.symm
      exact (List.map_inj_right (fun _ _ => Option.some.inj)).mp h4
    rw [← this]
    exact List.take_prefix _ _

/-! ## The ends -/

theorem isIndex_len {c : Bytes} {ns : List Bytes} (h : IsIndex c ns) : ∀ x ∈ ns, x.length = 20 := by
  obtain ⟨_, es, _, _, rfl, h⟩ := h
  intro x hx
  obtain ⟨e, he, rfl⟩ := List.mem_map.mp hx
  rcases h with ⟨h, -⟩ | ⟨h, -⟩ <;> exact h.name_len e he

theorem isIndex_unique {c : Bytes} {ns ns' : List Bytes} (h : IsIndex c ns) (h' : IsIndex c ns') : ns = ns' := by
  obtain ⟨x, e, hx⟩ := isIndex_load h
  obtain ⟨x', e', hx'⟩ := isIndex_load h'
  rw [e] at e'
  cases e'
  have hl : ns.length = ns'.length := hx.size.symm.trans hx'.size
  refine List.ext_getElem hl fun i h1 h2 => ?_
  rw [← hx.sha i h1, ← hx'.sha i h2]

theorem resolves_iff {M M' : Bytes → Prop} (h : ∀ x, M x ↔ M' x) {r : Res Bytes} (hr : Resolves M r) : Resolves M' r := by
  have : M = M' := funext fun x => propext (h x)
  exact this ▸ hr

theorem end_resolves (fuel : Nat) {order : List Bytes → List Bytes} (getL : Fs → Bytes → Res OStream) (S : Text → Prop)
    {D : Disk} (hn : NamesOnce D) (hlf : LooseFine D) {part : Bytes} {digits : List Nat} (hs : Spells part digits) (h3 : 3 ≤ digits.length)
    (h40 : digits.length ≤ 40) {s : GitLeaf} (h : LeafSeen order S D s) {b : Sub} {q : Text} (hb : partSite (σ := Unit) (.inl s) = some (b, q))
    (hlo : b = .loose → (D.loose q).isSome = true) :
    Resolves (fun x => (b = .pack ∧ ∃ d, D.pack q = some d ∧ PackLead d digits x) ∨
      (b = .loose ∧ LooseThere D q x ∧ x.length = 20 ∧ HasDigits digits x))
      ((leafOps order (fun d db sha => db.stream fuel order d sha) getL).complete D s part).2 := by
  obtain ⟨bin, hbin, habb⟩ := spells_abbrev hs
  have hlen := spells_length hs
  cases s with
  | stop => exact h.2.elim
  | loose r db =>
    cases hb
    obtain ⟨w, hw⟩ := Option.isSome_iff_exists.mp (hlo rfl)
    obtain ⟨base, walk, e1, e2, e3⟩ := hlf.walk q w hw
    have hr := C45_loose getL base w.1 walk e2 e3 db part
    have e : ((leafOps order (fun d db sha => db.stream fuel order d sha) getL).complete D (.loose q db) part).2 =
        ((looseOps getL).complete (w.1, seen base walk) db part).2 := by
      show loosePartial (D.looseAt q).2 part = loosePartial (seen base walk) part
      unfold Disk.looseAt
      rw [hw, ← e1]
      rfl
    rw [e]
    refine resolves_iff ?_ hr
    intro x
    rw [spells_abbreviates hs]
    constructor
    · rintro ⟨k1, k2, k3⟩
      refine .inr ⟨rfl, ⟨w, hw, ?_⟩, k1, k3⟩
      obtain ⟨p, ⟨hx, c1, rfl⟩, ⟨data, m, c3⟩, -⟩ := k2
      obtain rfl := isHexOf_unique c1 (binToHex_isHexOf x)
      show (w.1 [(binToHex x).take 2, (binToHex x).drop 2]).isSome = true
      rw [c3]
      rfl
    · rintro (⟨e, -⟩ | ⟨-, ⟨w', hw', k1⟩, k2, k3⟩)
      · cases e
      · rw [hw] at hw'
        cases hw'
        exact ⟨k2, hlf.files q w x hw k2 k1, k3⟩
  | pack r db =>
    cases hb
    obtain ⟨hg, hS, ⟨-, hready⟩, d, hd, hnow⟩ := h
    obtain ⟨l, hl, hp⟩ := hnow.2
    have hidx : ∀ it ∈ l, ∃ i ns, d.get (idxName it.path) = some i ∧ IsIndex i ns ∧ it.content d = some i := by
      intro it hit
      have hpk := (mem_packs d it.path).mp ((hp _).mp (List.mem_map_of_mem hit))
      obtain ⟨-, i, ns, g1, g2⟩ := (hg q d hd).2 it.path hpk.1 hpk.2
      refine ⟨i, ns, g1, g2, ?_⟩
      obtain ⟨f1, -⟩ := hnow.1.2 l hl it hit
      unfold PackItem.content
      rcases hi : it.idx with _ | c
      · exact g1
      · have : d.get (idxName it.path) = some c := f1 c hi
        rw [g1] at this
        exact this.symm
    have hx : ∀ it ∈ l, Lists (dirFiles (D.pack q)) it (Classical.epsilon fun ns => Lists (dirFiles (D.pack q)) it ns) := by
      intro it hit
      refine Classical.epsilon_spec (p := fun ns => Lists (dirFiles (D.pack q)) it ns) ?_
      obtain ⟨i, ns, g1, g2, g3⟩ := hidx it hit
      exact ⟨ns, i, by rw [hd]; exact g3, g2⟩
    generalize hnames : (fun it => Classical.epsilon fun ns => Lists (dirFiles (D.pack q)) it ns) = names
    have hx : ∀ it ∈ l, Lists (dirFiles (D.pack q)) it (names it) := by rw [← hnames]; exact hx
    have hmem : ∀ x, x ∈ firstMatches names digits l ↔ PackLead d digits x := by
      intro x
      unfold firstMatches
      rw [List.mem_filterMap]
      constructor
      · rintro ⟨it, hit, hf⟩
        have hpk := (mem_packs d it.path).mp ((hp _).mp (List.mem_map_of_mem hit))
        obtain ⟨i, -, g1, -, g3⟩ := hidx it hit
        obtain ⟨c, k1, k2⟩ := hx it hit
        rw [hd] at k1
        have k1 : it.content d = some c := k1
        rw [g3] at k1
        cases k1
        exact ⟨it.path, hpk.1, hpk.2, _, _, g1, k2, hf⟩
      · rintro ⟨p, c1, c2, i, ns, g1, g2, hf⟩
        obtain ⟨it, hit, rfl⟩ := List.mem_map.mp ((hp p).mpr ((mem_packs d p).mpr ⟨c1, c2⟩))
        obtain ⟨i', -, g1', -, g3⟩ := hidx it hit
        rw [g1] at g1'
        cases g1'
        obtain ⟨c, k1, k2⟩ := hx it hit
        rw [hd] at k1
        have k1 : it.content d = some c := k1
        rw [g3] at k1
        cases k1
        rw [isIndex_unique g2 k2] at hf
        exact ⟨it, hit, hf⟩
    have hnd : ∀ it ∈ l, (names it).Nodup := by
      intro it hit
      obtain ⟨i, -, g1, -, g3⟩ := hidx it hit
      obtain ⟨c, k1, k2⟩ := hx it hit
      rw [hd] at k1
      have k1 : it.content d = some c := k1
      rw [g3] at k1
      cases k1
      have hpk := (mem_packs d it.path).mp ((hp _).mp (List.mem_map_of_mem hit))
      exact hn q d _ _ _ hd hpk.1 hpk.2 g1 k2
    have e : ((leafOps order (fun d db sha => db.stream fuel order d sha) getL).complete D (.pack q db) part).2 =
        (db.partialToComplete order (D.pack q) bin digits.length).2 := by
      show ((packedOps order fun d db sha => db.stream fuel order d sha).complete (D.pack q) db part).2 = _
      simp only [packedOps]
      rw [hbin, hlen]
    rw [e]
    refine resolves_iff (M := fun x => x ∈ firstMatches names digits l) (fun x => (hmem x).trans ⟨fun h => .inl ⟨rfl, d, hd, h⟩, fun h => ?_⟩) ?_
    · rcases h with ⟨-, d', hd', h⟩ | ⟨e, -⟩
      · rw [hd] at hd'; cases hd'; exact h
      · cases e
    · rcases C21_packs order (D.pack q) db l hl names hx hnd bin digits habb h3 h40 with ⟨h, e⟩ | ⟨a, h1, h2, e⟩ | ⟨a, h1, b, h2, h4, e⟩ <;> rw [e]
      · intro x hx
        obtain ⟨it, hit, hf⟩ := List.mem_filterMap.mp hx
        exact h it hit x (List.mem_of_find?_eq_some hf) (by simpa using List.find?_some hf)
      · exact ⟨h1, h2⟩
      · exact ⟨a, b, h4, h1, h2⟩

/-! ## C86 -/

theorem hasDigits_ne {digits : List Nat} {x : Bytes} (h3 : 3 ≤ digits.length) (h : HasDigits digits x) : x ≠ [] := by
  rintro rfl
  unfold HasDigits at h
  have := congrArg List.length h
  simp [nibbles] at this
  omega

theorem siteLead_ne {D : Disk} {digits : List Nat} {q : Text} {x : Bytes} (h3 : 3 ≤ digits.length) (h : SiteLead D digits q x) : x ≠ [] := by
  rcases h with ⟨d, -, p, -, -, i, ns, -, -, hf⟩ | ⟨-, -, h⟩
  · exact hasDigits_ne h3 (by simpa using List.find?_some hf)
  · exact hasDigits_ne h3 h

theorem lookUps_same (zl : Zlib) (fuel : Nat) {order : List Bytes → List Bytes} (ho : ∀ l, (order l).Perm l)
    (orderT : List Text → List Text) (getL : Fs → Bytes → Res OStream) (S : Text → Prop) {D : Disk} {n : Nat} :
    ∀ (ops : List LookUp) (t : GitNode n), LiveOk (LeafSeen order S) order n D t → LiveFull D n t →
      NodeSame (LeafSeen order S) order D n t
        (ops.foldl (lookUp orderT (leafOps order (fun d db sha => db.stream fuel order d sha) getL) n D) t)
  | [], t, h, hf => ⟨h, hf, fun _ => Iff.rfl, rfl⟩
  | op :: ops, t, h, hf => by
    have h1 : NodeSame (LeafSeen order S) order D n t
        (lookUp orderT (leafOps order (fun d db sha => db.stream fuel order d sha) getL) n D t op) := by
      cases op with
      | read op =>
        have hl := live_locates (leafSeen_locates zl fuel ho getL S) orderT n
        obtain ⟨k1, k2⟩ := full_step (orderT := orderT) (D := D) (fun s op => leafSite_step s op) n t op hf
        exact ⟨hl.ok h op, k2, hl.same h op, k1⟩
      | complete part => exact complete_same zl fuel orderT getL S h hf (ends_ok n t h) part
    obtain ⟨a1, a2, a3, a4⟩ := lookUps_same zl fuel ho orderT getL S ops _ h1.1 h1.2.1
    exact ⟨a1, a2, fun sha => (a3 sha).trans (h1.2.2.1 sha), a4.trans h1.2.2.2⟩

theorem gitDbs_list (D : Disk) (q : Text) : (gitDbs D q).1 = (if (D.pack q).isSome then [Sub.pack] else []) ++
    (if (D.loose q).isSome then [.loose] else []) ++ (if (D.alt q).isSome then [.ref] else []) := by
  unfold gitDbs
  generalize ((if (D.pack q).isSome then [Sub.pack] else []) ++ (if (D.loose q).isSome then [.loose] else []) ++
    (if (D.alt q).isSome then [.ref] else [])) = l
  simp only
  split
  · rfl
  · split <;> rfl

/-- Repositories in which everything has been loaded. -/
theorem full_resolves (fuel : Nat) {order : List Bytes → List Bytes} (orderT : List Text → List Text) (getL : Fs → Bytes → Res OStream)
    (S : Text → Prop) {D : Disk} (hn : NamesOnce D) (hlf : LooseFine D) {n : Nat} {t : GitNode n} (h : LiveOk (LeafSeen order S) order n D t)
    (hf : LiveFull D n t) {part : Bytes} {digits : List Nat} (hs : Spells part digits) (h3 : 3 ≤ digits.length) (h40 : digits.length ≤ 40) :
    Resolves (fun x => ∃ q, AltReach D (rootOf n t) q ∧ SiteLead D digits q x)
      (liveComplete orderT (leafOps order (fun d db sha => db.stream fuel order d sha) getL) n D t part).2 := by
  have hsite : ∀ s ∈ liveEnds n t, ∃ b q, partSite (σ := Unit) (.inl s) = some (b, q) := by
    intro s hs
    have := ends_ok n t h s hs
    cases s with
    | stop => exact this.2.elim
    | pack r db => exact ⟨_, _, rfl⟩
    | loose r db => exact ⟨_, _, rfl⟩
  have hfull := ends_full n t hf
  have hin : ∀ {b q}, b ∈ (gitDbs D q).1 → (b = .loose → (D.loose q).isSome = true) ∧ (b = .pack → (D.pack q).isSome = true) := by
    intro b q hb
    have e := gitDbs_list D q
    rw [e] at hb
    constructor <;> rintro rfl
    · rcases hq : (D.loose q).isSome <;> simp [hq] at hb ⊢
    · rcases hq : (D.pack q).isSome <;> simp [hq] at hb ⊢
  have hof : ∀ q, ((D.loose q).isSome = true → Sub.loose ∈ (gitDbs D q).1) ∧ ((D.pack q).isSome = true → Sub.pack ∈ (gitDbs D q).1) := by
    intro q
    have e := gitDbs_list D q
    rw [e]
    constructor <;> intro hq <;> simp [hq]
  have hM : ∀ x, (∃ s ∈ liveEnds n t, ∃ b q, partSite (σ := Unit) (.inl s) = some (b, q) ∧
      ((b = .pack ∧ ∃ d, D.pack q = some d ∧ PackLead d digits x) ∨ (b = .loose ∧ LooseThere D q x ∧ x.length = 20 ∧ HasDigits digits x))) ↔
      ∃ q, AltReach D (rootOf n t) q ∧ SiteLead D digits q x := by
    intro x
    constructor
    · rintro ⟨s, hs, b, q, e, h⟩
      obtain ⟨h1, -, -⟩ := (hfull b q).mp ⟨s, hs, e⟩
      exact ⟨q, h1, h.imp And.right And.right⟩
    · rintro ⟨q, h1, ⟨d, hd, h⟩ | h⟩
      · obtain ⟨s, hs, e⟩ := (hfull .pack q).mpr ⟨h1, (hof q).2 (by rw [hd]; rfl), by decide⟩
        exact ⟨s, hs, _, _, e, .inl ⟨rfl, d, hd, h⟩⟩
      · obtain ⟨w, hw, -⟩ := h.1
        obtain ⟨s, hs, e⟩ := (hfull .loose q).mpr ⟨h1, (hof q).1 (by rw [hw]; rfl), by decide⟩
        exact ⟨s, hs, _, _, e, .inr ⟨rfl, h⟩⟩
  refine resolves_iff hM ?_
  obtain ⟨bin, hbin, -⟩ := spells_abbrev hs
  have hspec := completeDbs_spec (leafOps order (fun d db sha => db.stream fuel order d sha) getL) D part
    (fun s x => ∃ b q, partSite (σ := Unit) (.inl s) = some (b, q) ∧ ((b = .pack ∧ ∃ d, D.pack q = some d ∧ PackLead d digits x) ∨
      (b = .loose ∧ LooseThere D q x ∧ x.length = 20 ∧ HasDigits digits x)))
    (fun s x ⟨b, q, _, h⟩ => siteLead_ne (D := D) (q := q) h3 (h.imp And.right And.right)) (liveEnds n t) none
    (fun s hs' => by
      obtain ⟨b, q, e⟩ := hsite s hs'
      have hb := (hfull b q).mp ⟨s, hs', e⟩
      refine resolves_iff ?_ (end_resolves fuel getL S hn hlf hs h3 h40 (ends_ok n t h s hs') e (hin hb.2.1).1)
      intro x
      constructor
      · intro k; exact ⟨b, q, e, k⟩
      · rintro ⟨b', q', e', k⟩
        rw [e] at e'
        cases e'
        exact k)
    (by simp)
  unfold liveComplete
  rw [collect_full orderT n t hf]
  simp only
  unfold completeHex
  rw [hbin]
  simp only
  rcases hc : completeDbs (leafOps order (fun d db sha => db.stream fuel order d sha) getL) D part (liveEnds n t) none with ⟨l, r⟩
  rw [hc] at hspec
  simp only [reduceCtorEq, false_or, false_implies, implies_true, true_and] at hspec
  rcases hspec with ⟨x, rfl, hx, hx1, hx2⟩ | ⟨rfl, hx⟩ | ⟨rfl, hx⟩
  · cases x with
    | nil => exact absurd rfl hx
    | cons b x => exact ⟨hx1, fun y ⟨s, hs, hy⟩ => hx2 s hs y hy⟩
  · rintro y ⟨s, hs, hy⟩
    exact hx s hs y hy
  · exact hx

/-- **C86 (abbreviations in a `GitDB` with alternates, exactly).**  A `GitDB` is used for any time while packs and alternates come and
go.  After `update_cache(True)`, and any reads and abbreviations, `partial_to_complete_sha_hex` takes into account all matching loose
objects and from each pack the first match, in the repository and all that can be reached through alternates: the only one of these is the
answer; `BadObject` is raised if there is none, `AmbiguousObjectName` if there are two. -/
theorem C86_complete (zl : Zlib) (fuel : Nat) {order : List Bytes → List Bytes} (ho : ∀ l, (order l).Perm l)
    {orderT : List Text → List Text} (hoT : ∀ l, (orderT l).Perm l) (getL : Fs → Bytes → Res OStream) {D : Disk}
    (hg : ∀ q d, D.pack q = some d → GoodDir d) (hr : Readable D) {rank : Text → Nat} (hrank : ∀ p q, Alt D p q → rank q < rank p)
    (hn1 : NamesOnce D) (hlf : LooseFine D)
    (n : Nat) (p : Text) (hn : rank p < n) (hl : (D.loose p).isSome = true) (past : List (Disk × LiveCall))
    (hpast : ∀ e ∈ past, Before D e.1) (ops : List LookUp) {part : Bytes} {digits : List Nat} (hs : Spells part digits)
    (h3 : 3 ≤ digits.length) (h40 : digits.length ≤ 40) :
    let L := leafOps order (fun d db sha => db.stream fuel order d sha) getL
    let O := liveOps orderT L n
    let t := past.foldl (fun t e => callStep O e.1 t e.2) (freshNode n p)
    Resolves (fun x => ∃ q, AltReach D p q ∧ SiteLead D digits q x)
      (liveComplete orderT L n D (ops.foldl (lookUp orderT L n D) (O.update D t true).1) part).2 := by
  intro L O t
  have hinv : NodeInv D n p t := nodeInv_past zl fuel ho hoT getL n p past hpast
  obtain ⟨-, h2, -⟩ := node_refreshed fuel ho hoT getL hg hr hrank (S := AltReach D p) (fun _ _ h h' => altReach_snoc h' h) n p t hn
    (.refl p) hl hinv
  obtain ⟨f1, f2⟩ := node_full zl fuel ho hoT getL hg hr hrank n p t hn hl hinv
  obtain ⟨a1, a2, -, a4⟩ := lookUps_same zl fuel ho orderT getL (AltReach D p) ops _ h2 f2
  have := full_resolves fuel orderT getL (AltReach D p) hn1 hlf a1 a2 hs h3 h40
  rw [a4, f1] at this
  exact this

/-- **C86 (abbreviations in a `GitDB` with alternates).**  Compared with the objects that are there: an answer is one of them that matches;
`BadObject` is raised exactly if none matches; `AmbiguousObjectName` only if two do; and if exactly one does, it is the answer. -/
theorem C86_now (zl : Zlib) (fuel : Nat) {order : List Bytes → List Bytes} (ho : ∀ l, (order l).Perm l)
    {orderT : List Text → List Text} (hoT : ∀ l, (orderT l).Perm l) (getL : Fs → Bytes → Res OStream) {D : Disk}
    (hg : ∀ q d, D.pack q = some d → GoodDir d) (hr : Readable D) {rank : Text → Nat} (hrank : ∀ p q, Alt D p q → rank q < rank p)
    (hn1 : NamesOnce D) (hlf : LooseFine D)
    (n : Nat) (p : Text) (hn : rank p < n) (hl : (D.loose p).isSome = true) (past : List (Disk × LiveCall))
    (hpast : ∀ e ∈ past, Before D e.1) (ops : List LookUp) {part : Bytes} {digits : List Nat} (hs : Spells part digits)
    (h3 : 3 ≤ digits.length) (h40 : digits.length ≤ 40) :
    let L := leafOps order (fun d db sha => db.stream fuel order d sha) getL
    let O := liveOps orderT L n
    let t := past.foldl (fun t e => callStep O e.1 t e.2) (freshNode n p)
    let r := (liveComplete orderT L n D (ops.foldl (lookUp orderT L n D) (O.update D t true).1) part).2
    let M := fun x : Bytes => x.length = 20 ∧ HasDigits digits x ∧ ∃ q, AltReach D p q ∧ SiteNow D q x
    ((∃ x, r = .ok x) ∨ r = .error .badObject ∨ r = .error .ambiguousObjectName) ∧
    (∀ x, r = .ok x → M x) ∧ (r = .error .badObject ↔ ¬ ∃ x, M x) ∧ (r = .error .ambiguousObjectName → ∃ x y, x ≠ y ∧ M x ∧ M y) ∧
    ∀ x, M x → (∀ y, M y → y = x) → r = .ok x := by
  intro L O t r M
  have h := C86_complete zl fuel ho hoT getL hg hr hrank hn1 hlf n p hn hl past hpast ops hs h3 h40
  change Resolves _ r at h
  clear_value r
  have lead : ∀ x, (∃ q, AltReach D p q ∧ SiteLead D digits q x) → M x := by
    rintro x ⟨q, hq, ⟨d, hd, pk, c1, c2, i, ns, c3, c4, c5⟩ | ⟨c1, c2, c3⟩⟩
    · have hm := List.mem_of_find?_eq_some c5
      exact ⟨isIndex_len c4 x hm, by simpa using List.find?_some c5, q, hq, .inl ⟨d, hd, pk, c1, c2, i, ns, c3, c4, hm⟩⟩
    · exact ⟨c2, c3, q, hq, .inr c1⟩
  have some : ∀ x, M x → ∃ x, ∃ q, AltReach D p q ∧ SiteLead D digits q x := by
    rintro x ⟨k1, k2, q, hq, ⟨d, hd, pk, c1, c2, i, ns, c3, c4, c5⟩ | c1⟩
    · rcases hf : ns.find? (fun n => decide (HasDigits digits n)) with _ | y
      · exact absurd k2 (by simpa using List.find?_eq_none.mp hf x c5)
      · exact ⟨y, q, hq, .inl ⟨d, hd, pk, c1, c2, i, ns, c3, c4, hf⟩⟩
    · exact ⟨x, q, hq, .inr ⟨c1, k1, k2⟩⟩
  match r, h with
  | .ok x, h =>
    refine ⟨.inl ⟨x, rfl⟩, fun y hy => by (cases hy; exact lead x h.1), ⟨fun e => by (cases e), fun e => absurd ⟨x, lead x h.1⟩ e⟩,
      fun e => by (cases e), fun y hy hu => ?_⟩
    rw [hu x (lead x h.1)]
  | .error .badObject, h =>
    have hno : ¬ ∃ x, M x := fun ⟨x, hx⟩ => by
      obtain ⟨y, hy⟩ := some x hx
      exact h y hy
    exact ⟨.inr (.inl rfl), fun y hy => by (cases hy), ⟨fun _ => hno, fun _ => rfl⟩, fun e => by (cases e), fun x hx _ => absurd ⟨x, hx⟩ hno⟩
  | .error .ambiguousObjectName, ⟨x, y, hxy, hx, hy⟩ =>
    exact ⟨.inr (.inr rfl), fun y hy => by (cases hy), ⟨fun e => by (cases e), fun e => absurd ⟨x, lead x hx⟩ e⟩,
      fun _ => ⟨x, y, hxy, lead x hx, lead y hy⟩, fun z hz hu => absurd ((hu x (lead x hx)).trans (hu y (lead y hy)).symm) hxy⟩

/-- **C86 (reads afterwards).**  Reads and abbreviations in any order change nothing: `stream` and `has_object` remain right. -/
theorem C86_reads (zl : Zlib) (fuel : Nat) {order : List Bytes → List Bytes} (ho : ∀ l, (order l).Perm l)
    {orderT : List Text → List Text} (hoT : ∀ l, (orderT l).Perm l) (getL : Fs → Bytes → Res OStream) {D : Disk}
    (hg : ∀ q d, D.pack q = some d → GoodDir d) (hr : Readable D) {rank : Text → Nat} (hrank : ∀ p q, Alt D p q → rank q < rank p)
    (n : Nat) (p : Text) (hn : rank p < n) (hl : (D.loose p).isSome = true) (past : List (Disk × LiveCall))
    (hpast : ∀ e ∈ past, Before D e.1) (ops : List LookUp) (sha : Bytes) (hne : sha ≠ []) :
    let L := leafOps order (fun d db sha => db.stream fuel order d sha) getL
    let O := liveOps orderT L n
    let t := past.foldl (fun t e => callStep O e.1 t e.2) (freshNode n p)
    let t' := ops.foldl (lookUp orderT L n D) (O.update D t true).1
    (∃ b, (O.has D t' sha).2 = .ok b ∧ (b = true ↔ ∃ q, AltReach D p q ∧ SiteNow D q sha)) ∧
    ((∃ q, AltReach D p q ∧ SiteNow D q sha) → ∃ q, AltReach D p q ∧ ReadAt getL fuel D q sha (O.get D t' sha).2) ∧
    ((¬ ∃ q, AltReach D p q ∧ SiteNow D q sha) → (O.get D t' sha).2 = .error .badObject) := by
  intro L O t t'
  have hinv : NodeInv D n p t := nodeInv_past zl fuel ho hoT getL n p past hpast
  obtain ⟨-, h2, h3⟩ := node_refreshed fuel ho hoT getL hg hr hrank (S := AltReach D p) (fun _ _ h h' => altReach_snoc h' h) n p t hn
    (.refl p) hl hinv
  obtain ⟨-, f2⟩ := node_full zl fuel ho hoT getL hg hr hrank n p t hn hl hinv
  obtain ⟨a1, -, a3, -⟩ := lookUps_same zl fuel ho orderT getL (AltReach D p) ops _ h2 f2
  have hleaf := leafSeen_locates zl fuel ho getL (AltReach D p)
  obtain ⟨b, b1, b2⟩ := (live_locates hleaf orderT n).has a1 sha hne
  obtain ⟨g1, g2⟩ := live_get hleaf (leaf_serves zl fuel order getL (AltReach D p)) orderT n D _ a1 sha hne
  exact ⟨⟨b, b1, b2.trans ((a3 sha).trans (h3 sha))⟩, fun h => g1 ((a3 sha).mpr ((h3 sha).mpr h)),
    fun h => g2 fun h' => h ((h3 sha).mp ((a3 sha).mp h'))⟩

/-! ### Capital letters -/

theorem hexToBin_capitals (h : Bytes) : hexToBin (h.map lowerDigit) = hexToBin h := by
  have idem : (h.map lowerDigit).map lowerDigit = h.map lowerDigit := by
    rw [List.map_map]
    refine List.map_congr_left fun c _ => ?_
    have key : ∀ k < 256, lowerDigit (lowerDigit (UInt8.ofNat k)) = lowerDigit (UInt8.ofNat k) := by decide +kernel
    have := key c.toNat c.toNat_lt
    rwa [UInt8.ofNat_toNat] at this
  have e : ∀ b, hexToBin (h.map lowerDigit) = .ok b ↔ hexToBin h = .ok b := fun b => by
    rw [(C05_decodes _ b).1, (C05_decodes h b).1, idem]
  rcases (C05_decodes h []).2 with ⟨b, hb⟩ | hb
  · rw [hb, (e b).mpr hb]
  · rcases (C05_decodes (h.map lowerDigit) []).2 with ⟨b, hb'⟩ | hb'
    · rw [(e b).mp hb'] at hb; cases hb
    · rw [hb, hb']

/-- **C86 (capital letters).**  In packs an abbreviation with capital letters finds the same objects as the one in lower case.  Among loose
objects it finds none. -/
theorem C86_capitals (order : List Bytes → List Bytes) (get : Option PackDir → PackedDB → Bytes → PackedDB × Res α) (dir : Option PackDir)
    (db : PackedDB) (part : Bytes) :
    (packedOps order get).complete dir db (part.map lowerDigit) = (packedOps order get).complete dir db part ∧
    ∀ (base : Bytes) (fs : Fs) (walk : List (Path × List Bytes)), IsWalk fs walk → ObjectLayout base fs → ¬ LowerHex part →
      loosePartial (seen base walk) part = .error .badObject := by
  constructor
  · have e : hexToBin (if (part.map lowerDigit).length % 2 ≠ 0 then part.map lowerDigit ++ [0x30] else part.map lowerDigit) =
        hexToBin (if part.length % 2 ≠ 0 then part ++ [0x30] else part) := by
      rw [List.length_map]
      split
      · rw [← hexToBin_capitals (part ++ [0x30]), List.map_append]
        rfl
      · exact hexToBin_capitals part
    rw [List.length_map] at e
    simp only [packedOps, List.length_map]
    rw [e]
  · intro base fs walk hw hl hp
    refine (C38_partial_to_complete base fs walk hw hl part).2.1.mpr ?_
    rintro n - - ⟨h, h1, h2⟩
    refine hp fun c hc => ?_
    have h1 : Spells h (nibbles n) := h1
    exact spells_lower h1 c (h2.subset hc)

/-! ### A case -/

/-- `/a` with two packs, `/b` with the loose object `abcd00...`. -/
def partDisk (d : PackDir) (alts : Text) : Disk where
  pack := (liveDisk d alts).pack
  loose := fun p => if p = rootA then some (fun _ => none, seen [111] [([], [])]) else
    if p = rootB then some (oneFs, seen [111] oneWalk) else none
  alt := (liveDisk d alts).alt

theorem partDisk_alt (d : PackDir) (alts p q : Text) : Alt (partDisk d alts) p q ↔ Alt (liveDisk d alts) p q := by
  have e : ((partDisk d alts).loose q).isSome = ((liveDisk d alts).loose q).isSome := by
    simp only [partDisk, liveDisk]
    split
    · rfl
    · split <;> rfl
  unfold Alt
  rw [e]
  rfl

theorem partDisk_reach (d : PackDir) {q : Text} (h : AltReach (partDisk d (rootB ++ ['\n'])) rootA q) : q = rootA ∨ q = rootB := by
  refine liveDisk_reach d ?_
  generalize rootA = p at h ⊢
  induction h with
  | refl p => exact .refl p
  | step h _ ih => exact .step ((partDisk_alt d _ _ _).mp h) ih

theorem partDisk_fine (d : PackDir) (alts : Text) : LooseFine (partDisk d alts) where
  walk := fun q w h => by
    simp only [partDisk] at h
    split at h
    · cases h
      refine ⟨[111], _, rfl, ⟨by decide, fun p => by simp, by decide, fun w hw f => ?_⟩, ⟨by decide, fun _ _ h => by (cases h), fun _ _ h => by (cases h)⟩⟩
      obtain rfl := List.mem_singleton.mp hw
      simp [IsFile]
    · split at h
      · cases h
        exact ⟨[111], _, rfl, oneWalk_isWalk, oneFs_layout⟩
      · cases h
  files := fun q w x h hx hf => by
    simp only [partDisk] at h
    split at h
    · cases h; cases hf
    · split at h
      · cases h
        refine ⟨_, ⟨binToHex x, binToHex_isHexOf x, rfl⟩, ?_⟩
        have hf : (oneFs [(binToHex x).take 2, (binToHex x).drop 2]).isSome = true := hf
        unfold oneFs at hf
        split at hf
        · rename_i e; simp at e
        · split at hf
          · rename_i e
            rw [e]
            exact ⟨⟨_, _, rfl⟩, rfl⟩
          · cases hf
      · cases h

theorem partDisk_good (d : PackDir) (hd : GoodDir d) (alts : Text) : ∀ q d', (partDisk d alts).pack q = some d' → GoodDir d' :=
  liveDisk_good d hd alts

theorem partDisk_readable (d : PackDir) (alts : Text) : Readable (partDisk d alts) := liveDisk_readable d alts

theorem partDisk_before (d : PackDir) (m : Int) : Before (partDisk d (rootB ++ ['\n'])) (partDisk ⟨m, []⟩ []) where
  pack := (liveDisk_before d m).pack
  loose := fun _ => rfl
  alt := (liveDisk_before d m).alt
  wf := (liveDisk_before d m).wf
  same := (liveDisk_before d m).same
  keep := fun q x x' h h' sha hs => by
    have h' : (partDisk d (rootB ++ ['\n'])).loose q = some x' := h'
    rw [h] at h'; cases h'; exact hs

theorem partDisk_pack (d : PackDir) (alts : Text) {q : Text} {d' : PackDir} (h : (partDisk d alts).pack q = some d') : d' = d := by
  simp only [partDisk, liveDisk] at h
  split at h
  · cases h; rfl
  · cases h

theorem bothPacks_index {p i : Bytes} {ns : List Bytes} (h1 : p ∈ bothPacks.files.map Prod.fst) (h2 : IsPackName p)
    (h : bothPacks.get (idxName p) = some i) (hi : IsIndex i ns) :
    ns = exEntries.map Entry.name ∨ ns = (exEntries.take 1).map Entry.name := by
  have := (mem_packs bothPacks p).mpr ⟨h1, h2⟩
  rw [bothPacks_packs] at this
  simp only [List.mem_cons, List.not_mem_nil, or_false] at this
  rcases this with rfl | rfl
  · have e : bothPacks.get (idxName nameA) = some (indexV2 exEntries [] []) := by
      unfold bothPacks
      generalize indexV2 exEntries [] [] = ia
      generalize indexV1 (exEntries.take 1) [] [] = ib
      rfl
    rw [e] at h
    cases h
    exact .inl (isIndex_unique hi exEntries_isIndex)
  · have e : bothPacks.get (idxName nameB) = some (indexV1 (exEntries.take 1) [] []) := by
      unfold bothPacks
      generalize indexV2 exEntries [] [] = ia
      generalize indexV1 (exEntries.take 1) [] [] = ib
      rfl
    rw [e] at h
    cases h
    exact .inr (isIndex_unique hi exEntries1_isIndex)

theorem partDisk_once (alts : Text) : NamesOnce (partDisk bothPacks alts) := by
  intro q d p i ns h1 h2 h3 h4 h5
  obtain rfl := partDisk_pack _ _ h1
  rcases bothPacks_index h2 h3 h4 h5 with rfl | rfl <;> decide

/-- What is there, in this case. -/
theorem partDisk_lead (digits : List Nat) (x : Bytes) :
    (∃ q, AltReach (partDisk bothPacks (rootB ++ ['\n'])) rootA q ∧ SiteLead (partDisk bothPacks (rootB ++ ['\n'])) digits q x) ↔
      (exEntries.map Entry.name).find? (fun n => decide (HasDigits digits n)) = some x ∨
      ((exEntries.take 1).map Entry.name).find? (fun n => decide (HasDigits digits n)) = some x ∨
      x = [0xab, 0xcd] ++ List.replicate 18 0 ∧ HasDigits digits x := by
  constructor
  · rintro ⟨q, hq, ⟨d, hd, p, h1, h2, i, ns, h3, h4, h5⟩ | ⟨⟨w, hw, h1⟩, h2, h3⟩⟩
    · obtain rfl := partDisk_pack _ _ hd
      rcases bothPacks_index h1 h2 h3 h4 with rfl | rfl
      · exact .inl h5
      · exact .inr (.inl h5)
    · rcases partDisk_reach _ hq with rfl | rfl
      · cases hw; cases h1
      · cases hw
        refine .inr (.inr ⟨?_, h3⟩)
        have h1 : (oneFs [(binToHex x).take 2, (binToHex x).drop 2]).isSome = true := h1
        unfold oneFs at h1
        split at h1
        · rename_i e; simp at e
        · split at h1
          · rename_i e
            simp only [List.cons.injEq, and_true] at e
            have := congrArg hexToBin (show binToHex x = [97, 98] ++ oneFile by rw [← List.take_append_drop 2 (binToHex x), e.1, e.2])
            rw [hexToBin_binToHex, show hexToBin ([97, 98] ++ oneFile) = .ok ([0xab, 0xcd] ++ List.replicate 18 0) by decide +kernel] at this
            exact Except.ok.inj this
          · cases h1
  · have hA : ∀ p ∈ [nameA, nameB], p ∈ bothPacks.files.map Prod.fst ∧ IsPackName p := fun p hp =>
      (mem_packs bothPacks p).mp (by rw [bothPacks_packs]; exact hp)
    rintro (h | h | ⟨rfl, h⟩)
    · exact ⟨rootA, .refl _, .inl ⟨bothPacks, rfl, nameA, (hA _ (by simp)).1, (hA _ (by simp)).2, _, _, rfl, exEntries_isIndex, h⟩⟩
    · exact ⟨rootA, .refl _, .inl ⟨bothPacks, rfl, nameB, (hA _ (by simp)).1, (hA _ (by simp)).2, _, _, rfl, exEntries1_isIndex, h⟩⟩
    · exact ⟨rootB, .step ((partDisk_alt _ _ _ _).mpr (liveDisk_alt _)) (.refl _), .inr ⟨⟨_, rfl, by decide +kernel⟩, by decide, h⟩⟩

/-- A `GitDB` at `/a` used before packs and an alternate were added, then refreshed and used again; the answer to an abbreviation. -/
def partAnswer (getL : Fs → Bytes → Res OStream) (early : Bytes) (d : PackDir) (part : Bytes) : Res Bytes :=
  let L := leafOps List.reverse (fun d db sha => db.stream 5 List.reverse d sha) getL
  let O := liveOps id L 2
  let D := partDisk d (rootB ++ ['\n'])
  let t := [(partDisk ⟨1, []⟩ [], LiveCall.read (.has early)), (partDisk ⟨2, []⟩ [], .update false)].foldl
    (fun t e => callStep O e.1 t e.2) (freshNode 2 rootA)
  (liveComplete id L 2 D ([LookUp.complete [97, 98], .read (.has early)].foldl (lookUp id L 2 D) (O.update D t true).1) part).2

theorem partAnswer_resolves (zl : Zlib) (getL : Fs → Bytes → Res OStream) (early : Bytes) (d : PackDir) (hg : GoodDir d)
    (hn : NamesOnce (partDisk d (rootB ++ ['\n']))) (part : Bytes) (digits : List Nat) (hp : Spells part digits) (h3 : 3 ≤ digits.length)
    (h40 : digits.length ≤ 40) (r : Res Bytes) (hr : partAnswer getL early d part = r) :
    Resolves (fun x => ∃ q, AltReach (partDisk d (rootB ++ ['\n'])) rootA q ∧ SiteLead (partDisk d (rootB ++ ['\n'])) digits q x) r := by
  rw [← hr]
  exact C86_complete zl 5 (order := List.reverse) (fun l => List.reverse_perm l) (orderT := id) (fun l => .refl l) getL
    (partDisk_good d hg _) (partDisk_readable d _)
    (fun p q h => liveDisk_rank d p q ((partDisk_alt _ _ _ _).mp h)) hn (partDisk_fine _ _) 2 rootA (by decide) rfl
    [(partDisk ⟨1, []⟩ [], LiveCall.read (.has early)), (partDisk ⟨2, []⟩ [], .update false)]
    (fun e he => by
      simp only [List.mem_cons, List.not_mem_nil, or_false] at he
      rcases he with rfl | rfl <;> exact partDisk_before _ _) [LookUp.complete [97, 98], .read (.has early)] hp h3 h40

/-- The abbreviations `abc`, `abd` and `c00`.  The last one is that of two objects in one pack, of which the first is given. -/
example (zl : Zlib) (getL : Fs → Bytes → Res OStream) (early : Bytes) :
    partAnswer getL early bothPacks [97, 98, 99] = .ok ([0xab, 0xcd] ++ List.replicate 18 0) ∧
    partAnswer getL early bothPacks [97, 98, 100] = .error .badObject ∧
    partAnswer getL early bothPacks [99, 48, 48] = .ok (0xc0 :: List.replicate 19 0) := by
  have hre := partAnswer_resolves zl getL early bothPacks bothPacks_good (partDisk_once _)
  generalize partAnswer getL early bothPacks = f at hre ⊢
  have one : ∀ {M : Bytes → Prop} {r : Res Bytes} (x : Bytes), Resolves M r → (∀ y, M y ↔ y = x) → r = .ok x := by
    intro M r x h hM
    match r, h with
    | .ok y, h => rw [(hM y).mp h.1]
    | .error .badObject, h => exact absurd ((hM x).mpr rfl) (h x)
    | .error .ambiguousObjectName, ⟨a, b, hab, ha, hb⟩ => exact absurd (((hM a).mp ha).trans ((hM b).mp hb).symm) hab
  have none : ∀ {M : Bytes → Prop} {r : Res Bytes}, Resolves M r → (∀ y, ¬ M y) → r = .error .badObject := by
    intro M r h hM
    match r, h with
    | .ok y, h => exact absurd h.1 (hM y)
    | .error .badObject, h => rfl
    | .error .ambiguousObjectName, ⟨a, b, hab, ha, hb⟩ => exact absurd ha (hM a)
  have m1 : ∀ y, (∃ q, AltReach (partDisk bothPacks (rootB ++ ['\n'])) rootA q ∧
      SiteLead (partDisk bothPacks (rootB ++ ['\n'])) [10, 11, 12] q y) ↔ y = [0xab, 0xcd] ++ List.replicate 18 0 := by
    intro y
    rw [partDisk_lead, show (exEntries.map Entry.name).find? (fun n => decide (HasDigits [10, 11, 12] n)) = .none by decide +kernel,
      show ((exEntries.take 1).map Entry.name).find? (fun n => decide (HasDigits [10, 11, 12] n)) = .none by decide +kernel]
    simp only [reduceCtorEq, false_or]
    exact ⟨And.left, fun h => ⟨h, h ▸ by decide +kernel⟩⟩
  have m2 : ∀ y, ¬ ∃ q, AltReach (partDisk bothPacks (rootB ++ ['\n'])) rootA q ∧
      SiteLead (partDisk bothPacks (rootB ++ ['\n'])) [10, 11, 13] q y := by
    intro y
    rw [partDisk_lead, show (exEntries.map Entry.name).find? (fun n => decide (HasDigits [10, 11, 13] n)) = .none by decide +kernel,
      show ((exEntries.take 1).map Entry.name).find? (fun n => decide (HasDigits [10, 11, 13] n)) = .none by decide +kernel]
    rintro (h | h | ⟨rfl, h⟩)
    · cases h
    · cases h
    · exact absurd h (by decide +kernel)
  have m3 : ∀ y, (∃ q, AltReach (partDisk bothPacks (rootB ++ ['\n'])) rootA q ∧
      SiteLead (partDisk bothPacks (rootB ++ ['\n'])) [12, 0, 0] q y) ↔ y = 0xc0 :: List.replicate 19 0 := by
    intro y
    rw [partDisk_lead, show (exEntries.map Entry.name).find? (fun n => decide (HasDigits [12, 0, 0] n)) = some (0xc0 :: List.replicate 19 0) by decide +kernel,
      show ((exEntries.take 1).map Entry.name).find? (fun n => decide (HasDigits [12, 0, 0] n)) = .none by decide +kernel]
    constructor
    · rintro (h | h | ⟨rfl, h⟩)
      · exact (Option.some.inj h).symm
      · cases h
      · exact absurd h (by decide +kernel)
    · rintro rfl; exact .inl rfl
  exact ⟨one _ (hre [97, 98, 99] [10, 11, 12] rfl (by decide) (by decide) _ rfl) m1,
    none (hre [97, 98, 100] [10, 11, 13] rfl (by decide) (by decide) _ rfl) m2,
    one _ (hre [99, 48, 48] [12, 0, 0] rfl (by decide) (by decide) _ rfl) m3⟩

end GitDB.Props
