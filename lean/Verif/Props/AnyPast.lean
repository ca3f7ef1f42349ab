import Verif.Props.RefreshRaises
import Verif.Props.LiveComplete
/-!
# C97: histories with abbreviations; abbreviations are completed only to names that were there
-/
set_option autoImplicit false

namespace GitDB.Props
open GitDB Spec

variable {ω σ τ α β : Type}

/-! ## Collecting the databases at the ends -/

/-- A part below which everything has been loaded. -/
def PartLoaded (P : σ → Prop) : GitLeaf ⊕ RefNode σ → Prop
  | .inl _ => True
  | .inr r => ∃ ds, r.db.dbs = some ds ∧ ∀ y ∈ ds, P y.2

/-- A `GitDB` below which everything has been loaded. -/
def NodeLoaded : (n : Nat) → GitNode n → Prop
  | 0, _ => False
  | n + 1, t => ∃ l, GitState.dbs t = some l ∧ ∀ x ∈ l, PartLoaded (NodeLoaded n) x

theorem eachDb_ends {f : σ → σ × Res β} {P : σ → Prop} {g : σ → β} {h : σ → τ} : ∀ (l l' : List σ) (ys : List β),
    (∀ s s' y, f s = (s', .ok y) → P s' ∧ y = g s' ∧ h s' = h s) → eachDb f l = (l', .ok ys) →
      (∀ s ∈ l', P s) ∧ ys = l'.map g ∧ l'.map h = l.map h
  | [], l', ys, _, e => by cases e; exact ⟨by simp, rfl, rfl⟩
  | s :: l, l', ys, hf, e => by
    unfold eachDb at e
    rcases hs : f s with ⟨s', e' | y⟩
    · rw [hs] at e; cases e
    · rw [hs] at e
      simp only at e
      rcases hl : eachDb f l with ⟨l1, e' | ys1⟩
      · rw [hl] at e; cases e
      · rw [hl] at e
        cases e
        obtain ⟨h1, h2, h3⟩ := hf s s' y hs
        obtain ⟨k1, k2, k3⟩ := eachDb_ends l l1 ys1 hf hl
        exact ⟨List.forall_mem_cons.mpr ⟨h1, k1⟩, by rw [h2, k2]; rfl, by rw [List.map_cons, List.map_cons, h3, k3]⟩

/-- Collecting, if there is no exception, gives the databases at the ends of what has been loaded then. -/
theorem collect_ends (orderT : List Text → List Text) (D : Disk) : ∀ (n : Nat) (t t' : GitNode n) (leaves : List GitLeaf),
    liveCollect orderT n D t = (t', .ok leaves) → NodeLoaded n t' ∧ leaves = liveEnds n t'
  | 0, _, _, _, e => by cases e
  | n + 1, t, t', leaves, e => by
    have ih := collect_ends orderT D n
    unfold liveCollect at e
    rcases hl : GitState.load D t with ⟨g, e' | l⟩
    · rw [hl] at e; cases e
    · rw [hl] at e
      simp only at e
      generalize hF : (fun x : GitLeaf ⊕ RefNode (GitNode n) => (match x with
        | .inl s => (.inl s, .ok [])
        | .inr r =>
          let y := r.use orderT (newNode n) D fun c =>
            let z := eachDb (fun d => let u := liveCollect orderT n D d.2; ((d.1, u.1), u.2)) c.dbs
            ({ c with dbs := z.1 }, z.2.map List.flatten)
          (.inr y.1, y.2) : (GitLeaf ⊕ RefNode (GitNode n)) × Res (List GitLeaf))) = F at e
      have hp : ∀ s s' y, F s = (s', .ok y) → PartLoaded (NodeLoaded n) s' ∧ y = refEnds (liveEnds n) s' ∧ partLeaf s' = partLeaf s := by
        subst hF
        rintro (s | r) s' y hs
        · cases hs; exact ⟨trivial, rfl, rfl⟩
        · simp only [RefNode.use] at hs
          rcases hr : r.db.load orderT (newNode n D) (D.altFile r.root) with ⟨db, e' | ds⟩
          · rw [hr] at hs; cases hs
          · rw [hr] at hs
            simp only at hs
            rcases hz : eachDb (fun d : Text × GitNode n => let u := liveCollect orderT n D d.2; ((d.1, u.1), u.2)) ds with ⟨ds', e' | zs⟩
            · simp only [hz] at hs; cases hs
            · simp only [hz] at hs
              cases hs
              obtain ⟨k1, k2, -⟩ := eachDb_ends (P := fun d : Text × GitNode n => NodeLoaded n d.2) (g := fun d => liveEnds n d.2)
                (h := Prod.fst) ds ds' zs (by
                  rintro d d' y hd
                  rcases hu : liveCollect orderT n D d.2 with ⟨u, e' | ls⟩
                  · simp only [hu] at hd; cases hd
                  · simp only [hu] at hd
                    cases hd
                    obtain ⟨m1, m2⟩ := ih d.2 u _ hu
                    exact ⟨m1, m2, rfl⟩) hz
              refine ⟨⟨ds', rfl, k1⟩, ?_, rfl⟩
              show zs.flatten = ds'.flatMap fun d => liveEnds n d.2
              rw [k2, List.flatMap_def]
      rcases hx : eachDb F l with ⟨l', e' | xs⟩
      · rw [hx] at e; cases e
      · rw [hx] at e
        cases e
        obtain ⟨k1, k2, k3⟩ := eachDb_ends l l' xs hp hx
        refine ⟨⟨l', rfl, k1⟩, ?_⟩
        show l.flatMap partLeaf ++ xs.flatten = l'.flatMap partLeaf ++ l'.flatMap (refEnds (liveEnds n))
        rw [k2, List.flatMap_def, List.flatMap_def, List.flatMap_def, k3]

/-! ## Putting them back -/

/-- What becomes of a part if `R` is what becomes of databases at the ends. -/
def PartRel (R : GitLeaf → GitLeaf → Prop) (N : σ → σ → Prop) : GitLeaf ⊕ RefNode σ → GitLeaf ⊕ RefNode σ → Prop
  | .inl s, .inl s' => R s s'
  | .inr r, .inr r' => r'.root = r.root ∧ r'.db.cache = r.db.cache ∧
      ∃ ds ds', r.db.dbs = some ds ∧ r'.db.dbs = some ds' ∧ All2 (fun y y' => y'.1 = y.1 ∧ N y.2 y'.2) ds ds'
  | _, _ => False

/-- What becomes of a `GitDB`. -/
def NodeRel (R : GitLeaf → GitLeaf → Prop) : (n : Nat) → GitNode n → GitNode n → Prop
  | 0, _, _ => False
  | n + 1, t, t' => GitState.root t' = GitState.root t ∧ GitState.cache t' = GitState.cache t ∧
      ∃ l l', GitState.dbs t = some l ∧ GitState.dbs t' = some l' ∧ All2 (PartRel R (NodeRel R n)) l l'

/-- After the first pass. -/
def PassLeaf (R : GitLeaf → GitLeaf → Prop) : GitLeaf ⊕ RefNode σ → GitLeaf ⊕ RefNode σ → Prop
  | .inl s, .inl s' => R s s'
  | .inr r, .inr r' => r' = r
  | _, _ => False

/-- After the second pass. -/
def PassRef (N : σ → σ → Prop) : GitLeaf ⊕ RefNode σ → GitLeaf ⊕ RefNode σ → Prop
  | .inl s, .inl s' => s' = s
  | .inr r, .inr r' => r'.root = r.root ∧ r'.db.cache = r.db.cache ∧
      ∃ ds ds', r.db.dbs = some ds ∧ r'.db.dbs = some ds' ∧ All2 (fun y y' => y'.1 = y.1 ∧ N y.2 y'.2) ds ds'
  | _, _ => False

theorem put_rel {R : GitLeaf → GitLeaf → Prop} : ∀ (n : Nat) (t : GitNode n), NodeLoaded n t → ∀ ls rest, All2 R (liveEnds n t) ls →
    (livePut n t (ls ++ rest)).2 = rest ∧ NodeRel R n t (livePut n t (ls ++ rest)).1
  | 0, _, h, _, _, _ => h.elim
  | n + 1, t, ⟨l, h1, h2⟩, ls, rest, hls => by
    have ih := put_rel (R := R) n
    unfold liveEnds at hls
    rw [h1, Option.getD_some] at hls
    obtain ⟨a, b, rfl, ha, hb⟩ := all2_append_split _ _ _ hls
    obtain ⟨p1, p2⟩ := putBackList_all2 (put := putLeaf (σ := GitNode n)) (R := PassLeaf R) l a (b ++ rest) (by
      rintro (s | r) - m rest hm
      · cases hm with
        | cons h t => cases t; exact ⟨rfl, h⟩
      · cases hm; exact ⟨rfl, rfl⟩) ha
    rcases hx : putBackList (putLeaf (σ := GitNode n)) (fun _ => true) l (a ++ (b ++ rest)) with ⟨l1, rest1⟩
    rw [hx] at p1 p2
    simp only at p1 p2
    subst p1
    have hends : l1.flatMap (refEnds (liveEnds n)) = l.flatMap (refEnds (liveEnds n)) := by
      have := all2_map_eq (g := refEnds (liveEnds n)) (fun x x' h => by
        rcases x with s | r <;> rcases x' with s' | r'
        · rfl
        · exact h.elim
        · exact h.elim
        · have h : r' = r := h
          rw [h]) p2
      rw [List.flatMap_def, List.flatMap_def, this]
    rw [← hends] at hb
    have hl1 : ∀ x ∈ l1, (∀ r, x = .inr r → x ∈ l) := by
      intro x hx r e
      subst e
      obtain ⟨x0, hx0, h0⟩ := all2_origin p2 _ hx
      rcases x0 with s | r0
      · exact h0.elim
      · have h0 : r = r0 := h0
        rw [h0]
        exact hx0
    obtain ⟨q1, q2⟩ := putBackList_all2 (put := putRef (livePut n)) (R := PassRef (NodeRel R n)) l1 b rest (by
      rintro (s | r) hr m rest hm
      · cases hm; exact ⟨rfl, rfl⟩
      · obtain ⟨ds, e1, e2⟩ := h2 _ (hl1 _ hr r rfl)
        have hm : All2 R ((r.db.dbs.getD []).flatMap fun y => liveEnds n y.2) m := hm
        rw [e1, Option.getD_some] at hm
        obtain ⟨g1, g2⟩ := putBackList_all2 (put := fun (d : Text × GitNode n) l => ((d.1, (livePut n d.2 l).1), (livePut n d.2 l).2))
          (R := fun y y' => y'.1 = y.1 ∧ NodeRel R n y.2 y'.2) ds m rest (fun y hy m rest hm => by
            obtain ⟨c1, c2⟩ := ih y.2 (e2 y hy) m rest hm
            exact ⟨c1, rfl, c2⟩) hm
        simp only [putRef, e1]
        exact ⟨g1, rfl, rfl, ds, _, e1, rfl, g2⟩) hb
    rcases hy : putBackList (putRef (livePut n)) (fun _ => true) l1 (b ++ rest) with ⟨l2, rest2⟩
    rw [hy] at q1 q2
    simp only at q1 q2
    subst q1
    have hput : livePut (n + 1) t (a ++ b ++ rest2) = ((⟨GitState.root t, some l2, GitState.cache t⟩ : GitState (GitNode n)), rest2) := by
      simp only [livePut]
      have h1 : GitState.dbs t = some l := h1
      rw [h1]
      simp only [List.append_assoc]
      rw [hx]
      simp only
      rw [hy]
      rfl
    rw [hput]
    refine ⟨rfl, rfl, rfl, l, l2, h1, rfl, all2_comp ?_ p2 q2⟩
    rintro (s | r) (s1 | r1) (s2 | r2) hp hq
    · have hq : s2 = s1 := hq
      subst hq
      exact hp
    · exact hq.elim
    · exact hp.elim
    · exact hp.elim
    · exact hp.elim
    · exact hp.elim
    · exact hq.elim
    · have hp : r1 = r := hp
      subst hp
      exact hq

/-- A database as it is, or asked for the abbreviation. -/
def Asked (L : DbOps Disk GitLeaf α) (D : Disk) (part : Bytes) (s s' : GitLeaf) : Prop := s' = s ∨ s' = (L.complete D s part).1

/-- The state after an abbreviation: all loaded as far as possible; if that succeeded, then some of the databases at the ends are asked. -/
theorem complete_rel (orderT : List Text → List Text) (L : DbOps Disk GitLeaf α) (D : Disk) (n : Nat) (t : GitNode n) (part : Bytes) :
    (liveComplete orderT L n D t part).1 = (liveCollect orderT n D t).1 ∨
    NodeRel (Asked L D part) n (liveCollect orderT n D t).1 (liveComplete orderT L n D t part).1 := by
  unfold liveComplete
  rcases hl : liveCollect orderT n D t with ⟨t', e | leaves⟩
  · exact .inl rfl
  · obtain ⟨h1, rfl⟩ := collect_ends orderT D n t t' leaves hl
    simp only [completeHex]
    rcases hexToBin (if part.length % 2 ≠ 0 then part ++ [0x30] else part) with e | b
    · exact .inl rfl
    · right
      have hall := completeDbs_all2 (O := L) (w := D) (part := part) (R := Asked L D part) (liveEnds n t') none
        (fun s _ => ⟨.inl rfl, .inr rfl⟩)
      have h2 := (put_rel n t' h1 _ [] hall).2
      rw [List.append_nil] at h2
      simp only
      rcases (completeDbs L D part (liveEnds n t') none).2 with e | (_ | (_ | ⟨b, f⟩)) <;> exact h2

/-! ## What is kept: the invariants of C81 and C93 -/

theorem complete_fits (zl : Zlib) {Q : Bytes → Bytes → Prop} {order : List Bytes → List Bytes} (ho : ∀ l, (order l).Perm l)
    {dir : Option PackDir} (hd : ∀ d, dir = some d → d.Wf) (hq : ∀ p c, (dirFiles dir).get p = some c → Q p c)
    {db : PackedDB} (h : PackedFits Q db) (part : Bytes) (k : Nat) : PackedFits Q (db.partialToComplete order dir part k).1 := by
  constructor
  · obtain ⟨l, l', k1, k2, k3, -⟩ := step_paths zl order dir db (.complete part k)
    intro l1 hl1
    have k2 : (db.partialToComplete order dir part k).1.entities = some l' := k2
    rw [k2] at hl1
    cases hl1
    exact k3.nodup_iff.mpr (load_once ho hd h.1 l k1)
  · have h1 := load_fits ho hd hq h
    obtain ⟨l, e1, e2⟩ := load_entities order dir db
    unfold PackedDB.partialToComplete
    rcases hd' : db.load order dir with ⟨db1, e | l1⟩
    · rw [hd'] at h1; exact h1.2
    · rw [hd'] at h1 e1 e2
      obtain rfl := e2 l1 rfl
      have := completeLoop_fits hq part k none (h1.2 l1 e1)
      simp only
      rcases hx : completeLoop (dirFiles dir) part k l1 none with ⟨l2, e | _ | _ | ⟨b, x⟩⟩ <;>
      · rw [hx] at this
        intro l' hl'
        simp only [Option.some.injEq] at hl'
        subst hl'
        exact this

theorem packComplete_fits (zl : Zlib) {Q : Bytes → Bytes → Prop} {order : List Bytes → List Bytes} (ho : ∀ l, (order l).Perm l)
    (get : Option PackDir → PackedDB → Bytes → PackedDB × Res α)
    {dir : Option PackDir} (hd : ∀ d, dir = some d → d.Wf) (hq : ∀ p c, (dirFiles dir).get p = some c → Q p c)
    {db : PackedDB} (h : PackedFits Q db) (part : Bytes) : PackedFits Q ((packedOps order get).complete dir db part).1 := by
  simp only [packedOps]
  rcases hexToBin (if part.length % 2 ≠ 0 then part ++ [0x30] else part) with e | bin
  · exact h
  · exact complete_fits zl ho hd hq h bin part.length

/-- Abbreviations keep what C81 needs of the databases at the ends. -/
theorem leafInv_complete (zl : Zlib) {order : List Bytes → List Bytes} (ho : ∀ l, (order l).Perm l)
    (getP : Option PackDir → PackedDB → Bytes → PackedDB × Res α) (getL : Fs → Bytes → Res α) {D D' : Disk} (hb : Before D D') (s : GitLeaf)
    (part : Bytes) : leafSite ((leafOps order getP getL).complete D' s part).1 = leafSite s ∧
      (LeafInv D s → LeafInv D ((leafOps order getP getL).complete D' s part).1) := by
  cases s with
  | stop => exact ⟨rfl, fun h => h⟩
  | loose r db => exact ⟨rfl, fun h => h⟩
  | pack r db =>
    refine ⟨rfl, fun h => packComplete_fits zl ho getP (hb.wf r) ?_ h part⟩
    intro p c hc d hd c' hc'
    rcases hx : D'.pack r with _ | d'
    · rw [hx] at hc
      simp [dirFiles, PackDir.get] at hc
    · rw [hx] at hc
      exact hb.same r d d' _ c' c hd hx hc' hc

theorem collect_inv {orderT : List Text → List Text} (hoT : ∀ l, (orderT l).Perm l) {D D' : Disk} (hb : Before D D') :
    ∀ (n : Nat) (p : Text) (t : GitNode n), NodeInv D n p t → NodeInv D n p (liveCollect orderT n D' t).1
  | 0, _, _, _ => trivial
  | n + 1, p, t, h => by
    obtain ⟨h1, h2⟩ := gitLoad_inv hb h
    unfold liveCollect
    rcases hl : GitState.load D' t with ⟨g, e | l⟩
    · rw [hl] at h1; exact h1
    · rw [hl] at h1 h2
      obtain ⟨h3, h4⟩ := h1.2 l (h2 l rfl)
      simp only
      refine ⟨h1.1, fun l' hl' => ?_⟩
      cases hl'
      rw [← h3]
      refine eachDb_keep (g := partSite) (I := PartInv D (NodeInv D n)) ?_ l h4
      rintro (x | r) hx
      · exact ⟨rfl, hx⟩
      · obtain ⟨k1, k2⟩ := refUse_inv (D := D) (D' := D') hoT (fun p t => newNode_spec hb n p t)
          (fun c => let z := eachDb (fun d => let u := liveCollect orderT n D' d.2; ((d.1, u.1), u.2)) c.dbs
            ({ c with dbs := z.1 }, z.2.map List.flatten)) (fun c hc => by
              have h5 := eachDb_keep (f := fun d : Text × GitNode n => let u := liveCollect orderT n D' d.2; ((d.1, u.1), u.2)) (g := Prod.fst)
                (I := fun y => (D.loose y.1).isSome = true ∧ NodeInv D n y.1 y.2) (fun s hs => ⟨rfl, hs.1, collect_inv hoT hb n s.1 s.2 hs.2⟩)
                c.dbs hc.2
              exact ⟨by rw [h5.1]; exact hc.1, h5.2⟩) hx
        exact ⟨congrArg (fun x => some (Sub.ref, x)) k1, k2⟩

theorem rel_inv {D : Disk} {R : GitLeaf → GitLeaf → Prop} (hR : ∀ s s', R s s' → leafSite s' = leafSite s ∧ (LeafInv D s → LeafInv D s')) :
    ∀ (n : Nat) (p : Text) (t t' : GitNode n), NodeInv D n p t → NodeRel R n t t' → NodeInv D n p t'
  | 0, _, _, _, _, _ => trivial
  | n + 1, p, t, t', h, ⟨r1, _, l, l', e1, e2, hall⟩ => by
    obtain ⟨h1, h2⟩ := h.2 l e1
    refine ⟨r1.trans h.1, fun m hm => ?_⟩
    have e2 : GitState.dbs t' = some l' := e2
    rw [e2] at hm
    cases hm
    have key : All2 (fun x x' => partSite x' = partSite x ∧ PartInv D (NodeInv D n) x') l l' := by
      refine all2_imp ?_ (all2_mem hall)
      rintro (s | r) (s' | r') ⟨hm, hx⟩
      · have hx : R s s' := hx
        exact ⟨sites_leaf (hR s s' hx).1, (hR s s' hx).2 (h2 _ hm)⟩
      · exact hx.elim
      · exact hx.elim
      · obtain ⟨q1, -, ds, ds', d1, d2, hds⟩ := hx
        refine ⟨congrArg (fun x => some (Sub.ref, x)) q1, fun m hm' => ?_⟩
        rw [d2] at hm'
        cases hm'
        obtain ⟨k1, k2⟩ := h2 _ hm ds d1
        refine ⟨?_, ?_⟩
        · rw [all2_map_eq (g := Prod.fst) (fun a b h => h.1) hds]; exact k1
        · refine all2_right (R := fun a b => a ∈ ds ∧ b.1 = a.1 ∧ NodeRel R n a.2 b.2)
            (P := fun y : Text × GitNode n => (D.loose y.1).isSome = true ∧ NodeInv D n y.1 y.2) ?_ (all2_mem hds)
          rintro a b ⟨ha, hb1, hb2⟩
          rw [hb1]
          exact ⟨(k2 a ha).1, rel_inv hR n a.1 a.2 b.2 (k2 a ha).2 hb2⟩
    exact ⟨(all2_map_eq (g := partSite) (fun _ _ h => h.1) key).trans h1, all2_right (fun _ _ h => h.2) key⟩

/-- Abbreviations keep what C81 needs. -/
theorem nodeInv_complete (zl : Zlib) {order : List Bytes → List Bytes} (ho : ∀ l, (order l).Perm l) {orderT : List Text → List Text}
    (hoT : ∀ l, (orderT l).Perm l) (getP : Option PackDir → PackedDB → Bytes → PackedDB × Res α) (getL : Fs → Bytes → Res α)
    {D D' : Disk} (hb : Before D D') (n : Nat) (p : Text) (t : GitNode n) (h : NodeInv D n p t) (part : Bytes) :
    NodeInv D n p (liveComplete orderT (leafOps order getP getL) n D' t part).1 := by
  have h1 := collect_inv hoT hb n p t h
  rcases complete_rel orderT (leafOps order getP getL) D' n t part with e | hr
  · rw [e]; exact h1
  · refine rel_inv ?_ n p _ _ h1 hr
    rintro s s' (rfl | rfl)
    · exact ⟨rfl, fun h => h⟩
    · exact leafInv_complete zl ho getP getL hb s part

theorem nodeInv_any (zl : Zlib) (fuel : Nat) {order : List Bytes → List Bytes} (ho : ∀ l, (order l).Perm l)
    {orderT : List Text → List Text} (hoT : ∀ l, (orderT l).Perm l) (getL : Fs → Bytes → Res OStream) {D : Disk}
    (n : Nat) (p : Text) (past : List (Disk × (LiveCall ⊕ Bytes))) (hpast : ∀ e ∈ past, Before D e.1) :
    NodeInv D n p (past.foldl (anyStep orderT (leafOps order (fun d db sha => db.stream fuel order d sha) getL) n) (freshNode n p)) := by
  have h0 : NodeInv D n p (freshNode n p) := by
    cases n with
    | zero => trivial
    | succ n => exact ⟨rfl, fun l hl => by cases hl⟩
  suffices ∀ (past : List (Disk × (LiveCall ⊕ Bytes))) (t0 : GitNode n), (∀ e ∈ past, Before D e.1) → NodeInv D n p t0 →
      NodeInv D n p (past.foldl (anyStep orderT (leafOps order (fun d db sha => db.stream fuel order d sha) getL) n) t0) from
    this past _ hpast h0
  intro past
  induction past with
  | nil => exact fun _ _ h => h
  | cons e past ih =>
    intro t0 hp h
    refine ih _ (fun e' he' => hp e' (by simp [he'])) ?_
    have hb := hp e (by simp)
    unfold anyStep
    rcases e.2 with call | part
    · exact nodeInv_call hoT hb (fun s call hs => ⟨leafSite_call s call, leafInv_call zl fuel ho getL hb s call hs⟩) n p t0 call h
    · exact nodeInv_complete zl ho hoT _ getL hb n p t0 h part

/-! ### C93 -/

section
variable {H : Disk → Prop} {p : Text}

theorem leafOnly_complete (zl : Zlib) {order : List Bytes → List Bytes} (ho : ∀ l, (order l).Perm l)
    (getP : Option PackDir → PackedDB → Bytes → PackedDB × Res α) (getL : Fs → Bytes → Res α) {D : Disk} (hD : H D)
    (hw : ∀ q d, D.pack q = some d → d.Wf) (s : GitLeaf) (part : Bytes) (h : LeafOnly H p s) :
    LeafOnly H p ((leafOps order getP getL).complete D s part).1 := by
  cases s with
  | stop => exact h
  | loose r db => exact h
  | pack r db =>
    refine ⟨h.1, packComplete_fits zl ho getP (hw r) ?_ h.2 part⟩
    intro nm c hc
    rcases hx : D.pack r with _ | d
    · rw [hx] at hc
      simp [dirFiles, PackDir.get] at hc
    · rw [hx] at hc
      exact ⟨D, d, hD, hx, hc⟩

theorem paths_referred {D : Disk} (hD : H D) {n : Nat} {r : Text} (hr : Referred H p r) (paths : List Text) (q : Text) (t : GitNode n)
    (hp : refPaths (D.altFile r) = .ok paths) (hq : q ∈ paths) (ht : newNode n D q = some t) : NodeOnly H p n t := by
  obtain ⟨k1, k2⟩ := newNode_only (H := H) (p := p) D n q t ht
  refine k2 (.step hr hD ?_)
  unfold Disk.altFile at hp
  rcases ha : D.alt r with _ | f
  · rw [ha] at hp
    simp only [Option.getD_none, refPaths, Except.ok.injEq] at hp
    subst hp; cases hq
  · rw [ha] at hp
    simp only [Option.getD_some] at hp
    rcases f with e | x
    · unfold refPaths at hp
      cases e <;> simp only [Except.ok.injEq, reduceCtorEq] at hp <;> subst hp <;> cases hq
    · exact ⟨x, paths, ha, (C47_file x paths).mp hp, hq, k1⟩

theorem collect_only {orderT : List Text → List Text} (hoT : ∀ l, (orderT l).Perm l) {D : Disk} (hD : H D) :
    ∀ (n : Nat) (t : GitNode n), NodeOnly H p n t → NodeOnly H p n (liveCollect orderT n D t).1
  | 0, _, _ => trivial
  | n + 1, t, h => by
    obtain ⟨h1, h2⟩ := gitLoad_only D h
    unfold liveCollect
    rcases hl : GitState.load D t with ⟨g, e | l⟩
    · rw [hl] at h1; exact h1
    · rw [hl] at h1 h2
      simp only
      refine ⟨h1.1, fun l' hl' => ?_, h1.2.2⟩
      cases hl'
      refine (eachDb_keep (g := fun _ => ()) (I := Sum.elim (LeafOnly H p) (RefOnly H p (NodeOnly H p n))) ?_ l (h1.2.1 l (h2 l rfl))).2
      rintro (x | r) hx
      · exact ⟨rfl, hx⟩
      · have hx : RefOnly H p (NodeOnly H p n) r := hx
        refine ⟨rfl, (refUse_only (D := D) hoT (fun paths q t => paths_referred hD hx.1 paths q t)
          (fun c => let z := eachDb (fun d : Text × GitNode n => let u := liveCollect orderT n D d.2; ((d.1, u.1), u.2)) c.dbs
            ({ c with dbs := z.1 }, z.2.map List.flatten)) (fun _ => True) (fun _ => trivial) (fun c hc hcache => ?_) hx).1⟩
        have h5 := eachDb_keep (f := fun d : Text × GitNode n => let u := liveCollect orderT n D d.2; ((d.1, u.1), u.2)) (g := Prod.fst)
          (I := fun y => NodeOnly H p n y.2) (fun s hs => ⟨rfl, collect_only hoT hD n s.2 hs⟩) c.dbs hc.2
        exact ⟨⟨by rw [h5.1]; exact hc.1, h5.2⟩, hcache, trivial⟩

theorem rel_only {R : GitLeaf → GitLeaf → Prop} (hR : ∀ s s', R s s' → LeafOnly H p s → LeafOnly H p s') :
    ∀ (n : Nat) (t t' : GitNode n), NodeOnly H p n t → NodeRel R n t t' → NodeOnly H p n t'
  | 0, _, _, _, _ => trivial
  | n + 1, t, t', h, ⟨r1, r2, l, l', e1, e2, hall⟩ => by
    have h2 := h.2.1 l e1
    refine ⟨by show Referred H p (GitState.root t'); rw [r1]; exact h.1, fun m hm => ?_,
      by show CacheOnly (WasThere H p) (GitState.cache t'); rw [r2]; exact h.2.2⟩
    have e2 : GitState.dbs t' = some l' := e2
    rw [e2] at hm
    cases hm
    refine all2_right (R := fun x x' => x ∈ l ∧ PartRel R (NodeRel R n) x x') ?_ (all2_mem hall)
    rintro (s | r) (s' | r') ⟨hm, hx⟩
    · exact hR s s' hx (h2 _ hm)
    · exact hx.elim
    · exact hx.elim
    · obtain ⟨q1, q2, ds, ds', d1, d2, hds⟩ := hx
      have hr : RefOnly H p (NodeOnly H p n) r := h2 _ hm
      refine ⟨by rw [q1]; exact hr.1, fun m hm' => ?_, by rw [q2]; exact hr.2.2⟩
      rw [d2] at hm'
      cases hm'
      obtain ⟨k1, k2⟩ := hr.2.1 ds d1
      refine ⟨?_, ?_⟩
      · rw [all2_map_eq (g := Prod.fst) (fun a b h => h.1) hds]; exact k1
      · refine all2_right (R := fun a b => a ∈ ds ∧ b.1 = a.1 ∧ NodeRel R n a.2 b.2) (P := fun y : Text × GitNode n => NodeOnly H p n y.2)
          ?_ (all2_mem hds)
        rintro a b ⟨ha, -, hb2⟩
        exact rel_only hR n a.2 b.2 (k2 a ha) hb2

theorem complete_only (zl : Zlib) {order : List Bytes → List Bytes} (ho : ∀ l, (order l).Perm l) {orderT : List Text → List Text}
    (hoT : ∀ l, (orderT l).Perm l) (getP : Option PackDir → PackedDB → Bytes → PackedDB × Res α) (getL : Fs → Bytes → Res α)
    {D : Disk} (hD : H D) (hw : ∀ q d, D.pack q = some d → d.Wf) (n : Nat) (t : GitNode n) (h : NodeOnly H p n t) (part : Bytes) :
    NodeOnly H p n (liveComplete orderT (leafOps order getP getL) n D t part).1 := by
  have h1 := collect_only hoT hD n t h
  rcases complete_rel orderT (leafOps order getP getL) D n t part with e | hr
  · rw [e]; exact h1
  · refine rel_only ?_ n _ _ h1 hr
    rintro s s' (rfl | rfl)
    · exact fun h => h
    · exact leafOnly_complete zl ho getP getL hD hw s part

end

/-! ## Answers to abbreviations -/

/-- At some time the name was there: as the path of a file below an object directory, in any case of letters, or in the bytes of an index file
next to a pack. -/
def NameWas (H : Disk → Prop) (p : Text) (x : Bytes) : Prop :=
  ∃ q D, Referred H p q ∧ H D ∧
    ((∃ w dir files f, D.loose q = some w ∧ (dir, files) ∈ w.2 ∧ f ∈ files ∧ dir.length = 2 ∧ f.length = 38 ∧
        Spells ((dir ++ f).map lowerDigit) (nibbles x)) ∨
      ∃ d pack c, D.pack q = some d ∧ d.get (idxName pack) = some c ∧ NamedIn c x)

theorem iterFiles_mem (base : Bytes) : ∀ (fs : List Bytes) (r : Res Bytes), r ∈ shaIterFiles base fs →
    ∃ f ∈ fs, f.length = 38 ∧ r = hexToBin (base ++ f)
  | [], _, h => by cases h
  | f :: fs, r, h => by
    unfold shaIterFiles at h
    by_cases hl : f.length ≠ 38
    · rw [if_pos hl] at h
      obtain ⟨g, h1, h2⟩ := iterFiles_mem base fs r h
      exact ⟨g, by simp [h1], h2⟩
    · rw [if_neg hl] at h
      rcases List.mem_cons.mp h with rfl | h
      · exact ⟨f, by simp, by omega, rfl⟩
      · obtain ⟨g, h1, h2⟩ := iterFiles_mem base fs r h
        exact ⟨g, by simp [h1], h2⟩

theorem iter_mem {walk : List (Bytes × List Bytes)} {r : Res Bytes} (h : r ∈ shaIter walk) :
    ∃ dir files f, (dir, files) ∈ walk ∧ f ∈ files ∧ dir.length = 2 ∧ f.length = 38 ∧ r = hexToBin (dir ++ f) := by
  unfold shaIter at h
  obtain ⟨⟨dir, files⟩, h1, h2⟩ := List.mem_flatMap.mp h
  by_cases hl : dir.length ≠ 2
  · rw [if_pos hl] at h2; cases h2
  · rw [if_neg hl] at h2
    obtain ⟨f, k1, k2, k3⟩ := iterFiles_mem dir files r h2
    exact ⟨dir, files, f, h1, k1, by omega, k2, k3⟩

theorem loop_answer (part : Bytes) : ∀ (l : List (Res Bytes)) (cand : Option Bytes) (x : Bytes), partialLoop part cand l = .ok x →
    cand = some x ∨ (.ok x ∈ l ∧ part.isPrefixOf (binToHex x) = true)
  | [], none, _, e => by cases e
  | [], some c, x, e => by cases e; exact .inl rfl
  | .error _ :: _, cand, _, e => by cases cand <;> cases e
  | .ok b :: r, cand, x, e => by
    have hc : partialLoop part cand (.ok b :: r) =
        if part.isPrefixOf (binToHex b) then (match cand with
          | some _ => .error .ambiguousObjectName
          | none => partialLoop part (some b) r) else partialLoop part cand r := by cases cand <;> rfl
    rw [hc] at e
    by_cases hp : part.isPrefixOf (binToHex b) = true
    · rw [if_pos hp] at e
      cases cand with
      | some _ => cases e
      | none =>
        rcases loop_answer part r (some b) x e with h | ⟨h1, h2⟩
        · cases h
          exact .inr ⟨by simp, hp⟩
        · exact .inr ⟨by simp [h1], h2⟩
    · rw [if_neg hp] at e
      rcases loop_answer part r cand x e with h | ⟨h1, h2⟩
      · exact .inl h
      · exact .inr ⟨by simp [h1], h2⟩

theorem canonical_digits {n : Nat} {m s : Bytes} (hn : 0 < n) (hm : m.length = (n + 1) / 2) (h : isEqualCanonicalSha n m s = .ok true) :
    (nibbles s).take n = (nibbles m).take n := by
  have hl : (n + 1) / 2 ≤ s.length := by
    unfold isEqualCanonicalSha at h
    simp only [bind, Except.bind, pure, Except.pure] at h
    split at h
    · cases h
    · split at h
      · rcases hg : m.getLast? with _ | a
        · rw [hg] at h; cases h
        · rw [hg] at h
          simp only at h
          unfold pyIndex at h
          rcases hx : s[m.length - 1]? with _ | b
          · rw [hx] at h; cases h
          · have := (List.getElem?_eq_some_iff.mp hx).1
            omega
      · next hz => omega
  rw [isEqualCanonicalSha_spec n m s hm hl] at h
  simp only [Except.ok.injEq, decide_eq_true_eq] at h
  exact h.symm

theorem index_answer {file : Bytes} {x : IndexFile} (hx : IndexFile.load file = .ok x) {part : Bytes} {n i : Nat} (hn : 0 < n)
    (hm : part.length = (n + 1) / 2) (h : x.partialShaToIndex part n = .ok (some i)) :
    NamedIn file (x.sha i) ∧ (nibbles (x.sha i)).take n = (nibbles part).take n := by
  have hf : x.map = file := by
    rcases C53_open file with ⟨y, h1, h2, _⟩ | ⟨h1, _⟩ | ⟨h1, _⟩
    · rw [hx] at h1; injection h1 with h1; rw [h1, h2]
    · rw [hx] at h1; cases h1
    · rw [hx] at h1; cases h1
  refine ⟨⟨x.version, i, by rw [sha_eq_slice, hf]⟩, ?_⟩
  unfold IndexFile.partialShaToIndex at h
  by_cases hs : part.length < 2
  · rw [if_pos hs] at h; cases h
  rw [if_neg hs] at h
  cases part with
  | nil => simp at hs
  | cons b t =>
    simp only [List.head?_cons] at h
    generalize bisectLow _ _ _ _ _ = lo at h
    by_cases hlo : lo < x.size
    · rw [if_pos hlo] at h
      rcases hq : isEqualCanonicalSha n (b :: t) (x.sha lo) with e | (_ | _)
      · rw [hq] at h; cases h
      · rw [hq] at h; cases h
      · rw [hq] at h
        simp only at h
        generalize (if lo + 1 < x.size then x.sha (lo + 1) else []) = next at h
        by_cases hnx : next ≠ [] ∧ next = x.sha lo
        · rw [if_pos hnx] at h; cases h
        · rw [if_neg hnx] at h
          cases h
          exact canonical_digits hn hm hq
    · rw [if_neg hlo] at h; cases h

theorem item_answer {Q : Bytes → Bytes → Prop} {dir : PackDir} (hq : ∀ p c, dir.get p = some c → Q p c) {part : Bytes} {k : Nat} (hk : 0 < k)
    (hm : part.length = (k + 1) / 2) {a a' : PackItem} {x : Bytes} (h1 : ItemFits Q a) (hf : a.complete dir part k = (a', .ok (some x))) :
    ∃ pack c, Q (idxName pack) c ∧ NamedIn c x ∧ (nibbles x).take k = (nibbles part).take k := by
  unfold PackItem.complete at hf
  by_cases hp : part.length < 2
  · rw [if_pos hp] at hf; cases hf
  rw [if_neg hp] at hf
  have hidx : ∀ c y, Q (idxName a.path) c → IndexFile.load c = .ok y → ∀ i, y.partialShaToIndex part k = .ok (some i) → y.sha i = x →
      ∃ pack c, Q (idxName pack) c ∧ NamedIn c x ∧ (nibbles x).take k = (nibbles part).take k := by
    intro c y hc hy i hi hsx
    obtain ⟨e1, e2⟩ := index_answer hy hk hm hi
    rw [hsx] at e1 e2
    exact ⟨a.path, c, hc, e1, e2⟩
  have hgo : ∀ c (a1 : PackItem), Q (idxName a.path) c → (match (a1, IndexFile.load c) with
      | (it, .error e) => (it, .error e)
      | (it, .ok y) => match y.partialShaToIndex part k with
        | .error e => (it, .error e)
        | .ok none => (it, .ok none)
        | .ok (some i) => (it, .ok (some (y.sha i))) : PackItem × Res (Option Bytes)) = (a', .ok (some x)) →
      ∃ pack c, Q (idxName pack) c ∧ NamedIn c x ∧ (nibbles x).take k = (nibbles part).take k := by
    intro c a1 hc e
    rcases hy : IndexFile.load c with e' | y
    · rw [hy] at e; cases e
    · rw [hy] at e
      simp only at e
      rcases hi : y.partialShaToIndex part k with e' | (_ | i)
      · rw [hi] at e; cases e
      · rw [hi] at e; cases e
      · rw [hi] at e
        simp only [Prod.mk.injEq, Except.ok.injEq, Option.some.injEq] at e
        exact hidx c y hc hy i hi e.2
  unfold PackItem.index at hf
  rcases hi : a.idx with _ | c
  · rw [hi] at hf
    simp only at hf
    rcases hg : dir.get (idxName a.path) with _ | c
    · rw [hg] at hf; cases hf
    · rw [hg] at hf
      exact hgo c _ (hq _ _ hg) hf
  · rw [hi] at hf
    exact hgo c _ (h1.1 c hi) hf

theorem items_answer {Q : Bytes → Bytes → Prop} {dir : PackDir} (hq : ∀ p c, dir.get p = some c → Q p c) {part : Bytes} {k : Nat} (hk : 0 < k)
    (hm : part.length = (k + 1) / 2) : ∀ (l : List PackItem) (cand : Option Bytes) (x : Bytes), (∀ it ∈ l, ItemFits Q it) →
      (completeLoop dir part k l cand).2 = .ok (some x) →
        cand = some x ∨ ∃ pack c, Q (idxName pack) c ∧ NamedIn c x ∧ (nibbles x).take k = (nibbles part).take k
  | [], cand, x, _, e => by cases e; exact .inl rfl
  | a :: l, cand, x, h, e => by
    have h2 : ∀ it ∈ l, ItemFits Q it := fun it hit => h it (by simp [hit])
    unfold completeLoop at e
    rcases hf : a.complete dir part k with ⟨a', e' | (_ | y)⟩
    · rw [hf] at e; cases e
    · rw [hf] at e
      exact items_answer hq hk hm l cand x h2 e
    · rw [hf] at e
      simp only at e
      split at e
      · cases e
      · rcases items_answer hq hk hm l (some y) x h2 e with h3 | h3
        · cases h3
          exact .inr (item_answer hq hk hm (h a (by simp)) hf)
        · exact .inr h3

/-- The binary form of an abbreviation and its digits. -/
theorem abbrev_digits {part bin : Bytes} (h : hexToBin (if part.length % 2 ≠ 0 then part ++ [0x30] else part) = .ok bin) :
    Spells (part.map lowerDigit) ((nibbles bin).take part.length) ∧ bin.length = (part.length + 1) / 2 := by
  have h1 : Spells _ _ := ((C05_decodes _ bin).1).mp h
  have h2 := spells_take h1 part.length
  have h3 := hexToBin_len _ _ h
  by_cases hp : part.length % 2 ≠ 0
  · rw [if_pos hp] at h2 h3
    rw [List.map_append, List.take_append_of_le_length (by simp), List.take_of_length_le (by simp)] at h2
    rw [List.length_append] at h3
    exact ⟨h2, by simp only [List.length_singleton] at h3; omega⟩
  · rw [if_neg hp] at h2 h3
    rw [List.take_of_length_le (l := part.map lowerDigit) (by simp)] at h2
    exact ⟨h2, by omega⟩

theorem lower_of_hex {h : Bytes} (hl : LowerHex h) : h.map lowerDigit = h := by
  have key : ∀ c ∈ hexAscii, lowerDigit c = c := by decide
  conv => rhs; rw [← List.map_id h]
  exact List.map_congr_left fun c hc => key c (hl c hc)

section
variable {H : Disk → Prop} {p : Text}

theorem end_answer {order : List Bytes → List Bytes} (ho : ∀ l, (order l).Perm l)
    (getP : Option PackDir → PackedDB → Bytes → PackedDB × Res α) (getL : Fs → Bytes → Res α) {D : Disk} (hD : H D)
    (hw : ∀ q d, D.pack q = some d → d.Wf) (s : GitLeaf) (part : Bytes) (h : LeafOnly H p s) (x : Bytes)
    (e : ((leafOps order getP getL).complete D s part).2 = .ok x) :
    NameWas H p x ∧ ∀ digits, Spells (part.map lowerDigit) digits → HasDigits digits x := by
  cases s with
  | stop => cases e
  | loose r db =>
    have e : loosePartial (D.looseAt r).2 part = .ok x := e
    rcases loop_answer part _ none x e with h1 | ⟨h1, h2⟩
    · cases h1
    · obtain ⟨dir, files, f, k1, k2, k3, k4, k5⟩ := iter_mem h1
      have hs : Spells (binToHex x) (nibbles x) := binToHex_isHexOf x
      constructor
      · unfold Disk.looseAt at k1
        rcases hw' : D.loose r with _ | w
        · rw [hw'] at k1; cases k1
        · rw [hw'] at k1
          exact ⟨r, D, h.1, hD, .inl ⟨w, dir, files, f, hw', k1, k2, k3, k4, ((C05_decodes _ x).1).mp k5.symm⟩⟩
      · intro digits hd
        have hpre := List.isPrefixOf_iff_prefix.mp h2
        have hlow : LowerHex part := fun c hc => spells_lower hs c (hpre.subset hc)
        rw [lower_of_hex hlow] at hd
        exact (spells_abbreviates hd x).mp ⟨binToHex x, hs, hpre⟩
  | pack r db =>
    have e : ((packedOps order getP).complete (D.pack r) db part).2 = .ok x := e
    simp only [packedOps] at e
    rcases hb : hexToBin (if part.length % 2 ≠ 0 then part ++ [0x30] else part) with e' | bin
    · rw [hb] at e; cases e
    · rw [hb] at e
      simp only at e
      obtain ⟨a1, a2⟩ := abbrev_digits hb
      have hq : ∀ nm c, (dirFiles (D.pack r)).get nm = some c → FileWas H r nm c := by
        intro nm c hc
        rcases hx : D.pack r with _ | d
        · rw [hx] at hc
          simp [dirFiles, PackDir.get] at hc
        · rw [hx] at hc
          exact ⟨D, d, hD, hx, hc⟩
      have h1 := load_fits ho (hw r) hq h.2
      obtain ⟨l, e1, e2⟩ := load_entities order (D.pack r) db
      unfold PackedDB.partialToComplete at e
      rcases hl : db.load order (D.pack r) with ⟨db1, e' | l1⟩
      · rw [hl] at e; cases e
      · rw [hl] at e h1 e1 e2
        obtain rfl := e2 l1 rfl
        simp only at e
        by_cases hk : 0 < part.length
        · have key := fun y => items_answer hq hk a2 l1 none y (h1.2 l1 e1)
          rcases hc : completeLoop (dirFiles (D.pack r)) bin part.length l1 none with ⟨l2, e' | (_ | (_ | ⟨b, y⟩))⟩
          · rw [hc] at e; cases e
          · rw [hc] at e; cases e
          · rw [hc] at e; cases e
          · rw [hc] at e key
            cases e
            rcases key _ rfl with h3 | ⟨pack, c, ⟨D', d, m1, m2, m3⟩, m4, m5⟩
            · cases h3
            · refine ⟨⟨r, D', h.1, m1, .inr ⟨d, pack, c, m2, m3, m4⟩⟩, fun digits hd => ?_⟩
              have hdig := spells_inj hd a1
              have hlen := spells_length hd
              rw [List.length_map] at hlen
              unfold HasDigits
              rw [← hlen, m5, hdig]
        · have h0 : part = [] := List.eq_nil_of_length_eq_zero (by omega)
          subst h0
          have hbin : bin = [] := by cases hb; rfl
          subst hbin
          -- an empty abbreviation
          have key : ∀ (l : List PackItem) y, (completeLoop (dirFiles (D.pack r)) [] 0 l none).2 ≠ .ok (some y) := by
            intro l y
            cases l with
            | nil => intro h; cases h
            | cons a l =>
              intro h
              unfold completeLoop PackItem.complete at h
              simp at h
          have key := key l1
          rcases hc : completeLoop (dirFiles (D.pack r)) [] ([] : Bytes).length l1 none with ⟨l2, e' | (_ | (_ | ⟨b, y⟩))⟩
          · rw [hc] at e; cases e
          · rw [hc] at e; cases e
          · rw [hc] at e; cases e
          · exact absurd (congrArg Prod.snd hc) (key _)

theorem dbs_answer {L : DbOps Disk GitLeaf α} {D : Disk} {part : Bytes} {S : Bytes → Prop} {I : GitLeaf → Prop}
    (h : ∀ s x, I s → (L.complete D s part).2 = .ok x → S x) : ∀ (l : List GitLeaf) (cand : Option Bytes) (x : Bytes), (∀ s ∈ l, I s) →
      (completeDbs L D part l cand).2 = .ok (some x) → cand = some x ∨ S x
  | [], cand, x, _, e => by cases e; exact .inl rfl
  | s :: l, cand, x, hl, e => by
    have h2 : ∀ s ∈ l, I s := fun t ht => hl t (by simp [ht])
    have h1 := h s
    unfold completeDbs at e
    rcases hs : L.complete D s part with ⟨s', e' | full⟩
    · rw [hs] at e
      cases e'
      case badObject => exact dbs_answer h l cand x h2 e
      all_goals cases e
    · rw [hs] at e h1
      simp only at e
      split at e
      · exact dbs_answer h l cand x h2 e
      · split at e
        · cases e
        · rcases dbs_answer h l (some full) x h2 e with h3 | h3
          · cases h3
            exact .inr (h1 _ (hl s (by simp)) rfl)
          · exact .inr h3

theorem ends_only : ∀ (n : Nat) (t : GitNode n), NodeOnly H p n t → ∀ s ∈ liveEnds n t, LeafOnly H p s
  | 0, _, _, s, hs => by cases hs
  | n + 1, t, h, s, hs => by
    unfold liveEnds at hs
    rcases hd : GitState.dbs t with _ | l
    · rw [hd] at hs; cases hs
    · rw [hd, Option.getD_some] at hs
      have h2 := h.2.1 l hd
      rcases List.mem_append.mp hs with hs | hs
      · obtain ⟨x, hx, hs⟩ := List.mem_flatMap.mp hs
        rcases x with s' | r
        · cases List.mem_singleton.mp hs
          exact h2 _ hx
        · cases hs
      · obtain ⟨x, hx, hs⟩ := List.mem_flatMap.mp hs
        rcases x with s' | r
        · cases hs
        · have hr : RefOnly H p (NodeOnly H p n) r := h2 _ hx
          have hs : s ∈ (r.db.dbs.getD []).flatMap fun y => liveEnds n y.2 := hs
          rcases hr' : r.db.dbs with _ | ds
          · rw [hr'] at hs; cases hs
          · rw [hr', Option.getD_some] at hs
            obtain ⟨y, hy, hs⟩ := List.mem_flatMap.mp hs
            exact ends_only n y.2 ((hr.2.1 ds hr').2 y hy) s hs

theorem live_answer {order : List Bytes → List Bytes} (ho : ∀ l, (order l).Perm l) {orderT : List Text → List Text}
    (hoT : ∀ l, (orderT l).Perm l) (getP : Option PackDir → PackedDB → Bytes → PackedDB × Res α) (getL : Fs → Bytes → Res α)
    {D : Disk} (hD : H D) (hw : ∀ q d, D.pack q = some d → d.Wf) (n : Nat) (t : GitNode n) (h : NodeOnly H p n t) (part x : Bytes)
    (e : (liveComplete orderT (leafOps order getP getL) n D t part).2 = .ok x) :
    NameWas H p x ∧ ∃ digits, Spells (part.map lowerDigit) digits ∧ HasDigits digits x := by
  have h1 := collect_only hoT hD n t h
  unfold liveComplete at e
  rcases hl : liveCollect orderT n D t with ⟨t', e' | leaves⟩
  · rw [hl] at e; cases e
  · rw [hl] at e h1
    obtain ⟨-, rfl⟩ := collect_ends orderT D n t t' leaves hl
    simp only [completeHex] at e
    rcases hb : hexToBin (if part.length % 2 ≠ 0 then part ++ [0x30] else part) with e' | bin
    · rw [hb] at e; cases e
    · rw [hb] at e
      simp only at e
      have key := fun y => dbs_answer (L := leafOps order getP getL) (D := D) (part := part)
        (fun s x hs => end_answer ho getP getL hD hw s part hs x) (liveEnds n t') none y (ends_only n t' h1)
      rcases hc : (completeDbs (leafOps order getP getL) D part (liveEnds n t') none).2 with e' | (_ | (_ | ⟨b, y⟩))
      · rw [hc] at e; cases e
      · rw [hc] at e; cases e
      · rw [hc] at e; cases e
      · rw [hc] at e
        cases e
        rcases key _ hc with h3 | ⟨h3, h4⟩
        · cases h3
        · exact ⟨h3, _, (abbrev_digits hb).1, h4 _ (abbrev_digits hb).1⟩

end

/-! ## C97 -/

/-- **C97 (refreshing, after any history).**  A `GitDB` is used for any time, also with abbreviations, while packs and alternates come and
go.  After `update_cache(True)`, which succeeds, and any reads and abbreviations, `has_object`, `stream` and `partial_to_complete_sha_hex`
are right about what is there now. -/
theorem C97_refresh (zl : Zlib) (fuel : Nat) {order : List Bytes → List Bytes} (ho : ∀ l, (order l).Perm l)
    {orderT : List Text → List Text} (hoT : ∀ l, (orderT l).Perm l) (getL : Fs → Bytes → Res OStream) {D : Disk}
    (hg : ∀ q d, D.pack q = some d → GoodDir d) (hr : Readable D) {rank : Text → Nat} (hrank : ∀ p q, Alt D p q → rank q < rank p)
    (n : Nat) (p : Text) (hn : rank p < n) (hl : (D.loose p).isSome = true) (past : List (Disk × (LiveCall ⊕ Bytes)))
    (hpast : ∀ e ∈ past, Before D e.1) (ops : List LookUp) :
    let L := leafOps order (fun d db sha => db.stream fuel order d sha) getL
    let O := liveOps orderT L n
    let t := past.foldl (anyStep orderT L n) (freshNode n p)
    let t' := ops.foldl (lookUp orderT L n D) (O.update D t true).1
    (∃ b, (O.update D t true).2 = .ok (some b)) ∧
    (∀ sha, sha ≠ [] →
      (∃ b, (O.has D t' sha).2 = .ok b ∧ (b = true ↔ ∃ q, AltReach D p q ∧ SiteNow D q sha)) ∧
      ((∃ q, AltReach D p q ∧ SiteNow D q sha) → ∃ q, AltReach D p q ∧ ReadAt getL fuel D q sha (O.get D t' sha).2) ∧
      ((¬ ∃ q, AltReach D p q ∧ SiteNow D q sha) → (O.get D t' sha).2 = .error .badObject)) ∧
    (NamesOnce D → LooseFine D → ∀ part digits, Spells part digits → 3 ≤ digits.length → digits.length ≤ 40 →
      Resolves (fun x => ∃ q, AltReach D p q ∧ SiteLead D digits q x) (liveComplete orderT L n D t' part).2) := by
  intro L O t t'
  have hinv : NodeInv D n p t := nodeInv_any zl fuel ho hoT getL n p past hpast
  obtain ⟨h1, h2, h3⟩ := node_refreshed fuel ho hoT getL hg hr hrank (S := AltReach D p) (fun _ _ h h' => altReach_snoc h' h) n p t hn
    (.refl p) hl hinv
  obtain ⟨f1, f2⟩ := node_full zl fuel ho hoT getL hg hr hrank n p t hn hl hinv
  obtain ⟨a1, a2, a3, a4⟩ := lookUps_same zl fuel ho orderT getL (AltReach D p) ops _ h2 f2
  have hleaf := leafSeen_locates zl fuel ho getL (AltReach D p)
  refine ⟨h1, fun sha hne => ?_, fun hn1 hlf part digits hs h3 h40 => ?_⟩
  · obtain ⟨b, b1, b2⟩ := (live_locates hleaf orderT n).has a1 sha hne
    obtain ⟨g1, g2⟩ := live_get hleaf (leaf_serves zl fuel order getL (AltReach D p)) orderT n D _ a1 sha hne
    exact ⟨⟨b, b1, b2.trans ((a3 sha).trans (h3 sha))⟩, fun h => g1 ((a3 sha).mpr ((h3 sha).mpr h)),
      fun h => g2 fun h' => h ((h3 sha).mp ((a3 sha).mp h'))⟩
  · have := full_resolves fuel orderT getL (AltReach D p) hn1 hlf a1 a2 hs h3 h40
    rw [a4, f1] at this
    exact this

/-- The disks of a history, and the one now. -/
def AnyTime (past : List (Disk × (LiveCall ⊕ Bytes))) (D : Disk) (D' : Disk) : Prop := D' = D ∨ ∃ e ∈ past, e.1 = D'

/-- **C97 (nothing is invented, after any history).**  A `GitDB` is used in any way, also with abbreviations, while the disk changes in any way;
files may be damaged, exceptions are caught.  What `has_object` and `stream` find was there at some time.  An abbreviation is
completed only to a name that begins with its digits and was there at some time. -/
theorem C97_never_invented (zl : Zlib) (fuel : Nat) {order : List Bytes → List Bytes} (ho : ∀ l, (order l).Perm l)
    {orderT : List Text → List Text} (hoT : ∀ l, (orderT l).Perm l) (getL : Fs → Bytes → Res OStream) (n : Nat) (p : Text)
    (past : List (Disk × (LiveCall ⊕ Bytes))) (D : Disk) (hw : ∀ D', AnyTime past D D' → ∀ q d, D'.pack q = some d → d.Wf) :
    let L := leafOps order (fun d db sha => db.stream fuel order d sha) getL
    let O := liveOps orderT L n
    let t := past.foldl (anyStep orderT L n) (freshNode n p)
    (∀ sha, sha ≠ [] → ((O.has D t sha).2 = .ok true → WasThere (AnyTime past D) p sha) ∧
      ∀ o, (O.get D t sha).2 = .ok o → WasThere (AnyTime past D) p sha) ∧
    ∀ part x, (liveComplete orderT L n D t part).2 = .ok x →
      NameWas (AnyTime past D) p x ∧ ∃ digits, Spells (part.map lowerDigit) digits ∧ HasDigits digits x := by
  intro L O t
  have hO := fun D' (h : AnyTime past D D') => live_only (p := p) hoT h (leaf_only (p := p) fuel ho getL zl h (hw D' h)) n
  have h0 : NodeOnly (AnyTime past D) p n (freshNode n p) := by
    cases n with
    | zero => trivial
    | succ n =>
      exact ⟨.self, fun l hl => (nomatch (hl : (none : Option (List (GitLeaf ⊕ RefNode (GitNode n)))) = some l)), fun sha i _ e => by cases e⟩
  have ht : ∀ (l : List (Disk × (LiveCall ⊕ Bytes))) (s : GitNode n), (∀ e ∈ l, e ∈ past) → NodeOnly (AnyTime past D) p n s →
      NodeOnly (AnyTime past D) p n (l.foldl (anyStep orderT L n) s) := by
    intro l
    induction l with
    | nil => intro s _ h; exact h
    | cons e l ih =>
      intro s hl h
      refine ih _ (fun e he => hl e (by simp [he])) ?_
      have hD : AnyTime past D e.1 := .inr ⟨e, hl e (by simp), rfl⟩
      unfold anyStep
      rcases e.2 with call | part
      · exact (hO e.1 hD).1.keep s call h
      · exact complete_only zl ho hoT _ getL hD (hw e.1 hD) n s h part
  have htt := ht past _ (fun _ h => h) h0
  exact ⟨fun sha hne => ⟨(hO D (.inl rfl)).1.hit t sha hne htt, fun o => (hO D (.inl rfl)).2 t sha o hne htt⟩,
    fun part x e => live_answer ho hoT _ getL (.inl rfl) (hw D (.inl rfl)) n t htt part x e⟩

/-! ## Examples -/

/-- Packs and an alternate appear after an abbreviation has been looked up; afterwards the objects are found. -/
example (zl : Zlib) (getL : Fs → Bytes → Res OStream) :
    let L := leafOps List.reverse (fun d db sha => db.stream 5 List.reverse d sha) getL
    let O := liveOps id L 2
    let D := partDisk bothPacks (rootB ++ ['\n'])
    let t := [(partDisk ⟨1, []⟩ [], Sum.inr [97, 98, 99]), (partDisk ⟨2, []⟩ [], .inl (.read (.has [7])))].foldl (anyStep id L 2) (freshNode 2 rootA)
    (O.has D (O.update D t true).1 (0xc0 :: List.replicate 19 1)).2 = .ok true := by
  intro L O D t
  obtain ⟨-, h, -⟩ := C97_refresh zl 5 (order := List.reverse) (fun l => List.reverse_perm l) (orderT := id) (fun l => .refl l) getL
    (partDisk_good bothPacks bothPacks_good _) (partDisk_readable bothPacks _)
    (fun p q h => liveDisk_rank bothPacks p q ((partDisk_alt _ _ _ _).mp h)) 2 rootA (by decide) rfl
    [(partDisk ⟨1, []⟩ [], Sum.inr [97, 98, 99]), (partDisk ⟨2, []⟩ [], .inl (.read (.has [7])))]
    (fun e he => by
      simp only [List.mem_cons, List.not_mem_nil, or_false] at he
      rcases he with rfl | rfl <;> exact partDisk_before _ _) []
  obtain ⟨⟨b, h1, h2⟩, -⟩ := h (0xc0 :: List.replicate 19 1) (by decide)
  have h3 : b = true := h2.mpr ⟨rootA, .refl _, .inl ⟨bothPacks, rfl, bothPacks_has⟩⟩
  subst h3
  exact h1

/-- The loose object of `/b` is the answer, also when it is asked for the second time. -/
example (getL : Fs → Bytes → Res OStream) :
    let L := leafOps id (fun d db sha => db.stream 5 id d sha) getL
    let D := partDisk ⟨1, []⟩ (rootB ++ ['\n'])
    (liveComplete id L 2 D (freshNode 2 rootA) [97, 98, 99]).2 = .ok ([0xab, 0xcd] ++ List.replicate 18 0) ∧
    (liveComplete id L 2 D (anyStep id L 2 (freshNode 2 rootA) (D, .inr [97, 98, 99])) [97]).2 = .ok ([0xab, 0xcd] ++ List.replicate 18 0) ∧
    (liveComplete id L 2 (partDisk ⟨1, []⟩ []) (freshNode 2 rootA) [97, 98, 99]).2 = .error .badObject := by
  intro L D
  exact ⟨rfl, rfl, rfl⟩

/-- An index that is cut off after the second byte of its first name: the answer is those two bytes, which are in the file. -/
example : IndexFile.partialShaToIndex ⟨List.replicate 1032 0 ++ [1, 2], 2, List.replicate 255 0 ++ [1], 0, 0, 0⟩ [1, 2] 4 = .ok (some 0) ∧
    IndexFile.sha ⟨List.replicate 1032 0 ++ [1, 2], 2, List.replicate 255 0 ++ [1], 0, 0, 0⟩ 0 = [1, 2] ∧
    NamedIn (List.replicate 1032 0 ++ [1, 2]) [1, 2] ∧ HasDigits [0, 1, 0, 2] [1, 2] :=
  ⟨by decide +kernel, by decide +kernel, ⟨2, 0, by decide +kernel⟩, by decide⟩

end GitDB.Props
