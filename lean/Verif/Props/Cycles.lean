import Verif.Model.Cycles
import Verif.Props.Alternates
/-!
# C106: alternates that form cycles, and the recursion limit

A lookup in a `GitDB` whose alternates lead back to themselves comes to the recursion limit.  Whatever happens there: an answer is a right
one.
-/
set_option autoImplicit false

namespace GitDB.Props
open GitDB Spec

variable {ω σ τ α β : Type}

/-! ## Databases which may raise -/

/-- `U`: what a database may say it has; `L`: what it has to find, if it answers; `E`: what it may raise. -/
structure Bounds (O : DbOps ω σ α) (E : Err → Prop) (Ok : ω → σ → Prop) (U L : ω → σ → Bytes → Prop) : Prop where
  yes : ∀ {w s}, Ok w s → ∀ sha, (O.has w s sha).2 = .ok true → U w s sha
  no : ∀ {w s}, Ok w s → ∀ sha, sha ≠ [] → (O.has w s sha).2 = .ok false → ¬ L w s sha
  err : ∀ {w s}, Ok w s → ∀ sha e, sha ≠ [] → (O.has w s sha).2 = .error e → E e
  ok : ∀ {w s}, Ok w s → ∀ op, Ok w (dbStep O w s op)
  sameU : ∀ {w s}, Ok w s → ∀ op sha, U w (dbStep O w s op) sha ↔ U w s sha
  sameL : ∀ {w s}, Ok w s → ∀ op sha, L w (dbStep O w s op) sha ↔ L w s sha

theorem scanDbs_same {O : DbOps ω σ α} {Ok : ω → σ → Prop} {C : ω → σ → Bytes → Prop} {w : ω} (sha : Bytes)
    (hf : ∀ s, Ok w s → Ok w (O.has w s sha).1 ∧ ∀ x, C w (O.has w s sha).1 x ↔ C w s x) : ∀ (l : List σ) (k : Nat),
    (∀ s ∈ l, Ok w s) → SameContents Ok C w l (scanDbs O w sha l k).1
  | [], _, _ => .nil
  | s :: l, k, h => by
    have h1 := hf s (h s (by simp))
    have h2 := scanDbs_same sha hf l (k + 1) fun t ht => h t (by simp [ht])
    unfold scanDbs
    rcases hh : O.has w s sha with ⟨s', e | b⟩
    · rw [hh] at h1
      exact .cons h1 (sameContents_refl fun t ht => h t (by simp [ht]))
    · rw [hh] at h1
      cases b with
      | true => exact .cons h1 (sameContents_refl fun t ht => h t (by simp [ht]))
      | false => exact .cons h1 h2

theorem scanDbs_bounds {O : DbOps ω σ α} {E : Err → Prop} {Ok : ω → σ → Prop} {U L : ω → σ → Bytes → Prop} (hO : Bounds O E Ok U L)
    {w : ω} (sha : Bytes) : ∀ (l : List σ) (k : Nat), (∀ s ∈ l, Ok w s) →
      (∃ i s, (scanDbs O w sha l k).2 = .ok (some (k + i)) ∧ l[i]? = some s ∧ U w s sha) ∨
        ((scanDbs O w sha l k).2 = .ok none ∧ (sha ≠ [] → ∀ s ∈ l, ¬ L w s sha)) ∨
        ∃ e, (scanDbs O w sha l k).2 = .error e ∧ (sha ≠ [] → E e)
  | [], k, _ => .inr (.inl ⟨rfl, by simp⟩)
  | s :: l, k, h => by
    have h1 := hO.yes (h s (by simp)) sha
    have h2 := hO.no (h s (by simp)) sha
    have h3 := hO.err (h s (by simp)) sha
    have ih := scanDbs_bounds hO sha l (k + 1) fun t ht => h t (by simp [ht])
    unfold scanDbs
    rcases hh : O.has w s sha with ⟨s', e | b⟩
    · rw [hh] at h3
      exact .inr (.inr ⟨e, rfl, fun hs => h3 e hs rfl⟩)
    · rw [hh] at h1 h2
      cases b with
      | true => exact .inl ⟨0, s, rfl, rfl, h1 rfl⟩
      | false =>
        rcases ih with ⟨i, t, e1, e2, e3⟩ | ⟨e1, e2⟩ | ⟨e, e1, e2⟩
        · exact .inl ⟨i + 1, t, by simp only [e1]; congr 2; omega, by simpa using e2, e3⟩
        · refine .inr (.inl ⟨e1, fun hs t ht => ?_⟩)
          rcases List.mem_cons.mp ht with rfl | ht
          · exact h2 hs rfl
          · exact e2 hs t ht
        · exact .inr (.inr ⟨e, e1, e2⟩)

theorem query_same {O : DbOps ω σ α} {Ok : ω → σ → Prop} {C : ω → σ → Bytes → Prop} {w : ω} (sha : Bytes) {c : Compound σ}
    (hf : ∀ s, Ok w s → Ok w (O.has w s sha).1 ∧ ∀ x, C w (O.has w s sha).1 x ↔ C w s x) (h : ∀ s ∈ c.dbs, Ok w s) :
    SameContents Ok C w c.dbs (c.query O w sha).1.dbs := by
  have k1 := scanDbs_same sha hf c.dbs 0 h
  unfold Compound.query
  rcases nameGet sha c.cache with _ | i
  · simp only
    rcases hs : scanDbs O w sha c.dbs 0 with ⟨dbs, e | (_ | i)⟩ <;> rw [hs] at k1 <;> exact k1
  · exact sameContents_refl h

theorem query_bounds {O : DbOps ω σ α} {E : Err → Prop} {Ok : ω → σ → Prop} {U L : ω → σ → Bytes → Prop} (hO : Bounds O E Ok U L)
    {w : ω} {c : Compound σ} (h : CompoundOk Ok U w c) (sha : Bytes) :
    CompoundOk Ok U w (c.query O w sha).1 ∧
    ((∃ i s, (c.query O w sha).2 = .ok i ∧ c.dbs[i]? = some s ∧ U w s sha) ∨
      ((c.query O w sha).2 = .error .badObject ∧ (sha ≠ [] → ∀ s ∈ c.dbs, ¬ L w s sha)) ∨
      ∃ e, (c.query O w sha).2 = .error e ∧ (sha ≠ [] → E e)) := by
  have k1 := scanDbs_same (C := U) sha (fun s hs => ⟨hO.ok hs (.has sha), hO.sameU hs (.has sha)⟩) c.dbs 0 h.1
  have k2 := scanDbs_bounds hO sha c.dbs 0 h.1
  unfold Compound.query
  rcases hc : nameGet sha c.cache with _ | i
  · simp only
    rcases hs : scanDbs O w sha c.dbs 0 with ⟨dbs, e | (_ | i)⟩
    · rw [hs] at k1 k2
      refine ⟨sameContents_ok h k1, .inr (.inr ⟨e, rfl, ?_⟩)⟩
      rcases k2 with ⟨i, s, e1, -⟩ | ⟨e1, -⟩ | ⟨e', e1, e2⟩
      · simp at e1
      · simp at e1
      · cases e1; exact e2
    · rw [hs] at k1 k2
      refine ⟨sameContents_ok h k1, .inr (.inl ⟨rfl, ?_⟩)⟩
      rcases k2 with ⟨i, s, e1, -⟩ | ⟨-, e2⟩ | ⟨e', e1, -⟩
      · simp at e1
      · exact e2
      · simp at e1
    · rw [hs] at k1 k2
      rcases k2 with ⟨j, s, e1, e2, e3⟩ | ⟨e1, -⟩ | ⟨e', e1, -⟩
      · simp only [Except.ok.injEq, Option.some.injEq, Nat.zero_add] at e1
        subst e1
        refine ⟨⟨(sameContents_ok h k1).1, ?_⟩, .inl ⟨i, s, rfl, e2, e3⟩⟩
        intro sha' i' hi'
        by_cases hsh : sha' = sha
        · subst hsh
          rw [nameGet_set_same] at hi'
          obtain rfl := Option.some.inj hi'
          obtain ⟨s', g1, g2⟩ := sameContents_get k1 i s e2
          exact ⟨s', g1, (g2 sha').mpr e3⟩
        · rw [nameGet_set_other _ hsh] at hi'
          exact (sameContents_ok h k1).2 sha' i' hi'
      · simp at e1
      · simp at e1
  · obtain ⟨s, h1, h2⟩ := h.2 sha i hc
    exact ⟨h, .inl ⟨i, s, rfl, h1, h2⟩⟩

/-- Databases with the same contents, after any call. -/
theorem compound_same {O : DbOps ω σ α} {Ok : ω → σ → Prop} {C : ω → σ → Bytes → Prop} {w : ω} {c : Compound σ}
    (hf : ∀ s, Ok w s → ∀ op, Ok w (dbStep O w s op) ∧ ∀ x, C w (dbStep O w s op) x ↔ C w s x) (h : ∀ s ∈ c.dbs, Ok w s) (op : DbOp) :
    SameContents Ok C w c.dbs (dbStep (compoundOps O) w c op).dbs := by
  cases op with
  | has sha =>
    have := query_same (C := C) sha (fun s hs => hf s hs (.has sha)) h
    rw [show dbStep (compoundOps O) w c (.has sha) = (c.query O w sha).1 from compoundHas_fst O w c sha]
    exact this
  | get sha =>
    have q := query_same (C := C) sha (fun s hs => hf s hs (.has sha)) h
    show SameContents Ok C w c.dbs (c.get O w sha).1.dbs
    unfold Compound.get
    rcases hq : c.query O w sha with ⟨c', e | i⟩
    · rw [hq] at q; exact q
    · rw [hq] at q
      have hok : ∀ s ∈ c'.dbs, Ok w s := fun s hs => (all2_mem_right q s hs).choose_spec.2.1
      exact sameContents_trans q (onDb_locates (f := fun s => O.get w s sha) (fun s hs => hf s hs (.get sha)) c'.dbs i hok)
  | size => exact eachDb_locates (f := O.size w) (fun s hs => hf s hs .size) c.dbs h
  | shas => exact eachDb_locates (f := O.shas w) (fun s hs => hf s hs .shas) c.dbs h

theorem compound_keeps_ok {O : DbOps ω σ α} {E : Err → Prop} {Ok : ω → σ → Prop} {U L : ω → σ → Bytes → Prop} (hO : Bounds O E Ok U L)
    {w : ω} {c : Compound σ} (h : CompoundOk Ok U w c) (op : DbOp) : CompoundOk Ok U w (dbStep (compoundOps O) w c op) := by
  cases op with
  | has sha =>
    rw [show dbStep (compoundOps O) w c (.has sha) = (c.query O w sha).1 from compoundHas_fst O w c sha]
    exact (query_bounds hO h sha).1
  | get sha =>
    have q := (query_bounds hO h sha).1
    show CompoundOk Ok U w (c.get O w sha).1
    unfold Compound.get
    rcases hq : c.query O w sha with ⟨c', e | i⟩
    · rw [hq] at q; exact q
    · rw [hq] at q
      exact sameContents_ok q (onDb_locates (f := fun s => O.get w s sha)
        (fun s hs => ⟨hO.ok hs (.get sha), hO.sameU hs (.get sha)⟩) c'.dbs i q.1)
  | size => exact sameContents_ok h (eachDb_locates (f := O.size w) (fun s hs => ⟨hO.ok hs .size, hO.sameU hs .size⟩) c.dbs h.1)
  | shas => exact sameContents_ok h (eachDb_locates (f := O.shas w) (fun s hs => ⟨hO.ok hs .shas, hO.sameU hs .shas⟩) c.dbs h.1)

theorem compound_bounds {O : DbOps ω σ α} {E : Err → Prop} (hE : ¬ E .badObject) {Ok : ω → σ → Prop} {U L : ω → σ → Bytes → Prop}
    (hO : Bounds O E Ok U L) : Bounds (compoundOps O) E (CompoundOk Ok U) (fun w c sha => ∃ s ∈ c.dbs, U w s sha)
      (fun w c sha => ∃ s ∈ c.dbs, L w s sha) where
  yes := by
    intro w c h sha hy
    replace hy : (c.has O w sha).2 = .ok true := hy
    obtain ⟨-, q⟩ := query_bounds hO h sha
    unfold Compound.has at hy
    rcases hq : c.query O w sha with ⟨c', r⟩
    rw [hq] at q hy
    rcases q with ⟨i, s, e1, e2, e3⟩ | ⟨e1, -⟩ | ⟨e, e1, -⟩
    · exact ⟨s, List.mem_of_getElem? e2, e3⟩
    · simp only at e1
      subst e1
      simp at hy
    · simp only at e1
      subst e1
      cases e <;> simp at hy
  no := by
    intro w c h sha hne hy
    replace hy : (c.has O w sha).2 = .ok false := hy
    obtain ⟨-, q⟩ := query_bounds hO h sha
    unfold Compound.has at hy
    rcases hq : c.query O w sha with ⟨c', r⟩
    rw [hq] at q hy
    rcases q with ⟨i, s, e1, e2, e3⟩ | ⟨-, e2⟩ | ⟨e, e1, e2⟩
    · simp only at e1
      subst e1
      simp at hy
    · rintro ⟨s, hs, hl⟩
      exact e2 hne s hs hl
    · simp only at e1
      subst e1
      have := e2 hne
      cases e <;> first | exact absurd this hE | simp at hy
  err := by
    intro w c h sha e hne hy
    replace hy : (c.has O w sha).2 = .error e := hy
    obtain ⟨-, q⟩ := query_bounds hO h sha
    unfold Compound.has at hy
    rcases hq : c.query O w sha with ⟨c', r⟩
    rw [hq] at q hy
    rcases q with ⟨i, s, e1, -⟩ | ⟨e1, -⟩ | ⟨e', e1, e2⟩
    · simp only at e1
      subst e1
      simp at hy
    · simp only at e1
      subst e1
      simp at hy
    · simp only at e1
      subst e1
      have := e2 hne
      cases e' <;> first | exact absurd this hE | (simp only [Except.error.injEq] at hy; subst hy; exact this)
  ok := fun h op => compound_keeps_ok hO h op
  sameU := fun h op sha => sameContents_union (compound_same (C := U) (fun _ hs op => ⟨hO.ok hs op, hO.sameU hs op⟩) h.1 op) sha
  sameL := fun h op sha => sameContents_union (compound_same (C := L) (fun _ hs op => ⟨hO.ok hs op, hO.sameL hs op⟩) h.1 op) sha

theorem nest_bounds {O : DbOps ω σ α} {E : Err → Prop} (hE : ¬ E .badObject) {Ok : ω → σ → Prop} {U L : ω → σ → Bytes → Prop}
    (hO : Bounds O E Ok U L) : ∀ n, Bounds (nestOps O n) E (NestOk Ok U n) (NestHas U n) (NestHas L n)
  | 0 => hO
  | n + 1 => by
    have hC := compound_bounds hE (nest_bounds hE hO n)
    refine ⟨?_, ?_, ?_, ?_, ?_, ?_⟩
    · rintro w (s | c) ha
      · exact hO.yes (s := s) ha
      · exact hC.yes (s := c) ha
    · rintro w (s | c) ha
      · exact hO.no (s := s) ha
      · exact hC.no (s := c) ha
    · rintro w (s | c) ha
      · exact hO.err (s := s) ha
      · exact hC.err (s := c) ha
    · rintro w (s | c) ha op
      · have := hO.ok (s := s) ha op
        cases op <;> exact this
      · have := hC.ok (s := c) ha op
        cases op <;> exact this
    · rintro w (s | c) ha op sha
      · have := hO.sameU (s := s) ha op sha
        cases op <;> exact this
      · have := hC.sameU (s := c) ha op sha
        cases op <;> exact this
    · rintro w (s | c) ha op sha
      · have := hO.sameL (s := s) ha op sha
        cases op <;> exact this
      · have := hC.sameL (s := c) ha op sha
        cases op <;> exact this

theorem steps_bounds {O : DbOps ω σ α} {E : Err → Prop} {Ok : ω → σ → Prop} {U L : ω → σ → Bytes → Prop} (hO : Bounds O E Ok U L)
    {w : ω} : ∀ (ops : List DbOp) {s : σ}, Ok w s → Ok w (ops.foldl (dbStep O w) s) ∧
      ∀ sha, (U w (ops.foldl (dbStep O w) s) sha ↔ U w s sha) ∧ (L w (ops.foldl (dbStep O w) s) sha ↔ L w s sha)
  | [], _, h => ⟨h, fun _ => ⟨Iff.rfl, Iff.rfl⟩⟩
  | op :: ops, s, h => by
    obtain ⟨h1, h2⟩ := steps_bounds hO ops (hO.ok h op)
    exact ⟨h1, fun sha => ⟨(h2 sha).1.trans (hO.sameU h op sha), (h2 sha).2.trans (hO.sameL h op sha)⟩⟩

/-! ## Below the depth -/

/-- What is assumed of a database below the depth, made for the path `q`, in a state with `Ok q`: it says it has an object only if
there is one in a directory that can be reached from `q`; looking something up, it may raise `E`.  It may overlook objects, and raise. -/
structure Sound (B : DbOps Disk β α) (D : Disk) (N : Text → Bytes → Prop) (E : Err → Prop) (Ok : Text → β → Prop) : Prop where
  yes : ∀ {q s}, Ok q s → ∀ sha, (B.has D s sha).2 = .ok true → ∃ r, AltReach D q r ∧ SiteHas D N r sha
  err : ∀ {q s}, Ok q s → ∀ sha e, sha ≠ [] → (B.has D s sha).2 = .error e → E e
  ok : ∀ {q s}, Ok q s → ∀ op, Ok q (dbStep B D s op)

/-- Good states of the ends. -/
def DeepOk (order : List Bytes → List Bytes) (D0 : Disk) (Ok : Text → β → Prop) (D : Disk) : GitLeaf ⊕ Text × β → Prop
  | .inl x => D = D0 ∧ LeafOk order D x
  | .inr x => D = D0 ∧ Ok x.1 x.2

/-- What they may say they have. -/
def DeepMay (order : List Bytes → List Bytes) (N : Text → Bytes → Prop) (D : Disk) : GitLeaf ⊕ Text × β → Bytes → Prop
  | .inl x, sha => LeafHas order D x sha
  | .inr x, sha => ∃ r, AltReach D x.1 r ∧ SiteHas D N r sha

/-- What they have to find. -/
def DeepMust (order : List Bytes → List Bytes) (D : Disk) : GitLeaf ⊕ Text × β → Bytes → Prop
  | .inl x, sha => LeafHas order D x sha
  | .inr _, _ => False

theorem deep_bounds (zl : Zlib) (fuel : Nat) (order : List Bytes → List Bytes) (getL : Fs → Bytes → Res OStream)
    {B : DbOps Disk β OStream} {D0 : Disk} {N : Text → Bytes → Prop} {E : Err → Prop} {Ok : Text → β → Prop} (hB : Sound B D0 N E Ok) :
    Bounds (deepOps order (fun d db sha => db.stream fuel order d sha) getL B) E (DeepOk order D0 Ok) (DeepMay order N) (DeepMust order) := by
  have hL := leaf_locates zl fuel order getL
  refine ⟨?_, ?_, ?_, ?_, ?_, ?_⟩
  · rintro D (x | x) ⟨rfl, h⟩ sha hy
    · exact hL.yes h sha hy
    · exact hB.yes h sha hy
  · rintro D (x | x) ⟨rfl, h⟩ sha hne hy
    · obtain ⟨b, e1, e2⟩ := hL.has h sha hne
      have hy : ((leafOps order (fun d db sha => db.stream fuel order d sha) getL).has D x sha).2 = .ok false := hy
      rw [e1] at hy
      obtain rfl := Except.ok.inj hy
      exact fun hh => absurd (e2.mpr hh) (by decide)
    · exact id
  · rintro D (x | x) ⟨rfl, h⟩ sha e hne hy
    · obtain ⟨b, e1, -⟩ := hL.has h sha hne
      have hy : ((leafOps order (fun d db sha => db.stream fuel order d sha) getL).has D x sha).2 = .error e := hy
      rw [e1] at hy
      cases hy
    · exact hB.err h sha e hne hy
  · rintro D (x | x) ⟨rfl, h⟩ op
    · have := hL.ok h op
      cases op <;> exact ⟨rfl, this⟩
    · have := hB.ok h op
      cases op <;> exact ⟨rfl, this⟩
  · rintro D (x | x) ⟨rfl, h⟩ op sha
    · have := hL.same h op sha
      cases op <;> exact this
    · cases op <;> exact Iff.rfl
  · rintro D (x | x) ⟨rfl, h⟩ op sha
    · have := hL.same h op sha
      cases op <;> exact this
    · cases op <;> exact Iff.rfl

/-! ## The tree -/

/-- Reached with fewer than `n` steps. -/
inductive NearTo (D : Disk) : Nat → Text → Text → Prop
  | refl (n : Nat) (p : Text) : NearTo D (n + 1) p p
  | step {n : Nat} {p q r : Text} (h : Alt D p q) (h' : NearTo D n q r) : NearTo D (n + 1) p r

/-- Reached through paths of the list. -/
inductive ReachIn (D : Disk) (S : List Text) : Text → Text → Prop
  | refl {p : Text} (hp : p ∈ S) : ReachIn D S p p
  | step {p q r : Text} (hp : p ∈ S) (h : Alt D p q) (h' : ReachIn D S q r) : ReachIn D S p r

theorem ReachIn.mem {D : Disk} {S : List Text} {p q : Text} (h : ReachIn D S p q) : p ∈ S := by cases h <;> assumption

/-- A way to `q` either avoids `a`, or has a last visit to `a`. -/
theorem reach_avoid {D : Disk} {S : List Text} {a q : Text} (hq : q ≠ a) {x : Text} (h : ReachIn D S x q) :
    ReachIn D (S.filter fun y => decide (y ≠ a)) x q ∨
      ∃ y, Alt D a y ∧ ReachIn D (S.filter fun y => decide (y ≠ a)) y q := by
  induction h with
  | refl hp => exact .inl (.refl (List.mem_filter.mpr ⟨hp, by simpa using hq⟩))
  | @step x y r hp ha _ ih =>
    rcases ih hq with h | h
    · by_cases hx : x = a
      · subst hx; exact .inr ⟨y, ha, h⟩
      · exact .inl (.step (List.mem_filter.mpr ⟨hp, by simpa using hx⟩) ha h)
    · exact .inr h

/-- Never more steps are needed than there are paths. -/
theorem near_of_reach {D : Disk} : ∀ (n : Nat) (S : List Text) (p q : Text), S.length ≤ n → ReachIn D S p q → NearTo D n p q
  | 0, S, p, q, hS, h => by
    have := h.mem
    have hS' : S = [] := List.length_eq_zero_iff.mp (by omega)
    rw [hS'] at this
    simp at this
  | n + 1, S, p, q, hS, h => by
    by_cases hpq : q = p
    · subst hpq; exact .refl n q
    have hlt : (S.filter fun y => decide (y ≠ p)).length < S.length := by
      rcases Nat.lt_or_ge (S.filter fun y => decide (y ≠ p)).length S.length with h1 | h1
      · exact h1
      · have heq := List.length_filter_eq_length_iff.mp (Nat.le_antisymm (List.length_filter_le _ _) h1)
        have := heq p h.mem
        simp at this
    rcases reach_avoid hpq h with h1 | ⟨y, ha, h1⟩
    · have := h1.mem
      simp at this
    · exact .step ha (near_of_reach n _ y q (by omega) h1)

theorem reachIn_of_reach {D : Disk} {S : List Text} {p q : Text} (h : AltReach D p q) (hS : ∀ r, AltReach D p r → r ∈ S) :
    ReachIn D S p q := by
  induction h with
  | refl p => exact .refl (hS p (.refl p))
  | step ha _ ih => exact .step (hS _ (.refl _)) ha (ih fun r hr => hS r (.step ha hr))

theorem pack_of_mem {D : Disk} {p : Text} (hl : (D.loose p).isSome = true) (hb : Sub.pack ∈ (gitDbs D p).1) :
    (D.pack p).isSome = true := by
  rw [gitDbs_of_loose hl] at hb
  by_cases hp : (D.pack p).isSome = true
  · exact hp
  · rw [if_neg hp] at hb
    by_cases ha : (D.alt p).isSome = true
    · rw [if_pos ha] at hb; simp at hb
    · rw [if_neg ha] at hb; simp at hb

theorem deepTree_ok {order : List Bytes → List Bytes} {D : Disk} (hr : Readable D) {N : Text → Bytes → Prop}
    (hN : ∀ p, PackSite order (D.pack p) (N p)) {mk : List Text → Text → β} {Ok : Text → β → Prop} (hmk : ∀ way q, Ok q (mk way q)) :
    ∀ (n : Nat) (way : List Text) (p : Text), (D.loose p).isSome = true →
      NestOk (DeepOk order D Ok) (DeepMay order N) (2 * n) D (deepTree D mk n way p)
  | 0, way, p, _ => ⟨rfl, hmk way p⟩
  | n + 1, way, p, hl => by
    show CompoundOk _ _ D { dbs := List.map _ (gitDbs D p).1 }
    refine ⟨?_, by simp [nameGet]⟩
    intro s hs
    obtain ⟨b, hb, rfl⟩ := List.mem_map.mp hs
    cases b with
    | pack => exact ⟨rfl, (hN p (pack_of_mem hl hb)).1⟩
    | loose => exact ⟨rfl, trivial⟩
    | ref =>
      refine ⟨?_, by simp [nameGet]⟩
      intro s hs
      obtain ⟨q, hq, rfl⟩ := List.mem_map.mp hs
      exact deepTree_ok hr hN hmk n _ q ((mem_altRoots hr p q).mp hq).choose_spec.choose_spec.2.2.2

theorem deepTree_may {order : List Bytes → List Bytes} {D : Disk} (hr : Readable D) {N : Text → Bytes → Prop}
    (hN : ∀ p, PackSite order (D.pack p) (N p)) {mk : List Text → Text → β} (sha : Bytes) :
    ∀ (n : Nat) (way : List Text) (p : Text), (D.loose p).isSome = true →
      NestHas (DeepMay order N) (2 * n) D (deepTree D mk n way p) sha → ∃ q, AltReach D p q ∧ SiteHas D N q sha
  | 0, way, p, _, h => h
  | n + 1, way, p, hl, h => by
    have h : ∃ s ∈ List.map _ (gitDbs D p).1, _ := h
    obtain ⟨s, hs, hh⟩ := h
    obtain ⟨b, hb, rfl⟩ := List.mem_map.mp hs
    cases b with
    | pack =>
      have := pack_of_mem hl hb
      exact ⟨p, .refl p, .inl ⟨this, ((hN p this).2 sha).mp hh⟩⟩
    | loose =>
      obtain ⟨x, hx⟩ := Option.isSome_iff_exists.mp hl
      refine ⟨p, .refl p, .inr ⟨x, hx, ?_⟩⟩
      have hh : LooseHas (D.looseAt p) {} sha := hh
      rw [show D.looseAt p = x by unfold Disk.looseAt; rw [hx]; rfl] at hh
      rcases hh with hh | hh
      · simp at hh
      · exact hh
    | ref =>
      obtain ⟨s, hs, hh⟩ := hh
      obtain ⟨q, hq, rfl⟩ := List.mem_map.mp hs
      have ha := (mem_altRoots hr p q).mp hq
      obtain ⟨y, h1, h2⟩ := deepTree_may hr hN sha n _ q ha.choose_spec.choose_spec.2.2.2 hh
      exact ⟨y, .step ha h1, h2⟩

theorem deepTree_must {order : List Bytes → List Bytes} {D : Disk} (hr : Readable D) {N : Text → Bytes → Prop}
    (hN : ∀ p, PackSite order (D.pack p) (N p)) {mk : List Text → Text → β} (sha : Bytes) :
    ∀ (n : Nat) (way : List Text) (p q : Text), (D.loose p).isSome = true → NearTo D n p q → SiteHas D N q sha →
      NestHas (DeepMust order) (2 * n) D (deepTree D mk n way p) sha
  | 0, _, _, _, _, h, _ => nomatch h
  | n + 1, way, p, q, hl, h, hs => by
    show ∃ s ∈ List.map _ (gitDbs D p).1, _
    cases h with
    | refl =>
      rcases hs with ⟨hp, h2⟩ | ⟨y, hy, h2⟩
      · exact ⟨_, List.mem_map.mpr ⟨.pack, by rw [gitDbs_of_loose hl, if_pos hp]; simp, rfl⟩, ((hN p hp).2 sha).mpr h2⟩
      · refine ⟨_, List.mem_map.mpr ⟨.loose, by rw [gitDbs_of_loose hl]; simp, rfl⟩, ?_⟩
        show LooseHas (D.looseAt p) {} sha
        rw [show D.looseAt p = y by unfold Disk.looseAt; rw [hy]; rfl]
        exact .inr h2
    | step ha hreach =>
      rename_i q'
      have hq' := (mem_altRoots hr p q').mpr ha
      have hsome : (D.alt p).isSome = true := by
        obtain ⟨t, ps, e, -⟩ := ha
        rw [e]; rfl
      refine ⟨_, List.mem_map.mpr ⟨.ref, by rw [gitDbs_of_loose hl, if_pos hsome]; simp, rfl⟩, ?_⟩
      exact ⟨_, List.mem_map_of_mem hq', deepTree_must hr hN sha n _ q' q ha.choose_spec.choose_spec.2.2.2 hreach hs⟩

/-! ## The claim -/

/-- **C106** Alternates with any cycles (readable files, usable packs).  If the stack suffices for as many levels as there are
directories that can be reached (they are in `S`), then whatever happens further down, if only it does not invent objects, and however
often the database was used before, with or without exceptions: a lookup raises what was raised further down, or it answers, and the
answer is right. -/
theorem C106_never_wrong (zl : Zlib) (fuel : Nat) (order : List Bytes → List Bytes) (getL : Fs → Bytes → Res OStream) (D : Disk)
    (hr : Readable D) (N : Text → Bytes → Prop) (hN : ∀ p, PackSite order (D.pack p) (N p)) (B : DbOps Disk β OStream) (E : Err → Prop)
    (hE : ¬ E .badObject) (Ok : Text → β → Prop) (hB : Sound B D N E Ok) (mk : List Text → Text → β) (hmk : ∀ way q, Ok q (mk way q))
    (p : Text) (hp : (D.loose p).isSome = true) (S : List Text) (hS : ∀ q, AltReach D p q → q ∈ S) (n : Nat) (hn : S.length ≤ n)
    (ops : List DbOp) (sha : Bytes) (hsha : sha ≠ []) :
    match ((nestOps (deepOps order (fun d db sha => db.stream fuel order d sha) getL B) (2 * n)).has D
        (ops.foldl (dbStep (nestOps (deepOps order (fun d db sha => db.stream fuel order d sha) getL B) (2 * n)) D)
          (deepTree D mk n [] p)) sha).2 with
    | .ok true => ∃ q, AltReach D p q ∧ SiteHas D N q sha
    | .ok false => ¬ ∃ q, AltReach D p q ∧ SiteHas D N q sha
    | .error e => E e := by
  have hO := nest_bounds hE (deep_bounds zl fuel order getL hB) (2 * n)
  obtain ⟨h1, h2⟩ := steps_bounds hO ops (deepTree_ok hr hN hmk n [] p hp)
  generalize ops.foldl _ (deepTree D mk n [] p) = t at h1 h2
  rcases hh : ((nestOps (deepOps order (fun d db sha => db.stream fuel order d sha) getL B) (2 * n)).has D t sha).2 with e | b
  · exact hO.err h1 sha e hsha hh
  · cases b with
    | true => exact deepTree_may hr hN sha n [] p hp ((h2 sha).1.mp (hO.yes h1 sha hh))
    | false =>
      rintro ⟨q, hq, hs⟩
      refine hO.no h1 sha hsha hh ((h2 sha).2.mpr ?_)
      exact deepTree_must hr hN sha n [] p q hp (near_of_reach n S p q hn (reachIn_of_reach hq hS)) hs

/-! ## Cases -/

def rootC : Text := "/c".toList

/-- `/a` refers to `/b` and `/c`, `/b` refers to `/a`; `/c` has one object. -/
def threeRoots : Disk where
  pack := fun _ => none
  loose := fun p => if p = rootA ∨ p = rootB then some (fun _ => none, []) else
    if p = rootC then some (fun q => if q = objectPath (binToHex [7]) then some (.file [1] 0o444) else none, []) else none
  alt := fun p => if p = rootA then some (.ok "/b\n/c\n".toList) else if p = rootB then some (.ok "/a\n".toList) else none

/-- Databases below the depth: `f` is what a lookup does. -/
def stubOps (f : β → β × Res Bool) : DbOps Disk β OStream where
  has := fun _ s _ => f s
  get := fun _ s _ => (s, .error .diverge)
  size := fun _ s => (s, .error .diverge)
  shas := fun _ s => (s, .error .diverge)
  update := fun _ s _ => (s, .error .diverge)
  complete := fun _ s _ => (s, .error .diverge)

/-- Always at the limit. -/
def stubRaise : DbOps Disk Unit OStream := stubOps fun s => (s, .error .diverge)

/-- The exception was caught by `gitdb/db/ref.py` 74, and the alternate left out. -/
def stubQuiet : DbOps Disk Unit OStream := stubOps fun s => (s, .ok false)

/-- The exception came while the alternates file was read (`gitdb/db/ref.py` 45-46), so `_dbs` is empty from then on (line 28). -/
def stubOnce : DbOps Disk Bool OStream := stubOps fun s => (true, if s then .ok false else .error .diverge)

/-- A lookup in a tree with the operations `B` below the depth. -/
def deepHas (B : DbOps Disk β OStream) (D : Disk) (n : Nat) (t : Nest (GitLeaf ⊕ Text × β) (2 * n)) (sha : Bytes) :
    Nest (GitLeaf ⊕ Text × β) (2 * n) × Res Bool :=
  (nestOps (deepOps id (fun d db sha => db.stream 5 id d sha) (fun _ _ => .error .badObject) B) (2 * n)).has D t sha

theorem threeRoots_readable : Readable threeRoots := by
  intro p r h
  unfold threeRoots at h
  simp only at h
  split at h
  · exact ⟨_, (Option.some.inj h).symm⟩
  · split at h
    · exact ⟨_, (Option.some.inj h).symm⟩
    · simp at h

/-- The first database raises. -/
theorem compound_raise {O : DbOps ω σ α} {w : ω} {s : σ} {l : List σ} {sha : Bytes} (h : (O.has w s sha).2 = .error .diverge) :
    ((compoundOps O).has w { dbs := s :: l } sha).2 = .error .diverge := by
  rcases hs : O.has w s sha with ⟨s', r⟩
  rw [hs] at h
  simp only at h
  subst h
  simp [compoundOps, Compound.has, Compound.query, nameGet, scanDbs, hs]

/-- The first says no, and the second raises. -/
theorem compound_second {O : DbOps ω σ α} {w : ω} {s t : σ} {l : List σ} {sha : Bytes} (h : (O.has w s sha).2 = .ok false)
    (h' : (O.has w t sha).2 = .error .diverge) : ((compoundOps O).has w { dbs := s :: t :: l } sha).2 = .error .diverge := by
  rcases hs : O.has w s sha with ⟨s', r⟩
  rcases ht : O.has w t sha with ⟨t', r'⟩
  rw [hs] at h
  rw [ht] at h'
  simp only at h h'
  subst h h'
  simp [compoundOps, Compound.has, Compound.query, nameGet, scanDbs, hs, ht]

theorem threeRoots_ref {D : Disk} {n : Nat} {p q : Text} {rest : List Text} {x : Fs × List (Bytes × List Bytes)} (hl : D.loose p = some x)
    (hp : D.pack p = none) (hx : x.1 (objectPath (binToHex [7])) = none) (ha : (D.alt p).isSome = true) (hq : altRoots D p = q :: rest)
    (way : List Text)
    (h : (deepHas stubRaise D n (deepTree D (fun _ _ => ()) n (way ++ [p]) q) [7]).2 = .error .diverge) :
    (deepHas stubRaise D (n + 1) (deepTree D (fun _ _ => ()) (n + 1) way p) [7]).2 = .error .diverge := by
  obtain ⟨O, hO⟩ : ∃ O, O = deepOps id (fun d db sha => db.stream 5 id d sha) (fun _ _ => .error .badObject) stubRaise := ⟨_, rfl⟩
  unfold deepHas at h ⊢
  have hg : (gitDbs D p).1 = [.loose, .ref] := by rw [gitDbs_of_loose (by rw [hl]; rfl), hp, if_pos ha]; rfl
  have e : deepTree D (fun _ _ => ()) (n + 1) way p = .inr { dbs := [.inl (.inl (.loose p {})),
      .inr { dbs := deepTree D (fun _ _ => ()) n (way ++ [p]) q :: rest.map (deepTree D (fun _ _ => ()) n (way ++ [p])) }] } := by
    show (Sum.inr { dbs := List.map _ (gitDbs D p).1 } : Nest _ (2 * n + 2)) = _
    rw [hg, hq]; rfl
  rw [e, ← hO]
  rw [← hO] at h
  have hloose : ((nestOps O (2 * n + 1)).has D (.inl (.inl (.loose p {}))) [7]).2 = .ok false := by
    subst hO
    show ((looseOps fun _ _ => (.error .badObject : Res OStream)).has (D.looseAt p) {} [7]).2 = .ok false
    have hat : D.looseAt p = x := by unfold Disk.looseAt; rw [hl]; rfl
    rw [hat]
    simp [looseOps, LooseDB.hasObject, LooseDB.readablePath, hx]
  have href : ((nestOps O (2 * n + 1)).has D (.inr { dbs := (deepTree D (fun _ _ => ()) n (way ++ [p]) q ::
      rest.map (deepTree D (fun _ _ => ()) n (way ++ [p]))) }) [7]).2 = .error .diverge := compound_raise (O := nestOps O (2 * n)) h
  exact compound_second (O := nestOps O (2 * n + 1)) hloose href

theorem threeRoots_raise : ∀ (n : Nat) (way : List Text),
    (deepHas stubRaise threeRoots n (deepTree threeRoots (fun _ _ => ()) n way rootA) [7]).2 = .error .diverge ∧
    (deepHas stubRaise threeRoots n (deepTree threeRoots (fun _ _ => ()) n way rootB) [7]).2 = .error .diverge
  | 0, _ => ⟨rfl, rfl⟩
  | n + 1, way => by
    constructor
    · exact threeRoots_ref (q := rootB) (rest := [rootC]) rfl rfl rfl rfl (by decide) way (threeRoots_raise n _).2
    · exact threeRoots_ref (q := rootA) (rest := []) rfl rfl rfl rfl (by decide) way (threeRoots_raise n _).1

/-- **C106** An object that is there need not be found: `/c`, an alternate of `/a`, has it, but `/b`, which comes first, refers to
`/a`, and the lookup raises before it comes to `/c`, for every depth. -/
theorem C106_there_but_raises (n : Nat) : (∃ q, Alt threeRoots rootA q ∧ SiteHas threeRoots (fun _ _ => False) q [7]) ∧
    (deepHas stubRaise threeRoots n (deepTree threeRoots (fun _ _ => ()) n [] rootA) [7]).2 = .error .diverge :=
  ⟨⟨rootC, ⟨_, _, rfl, (C47_file _ _).mp (by decide : refPaths (.ok "/b\n/c\n".toList) = .ok [rootB, rootC]), by simp, rfl⟩,
    .inr ⟨_, rfl, by decide⟩⟩, (threeRoots_raise n []).1⟩

/-- **C106** The same lookup in the same database: the first raises, the second finds the object; if the exception is caught where the
alternates are listed, the first finds it as well. -/
theorem C106_twice :
    (deepHas stubOnce threeRoots 4 (deepTree threeRoots (fun _ _ => false) 4 [] rootA) [7]).2 = .error .diverge ∧
    (deepHas stubOnce threeRoots 4 (deepHas stubOnce threeRoots 4 (deepTree threeRoots (fun _ _ => false) 4 [] rootA) [7]).1 [7]).2 =
      .ok true ∧
    (deepHas stubQuiet threeRoots 4 (deepTree threeRoots (fun _ _ => ()) 4 [] rootA) [7]).2 = .ok true := by
  refine ⟨?_, ?_, ?_⟩ <;> decide

theorem stub_sound {f : β → β × Res Bool} (hf : ∀ s, NoOrStop (f s).2) :
    Sound (stubOps f) threeRoots (fun _ _ => False) (· = .diverge) (fun _ _ => True) where
  yes := by
    intro q s _ sha h
    have h : (f s).2 = .ok true := h
    rcases hf s with e | e <;> rw [e] at h <;> cases h
  err := by
    intro q s _ sha e _ h
    have h : (f s).2 = .error e := h
    rcases hf s with e | e <;> rw [e] at h <;> cases h
    rfl
  ok := fun _ _ => trivial

theorem threeRoots_reach {p q : Text} (h : AltReach threeRoots p q) (hp : p ∈ [rootA, rootB, rootC]) : q ∈ [rootA, rootB, rootC] := by
  induction h with
  | refl => exact hp
  | @step p q r ha _ ih =>
    apply ih
    have hq := (mem_altRoots threeRoots_readable p q).mpr ha
    simp only [List.mem_cons, List.not_mem_nil, or_false] at hp
    rcases hp with rfl | rfl | rfl
    · rw [show altRoots threeRoots rootA = [rootB, rootC] by decide] at hq
      exact List.mem_cons_of_mem _ hq
    · rw [show altRoots threeRoots rootB = [rootA] by decide] at hq
      simp at hq
      simp [hq]
    · rw [show altRoots threeRoots rootC = [] by decide] at hq
      simp at hq

/-- After any calls, whether they raised or not: a lookup of an object that is nowhere raises `RecursionError` or says no. -/
example (zl : Zlib) (n : Nat) (hn : 3 ≤ n) (ops : List DbOp) (b : Bool)
    (h : ((nestOps (deepOps id (fun d db sha => db.stream 5 id d sha) (fun _ _ => .error .badObject) stubOnce) (2 * n)).has threeRoots
      (ops.foldl (dbStep (nestOps (deepOps id (fun d db sha => db.stream 5 id d sha) (fun _ _ => .error .badObject) stubOnce) (2 * n))
        threeRoots) (deepTree threeRoots (fun _ _ => false) n [] rootA)) [9]).2 = .ok b) : b = false := by
  have key := C106_never_wrong zl 5 id (fun _ _ => .error .badObject) threeRoots threeRoots_readable (fun _ _ => False)
    (fun p hp => by simp [threeRoots] at hp) stubOnce (· = .diverge) (by decide) (fun _ _ => True)
    (stub_sound fun s => by cases s <;> first | exact .inl rfl | exact .inr rfl) (fun _ _ => false) (fun _ _ => trivial) rootA rfl
    [rootA, rootB, rootC] (fun q hq => threeRoots_reach hq (by simp)) n hn ops [9] (by decide)
  rw [h] at key
  cases b with
  | false => rfl
  | true =>
    obtain ⟨q, hq, h⟩ := key
    have hq := threeRoots_reach hq (by simp)
    simp only [List.mem_cons, List.not_mem_nil, or_false] at hq
    rcases h with ⟨-, h⟩ | ⟨x, h1, h2⟩
    · exact h.elim
    · rcases hq with rfl | rfl | rfl
      · cases (show threeRoots.loose rootA = some (fun _ => none, []) from rfl).symm.trans h1
        simp at h2
      · cases (show threeRoots.loose rootB = some (fun _ => none, []) from rfl).symm.trans h1
        simp at h2
      · cases (show threeRoots.loose rootC = some (fun q => if q = objectPath (binToHex [7]) then some (.file [1] 0o444) else none, [])
          from rfl).symm.trans h1
        revert h2
        decide

end GitDB.Props
