import Verif.Model.Compound
import Verif.Spec.Compound
import Verif.Proofs.Lists
import Verif.Proofs.Memory
/-!
# Lemmas about compound databases
-/
set_option autoImplicit false

namespace GitDB
open Spec

variable {ω σ τ α β : Type}

/-- `R s a`: in the state `s` the database answers `has_object` with `a`; reading operations do not change that. -/
structure Steady (O : DbOps ω σ α) (w : ω) (R : σ → (Bytes → Res Bool) → Prop) : Prop where
  noBad : ∀ {s a}, R s a → ∀ sha, a sha ≠ .error .badObject
  ans : ∀ {s a}, R s a → ∀ sha, (O.has w s sha).2 = a sha
  has : ∀ {s a}, R s a → ∀ sha, R (O.has w s sha).1 a
  get : ∀ {s a}, R s a → ∀ sha, R (O.get w s sha).1 a
  size : ∀ {s a}, R s a → R (O.size w s).1 a
  shas : ∀ {s a}, R s a → R (O.shas w s).1 a

theorem firstAnswer_noBad {as : List (Bytes → Res Bool)} (h : ∀ a ∈ as, ∀ sha, a sha ≠ .error .badObject) (sha : Bytes) :
    firstAnswer as sha ≠ .error .badObject := by
  induction as with
  | nil => simp [firstAnswer]
  | cons a as ih =>
    unfold firstAnswer
    split
    · exact ih fun b hb => h b (by simp [hb])
    · exact h a (by simp) sha

theorem scanDbs_spec {O : DbOps ω σ α} {w : ω} {R : σ → (Bytes → Res Bool) → Prop} (hO : Steady O w R) (sha : Bytes) :
    ∀ (l : List σ) (as : List (Bytes → Res Bool)) (k : Nat), All2 R l as →
      All2 R (scanDbs O w sha l k).1 as ∧
      ((∃ i, (scanDbs O w sha l k).2 = .ok (some (k + i)) ∧ FirstAt as sha i ∧ firstAnswer as sha = .ok true) ∨
        ((scanDbs O w sha l k).2 = .ok none ∧ firstAnswer as sha = .ok false) ∨
        ∃ e, (scanDbs O w sha l k).2 = .error e ∧ firstAnswer as sha = .error e) := by
  intro l
  induction l with
  | nil =>
    intro as k h
    cases h
    exact ⟨.nil, .inr (.inl ⟨rfl, rfl⟩)⟩
  | cons s l ih =>
    intro as k h
    cases h with
    | @cons _ a _ as h t =>
      have h1 := hO.ans h sha
      have h2 := hO.has h sha
      unfold scanDbs firstAnswer
      rcases hh : O.has w s sha with ⟨s', e | b⟩
      · rw [hh] at h1 h2
        simp only at h1 h2
        rw [← h1]
        exact ⟨.cons h2 t, .inr (.inr ⟨e, rfl, rfl⟩)⟩
      · rw [hh] at h1 h2
        simp only at h1 h2
        rw [← h1]
        cases b with
        | true =>
          exact ⟨.cons h2 t, .inl ⟨0, rfl, ⟨a, rfl, h1.symm, by intro j b hj; omega⟩, rfl⟩⟩
        | false =>
          obtain ⟨k1, k2⟩ := ih as (k + 1) t
          refine ⟨.cons h2 k1, ?_⟩
          rcases k2 with ⟨i, e1, ⟨b, g1, g2, g3⟩, e3⟩ | ⟨e1, e2⟩ | ⟨e, e1, e2⟩
          · refine .inl ⟨i + 1, by simp only [e1]; congr 2; omega, ⟨b, by simpa using g1, g2, ?_⟩, e3⟩
            intro j c hj hc
            cases j with
            | zero => simp only [List.getElem?_cons_zero, Option.some.injEq] at hc; rw [← hc]; exact h1.symm
            | succ j => exact g3 j c (by omega) (by simpa using hc)
          · exact .inr (.inl ⟨e1, e2⟩)
          · exact .inr (.inr ⟨e, e1, e2⟩)

theorem onDb_spec {R : σ → (Bytes → Res Bool) → Prop} {f : σ → σ × Res β} (hf : ∀ s a, R s a → R (f s).1 a) :
    ∀ (l : List σ) (as : List (Bytes → Res Bool)) (i : Nat), All2 R l as → All2 R (onDb f l i).1 as := by
  intro l
  induction l with
  | nil => intro as i h; cases h; exact .nil
  | cons s l ih =>
    intro as i h
    cases h with
    | cons h t =>
      cases i with
      | zero => exact .cons (hf _ _ h) t
      | succ i => exact .cons h (ih _ i t)

theorem onDb_result {R : σ → (Bytes → Res Bool) → Prop} {f : σ → σ × Res β} :
    ∀ (l : List σ) (as : List (Bytes → Res Bool)) (i : Nat) (a : Bytes → Res Bool), All2 R l as → as[i]? = some a →
      ∃ s, l[i]? = some s ∧ R s a ∧ (onDb f l i).2 = (f s).2 := by
  intro l
  induction l with
  | nil => intro as i a h ha; cases h; simp at ha
  | cons s l ih =>
    intro as i a h ha
    cases h with
    | cons h t =>
      cases i with
      | zero =>
        simp only [List.getElem?_cons_zero, Option.some.injEq] at ha
        subst ha
        exact ⟨s, rfl, h, rfl⟩
      | succ i =>
        obtain ⟨s', h1, h2, h3⟩ := ih _ i a t (by simpa using ha)
        exact ⟨s', by simpa using h1, h2, h3⟩

theorem eachDb_spec {R : σ → (Bytes → Res Bool) → Prop} {f : σ → σ × Res β} (hf : ∀ s a, R s a → R (f s).1 a) :
    ∀ (l : List σ) (as : List (Bytes → Res Bool)), All2 R l as → All2 R (eachDb f l).1 as := by
  intro l
  induction l with
  | nil => intro as h; cases h; exact .nil
  | cons s l ih =>
    intro as h
    cases h with
    | @cons _ a _ as h t =>
      have h1 := hf _ _ h
      have h2 := ih as t
      unfold eachDb
      rcases hs : f s with ⟨s', e | x⟩
      · rw [hs] at h1; exact .cons h1 t
      · rw [hs] at h1
        rcases hl : eachDb f l with ⟨l', e | xs⟩
        · rw [hl] at h2; simp only; exact .cons h1 h2
        · rw [hl] at h2; simp only; exact .cons h1 h2

/-- The answers of a compound database with members in states described by `R`. -/
def CompoundAns (R : σ → (Bytes → Res Bool) → Prop) (as : List (Bytes → Res Bool)) (c : Compound σ) : Prop :=
  All2 R c.dbs as ∧ ∀ sha i, nameGet sha c.cache = some i → FirstAt as sha i

theorem firstAt_answer : ∀ {as : List (Bytes → Res Bool)} {sha : Bytes} {i : Nat}, FirstAt as sha i →
    firstAnswer as sha = .ok true
  | [], _, _, ⟨a, h, _⟩ => by simp at h
  | a :: as, sha, 0, ⟨a', h1, h2, _⟩ => by
    simp only [List.getElem?_cons_zero, Option.some.injEq] at h1
    subst h1
    unfold firstAnswer; rw [h2]
  | a :: as, sha, i + 1, ⟨b, h1, h2, h3⟩ => by
    have h0 := h3 0 a (by omega) rfl
    unfold firstAnswer; rw [h0]
    exact firstAt_answer ⟨b, by simpa using h1, h2, fun j c hj hc => h3 (j + 1) c (by omega) (by simpa using hc)⟩

theorem query_spec {O : DbOps ω σ α} {w : ω} {R : σ → (Bytes → Res Bool) → Prop} (hO : Steady O w R)
    {as : List (Bytes → Res Bool)} {c : Compound σ} (h : CompoundAns R as c) (sha : Bytes) :
    CompoundAns R as (c.query O w sha).1 ∧
    ((∃ i, (c.query O w sha).2 = .ok i ∧ FirstAt as sha i) ∨
      ((c.query O w sha).2 = .error .badObject ∧ firstAnswer as sha = .ok false) ∨
      ∃ e, (c.query O w sha).2 = .error e ∧ firstAnswer as sha = .error e) := by
  unfold Compound.query
  rcases hc : nameGet sha c.cache with _ | i
  · simp only
    obtain ⟨k1, k2⟩ := scanDbs_spec hO sha c.dbs as 0 h.1
    rcases hs : scanDbs O w sha c.dbs 0 with ⟨dbs, e | (_ | i)⟩
    · rw [hs] at k1 k2
      simp only at k1 k2 ⊢
      rcases k2 with ⟨i, e1, -, -⟩ | ⟨e1, -⟩ | ⟨e', e1, e2⟩
      · simp at e1
      · simp at e1
      · simp only [Except.error.injEq] at e1
        subst e1
        exact ⟨⟨k1, h.2⟩, .inr (.inr ⟨e, rfl, e2⟩)⟩
    · rw [hs] at k1 k2
      simp only at k1 k2 ⊢
      rcases k2 with ⟨i, e1, -, -⟩ | ⟨-, e2⟩ | ⟨e', e1, e2⟩
      · simp at e1
      · exact ⟨⟨k1, h.2⟩, .inr (.inl ⟨by trivial, e2⟩)⟩
      · simp at e1
    · rw [hs] at k1 k2
      simp only at k1 k2 ⊢
      rcases k2 with ⟨j, e1, e2, e3⟩ | ⟨e1, -⟩ | ⟨e', e1, e2⟩
      · simp only [Except.ok.injEq, Option.some.injEq, Nat.zero_add] at e1
        subst e1
        refine ⟨⟨k1, ?_⟩, .inl ⟨i, rfl, e2⟩⟩
        intro sha' i' hi'
        by_cases hsh : sha' = sha
        · subst hsh
          rw [nameGet_set_same] at hi'
          simp only [Option.some.injEq] at hi'
          subst hi'; exact e2
        · rw [nameGet_set_other _ hsh] at hi'
          exact h.2 sha' i' hi'
      · simp at e1
      · simp at e1
  · exact ⟨h, .inl ⟨i, rfl, h.2 sha i hc⟩⟩

theorem compoundHas_fst (O : DbOps ω σ α) (w : ω) (c : Compound σ) (sha : Bytes) :
    (c.has O w sha).1 = (c.query O w sha).1 := by
  unfold Compound.has
  rcases c.query O w sha with ⟨c', e | i⟩
  · cases e <;> rfl
  · rfl

theorem compound_steady {O : DbOps ω σ α} {w : ω} {R : σ → (Bytes → Res Bool) → Prop} (hO : Steady O w R) :
    Steady (compoundOps O) w (fun c a => ∃ as, CompoundAns R as c ∧ a = firstAnswer as) where
  noBad := by
    rintro c a ⟨as, h, rfl⟩ sha
    refine firstAnswer_noBad ?_ sha
    intro b hb
    obtain ⟨s, -, hs⟩ := all2_mem_right h.1 b hb
    exact hO.noBad hs
  ans := by
    rintro c a ⟨as, h, rfl⟩ sha
    show (c.has O w sha).2 = _
    obtain ⟨-, k2⟩ := query_spec hO h sha
    unfold Compound.has
    rcases hq : c.query O w sha with ⟨c', e | i⟩
    · rw [hq] at k2
      rcases k2 with ⟨i, e1, -⟩ | ⟨e1, e2⟩ | ⟨e', e1, e2⟩
      · simp at e1
      · simp only [Except.error.injEq] at e1
        subst e1
        exact e2.symm
      · simp only [Except.error.injEq] at e1
        subst e1
        have hnb : e ≠ .badObject := by
          rintro rfl
          refine firstAnswer_noBad ?_ sha e2
          intro b hb
          obtain ⟨s, -, hs⟩ := all2_mem_right h.1 b hb
          exact hO.noBad hs
        rw [e2]
        cases e <;> first | rfl | exact absurd rfl hnb
    · rw [hq] at k2
      rcases k2 with ⟨j, e1, e2⟩ | ⟨e1, -⟩ | ⟨e', e1, -⟩
      · exact (firstAt_answer e2).symm
      · simp at e1
      · simp at e1
  has := by
    rintro c a ⟨as, h, rfl⟩ sha
    refine ⟨as, ?_, rfl⟩
    show CompoundAns R as (c.has O w sha).1
    rw [compoundHas_fst]
    exact (query_spec hO h sha).1
  get := by
    rintro c a ⟨as, h, rfl⟩ sha
    refine ⟨as, ?_, rfl⟩
    show CompoundAns R as (c.get O w sha).1
    have hq := (query_spec hO h sha).1
    unfold Compound.get
    rcases hc : c.query O w sha with ⟨c', e | i⟩
    · rw [hc] at hq; exact hq
    · rw [hc] at hq
      exact ⟨onDb_spec (fun s a h => hO.get h sha) _ _ i hq.1, hq.2⟩
  size := by
    rintro c a ⟨as, h, rfl⟩
    exact ⟨as, ⟨eachDb_spec (fun s a h => hO.size h) _ _ h.1, h.2⟩, rfl⟩
  shas := by
    rintro c a ⟨as, h, rfl⟩
    exact ⟨as, ⟨eachDb_spec (fun s a h => hO.shas h) _ _ h.1, h.2⟩, rfl⟩

theorem sum_steady {O : DbOps ω σ α} {P : DbOps ω τ α} {w : ω} {R : σ → (Bytes → Res Bool) → Prop}
    {S : τ → (Bytes → Res Bool) → Prop} (hO : Steady O w R) (hP : Steady P w S) :
    Steady (sumOps O P) w (fun x a => match x with | .inl s => R s a | .inr t => S t a) where
  noBad := by
    rintro (s | t) a h
    · exact hO.noBad h
    · exact hP.noBad h
  ans := by
    rintro (s | t) a h sha
    · exact hO.ans h sha
    · exact hP.ans h sha
  has := by
    rintro (s | t) a h sha
    · exact hO.has h sha
    · exact hP.has h sha
  get := by
    rintro (s | t) a h sha
    · exact hO.get h sha
    · exact hP.get h sha
  size := by
    rintro (s | t) a h
    · exact hO.size h
    · exact hP.size h
  shas := by
    rintro (s | t) a h
    · exact hO.shas h
    · exact hP.shas h

/-- The answers of nested databases. -/
def NestAns (R : σ → (Bytes → Res Bool) → Prop) : (n : Nat) → Nest σ n → (Bytes → Res Bool) → Prop
  | 0 => R
  | n + 1 => fun x a => match x with
    | .inl s => R s a
    | .inr c => ∃ as, CompoundAns (NestAns R n) as c ∧ a = firstAnswer as

theorem nest_steady {O : DbOps ω σ α} {w : ω} {R : σ → (Bytes → Res Bool) → Prop} (hO : Steady O w R) :
    ∀ n, Steady (nestOps O n) w (NestAns R n)
  | 0 => hO
  | n + 1 => by
    have h := sum_steady hO (compound_steady (nest_steady hO n))
    refine ⟨?_, ?_, ?_, ?_, ?_, ?_⟩
    · rintro (s | c) a ha
      · exact h.noBad (s := .inl s) ha
      · exact h.noBad (s := .inr c) ha
    · rintro (s | c) a ha
      · exact h.ans (s := .inl s) ha
      · exact h.ans (s := .inr c) ha
    · rintro (s | c) a ha sha
      · exact h.has (s := .inl s) ha sha
      · exact h.has (s := .inr c) ha sha
    · rintro (s | c) a ha sha
      · exact h.get (s := .inl s) ha sha
      · exact h.get (s := .inr c) ha sha
    · rintro (s | c) a ha
      · exact h.size (s := .inl s) ha
      · exact h.size (s := .inr c) ha
    · rintro (s | c) a ha
      · exact h.shas (s := .inl s) ha
      · exact h.shas (s := .inr c) ha

/-! ### contents that grow -/

/-- Reading operations of a database. -/
inductive DbOp where
  | has (sha : Bytes)
  | get (sha : Bytes)
  | size
  | shas

/-- The database after a reading operation, whether it raised an exception or not. -/
def dbStep (O : DbOps ω σ α) (w : ω) (s : σ) : DbOp → σ
  | .has sha => (O.has w s sha).1
  | .get sha => (O.get w s sha).1
  | .size => (O.size w s).1
  | .shas => (O.shas w s).1

/-- `C w s` are the names of the objects that a database in a good state `s` finds; reading does not change them.  (With the
empty name a `PackedDB` raises an exception.) -/
structure Locates (O : DbOps ω σ α) (Ok : ω → σ → Prop) (C : ω → σ → Bytes → Prop) : Prop where
  has : ∀ {w s}, Ok w s → ∀ sha, sha ≠ [] → ∃ b, (O.has w s sha).2 = .ok b ∧ (b = true ↔ C w s sha)
  yes : ∀ {w s}, Ok w s → ∀ sha, (O.has w s sha).2 = .ok true → C w s sha
  ok : ∀ {w s}, Ok w s → ∀ op, Ok w (dbStep O w s op)
  same : ∀ {w s}, Ok w s → ∀ op sha, C w (dbStep O w s op) sha ↔ C w s sha

/-- Good states of a compound database: what is in the cache is contained in the database it names. -/
def CompoundOk (Ok : ω → σ → Prop) (C : ω → σ → Bytes → Prop) (w : ω) (c : Compound σ) : Prop :=
  (∀ s ∈ c.dbs, Ok w s) ∧ ∀ sha i, nameGet sha c.cache = some i → ∃ s, c.dbs[i]? = some s ∧ C w s sha

/-- Two lists of databases with the same contents. -/
def SameContents (Ok : ω → σ → Prop) (C : ω → σ → Bytes → Prop) (w : ω) : List σ → List σ → Prop :=
  All2 fun s s' => Ok w s' ∧ ∀ x, C w s' x ↔ C w s x

theorem sameContents_refl {Ok : ω → σ → Prop} {C : ω → σ → Bytes → Prop} {w : ω} : ∀ {l : List σ}, (∀ s ∈ l, Ok w s) →
    SameContents Ok C w l l
  | [], _ => .nil
  | s :: l, h => .cons ⟨h s (by simp), fun _ => Iff.rfl⟩ (sameContents_refl fun t ht => h t (by simp [ht]))

theorem sameContents_get {Ok : ω → σ → Prop} {C : ω → σ → Bytes → Prop} {w : ω} {l l' : List σ}
    (h : SameContents Ok C w l l') : ∀ (i : Nat) (s : σ), l[i]? = some s → ∃ s', l'[i]? = some s' ∧ ∀ x, C w s' x ↔ C w s x := by
  unfold SameContents at h
  induction h with
  | nil => intro i s h; simp at h
  | cons h _ ih =>
    intro i s hs
    cases i with
    | zero =>
      simp only [List.getElem?_cons_zero, Option.some.injEq] at hs
      subst hs
      exact ⟨_, rfl, h.2⟩
    | succ i => simpa using ih i s (by simpa using hs)

theorem sameContents_ok {Ok : ω → σ → Prop} {C : ω → σ → Bytes → Prop} {w : ω} {c : Compound σ} {l : List σ}
    (h : CompoundOk Ok C w c) (hl : SameContents Ok C w c.dbs l) : CompoundOk Ok C w { c with dbs := l } := by
  refine ⟨fun s hs => ?_, fun sha i hi => ?_⟩
  · obtain ⟨_, _, h2⟩ := all2_mem_right hl s hs
    exact h2.1
  · obtain ⟨s, h1, h2⟩ := h.2 sha i hi
    obtain ⟨s', h3, h4⟩ := sameContents_get hl i s h1
    exact ⟨s', h3, (h4 sha).mpr h2⟩

theorem sameContents_union {Ok : ω → σ → Prop} {C : ω → σ → Bytes → Prop} {w : ω} {l l' : List σ}
    (hl : SameContents Ok C w l l') (sha : Bytes) : (∃ s ∈ l', C w s sha) ↔ ∃ s ∈ l, C w s sha := by
  constructor
  · rintro ⟨s, hs, h⟩
    obtain ⟨a, ha, h2⟩ := all2_mem_right hl s hs
    exact ⟨a, ha, (h2.2 sha).mp h⟩
  · rintro ⟨s, hs, h⟩
    obtain ⟨a, ha, h2⟩ := all2_mem_left hl s hs
    exact ⟨a, ha, (h2.2 sha).mpr h⟩

theorem scanDbs_locates {O : DbOps ω σ α} {Ok : ω → σ → Prop} {C : ω → σ → Bytes → Prop} (hO : Locates O Ok C) {w : ω} (sha : Bytes) :
    ∀ (l : List σ) (k : Nat), (∀ s ∈ l, Ok w s) →
      SameContents Ok C w l (scanDbs O w sha l k).1 ∧
      ((∃ i s, (scanDbs O w sha l k).2 = .ok (some (k + i)) ∧ l[i]? = some s ∧ C w s sha) ∨
        ((scanDbs O w sha l k).2 = .ok none ∧ (sha ≠ [] → ∀ s ∈ l, ¬ C w s sha)) ∨
        (sha = [] ∧ ∃ e, (scanDbs O w sha l k).2 = .error e))
  | [], k, _ => ⟨.nil, .inr (.inl ⟨rfl, by simp⟩)⟩
  | s :: l, k, h => by
    have h1 := hO.has (h s (by simp)) sha
    have h2 := hO.yes (h s (by simp)) sha
    have h3 : Ok w (O.has w s sha).1 := hO.ok (h s (by simp)) (.has sha)
    have h4 : ∀ x, C w (O.has w s sha).1 x ↔ C w s x := hO.same (h s (by simp)) (.has sha)
    obtain ⟨i1, i2⟩ := scanDbs_locates hO sha l (k + 1) fun t ht => h t (by simp [ht])
    unfold scanDbs
    rcases hh : O.has w s sha with ⟨s', e | b⟩
    · rw [hh] at h1 h3 h4
      refine ⟨.cons ⟨h3, h4⟩ (sameContents_refl fun t ht => h t (by simp [ht])), .inr (.inr ⟨?_, e, rfl⟩)⟩
      by_cases hs : sha = []
      · exact hs
      · obtain ⟨b, hb, -⟩ := h1 hs
        simp at hb
    · rw [hh] at h1 h2 h3 h4
      cases b with
      | true =>
        exact ⟨.cons ⟨h3, h4⟩ (sameContents_refl fun t ht => h t (by simp [ht])), .inl ⟨0, s, rfl, rfl, h2 rfl⟩⟩
      | false =>
        refine ⟨.cons ⟨h3, h4⟩ i1, ?_⟩
        rcases i2 with ⟨i, t, e1, e2, e3⟩ | ⟨e1, e2⟩ | ⟨e1, e2⟩
        · exact .inl ⟨i + 1, t, by simp only [e1]; congr 2; omega, by simpa using e2, e3⟩
        · refine .inr (.inl ⟨e1, ?_⟩)
          intro hs t ht
          simp only [List.mem_cons] at ht
          rcases ht with rfl | ht
          · intro hc
            obtain ⟨b, hb, hb2⟩ := h1 hs
            simp only [Except.ok.injEq] at hb
            subst hb
            exact absurd (hb2.mpr hc) (by decide)
          · exact e2 hs t ht
        · exact .inr (.inr ⟨e1, e2⟩)

theorem query_locates {O : DbOps ω σ α} {Ok : ω → σ → Prop} {C : ω → σ → Bytes → Prop} (hO : Locates O Ok C) {w : ω}
    {c : Compound σ} (h : CompoundOk Ok C w c) (sha : Bytes) :
    SameContents Ok C w c.dbs (c.query O w sha).1.dbs ∧ CompoundOk Ok C w (c.query O w sha).1 ∧
    ((∃ i s, (c.query O w sha).2 = .ok i ∧ c.dbs[i]? = some s ∧ C w s sha) ∨
      ((c.query O w sha).2 = .error .badObject ∧ (sha ≠ [] → ∀ s ∈ c.dbs, ¬ C w s sha)) ∨
      (sha = [] ∧ ∃ e, (c.query O w sha).2 = .error e)) := by
  unfold Compound.query
  rcases hc : nameGet sha c.cache with _ | i
  · simp only
    obtain ⟨k1, k2⟩ := scanDbs_locates hO sha c.dbs 0 h.1
    rcases hs : scanDbs O w sha c.dbs 0 with ⟨dbs, e | (_ | i)⟩
    · rw [hs] at k1 k2
      rcases k2 with ⟨i, s, e1, -⟩ | ⟨e1, -⟩ | ⟨e1, -⟩
      · simp at e1
      · simp at e1
      · exact ⟨k1, sameContents_ok h k1, .inr (.inr ⟨e1, e, rfl⟩)⟩
    · rw [hs] at k1 k2
      rcases k2 with ⟨i, s, e1, -⟩ | ⟨-, e2⟩ | ⟨-, e, e1⟩
      · simp at e1
      · exact ⟨k1, sameContents_ok h k1, .inr (.inl ⟨rfl, e2⟩)⟩
      · simp at e1
    · rw [hs] at k1 k2
      rcases k2 with ⟨j, s, e1, e2, e3⟩ | ⟨e1, -⟩ | ⟨-, e, e1⟩
      · simp only [Except.ok.injEq, Option.some.injEq, Nat.zero_add] at e1
        subst e1
        refine ⟨k1, ⟨(sameContents_ok h k1).1, ?_⟩, .inl ⟨i, s, rfl, e2, e3⟩⟩
        intro sha' i' hi'
        by_cases hsh : sha' = sha
        · subst hsh
          rw [nameGet_set_same] at hi'
          simp only [Option.some.injEq] at hi'
          subst hi'
          obtain ⟨s', g1, g2⟩ := sameContents_get k1 i s e2
          exact ⟨s', g1, (g2 sha').mpr e3⟩
        · rw [nameGet_set_other _ hsh] at hi'
          exact (sameContents_ok h k1).2 sha' i' hi'
      · simp at e1
      · simp at e1
  · obtain ⟨s, h1, h2⟩ := h.2 sha i hc
    exact ⟨sameContents_refl h.1, h, .inl ⟨i, s, rfl, h1, h2⟩⟩

theorem onDb_locates {Ok : ω → σ → Prop} {C : ω → σ → Bytes → Prop} {w : ω} {f : σ → σ × Res β}
    (hf : ∀ s, Ok w s → Ok w (f s).1 ∧ ∀ x, C w (f s).1 x ↔ C w s x) : ∀ (l : List σ) (i : Nat), (∀ s ∈ l, Ok w s) →
    SameContents Ok C w l (onDb f l i).1
  | [], _, _ => .nil
  | s :: l, 0, h => .cons (hf s (h s (by simp))) (sameContents_refl fun t ht => h t (by simp [ht]))
  | s :: l, i + 1, h => .cons ⟨h s (by simp), fun _ => Iff.rfl⟩ (onDb_locates hf l i fun t ht => h t (by simp [ht]))

theorem onDb_at {f : σ → σ × Res β} : ∀ (l : List σ) (i : Nat) (s : σ), l[i]? = some s → (onDb f l i).2 = (f s).2
  | [], _, _, h => by simp at h
  | s :: l, 0, t, h => by
    simp only [List.getElem?_cons_zero, Option.some.injEq] at h
    subst h; rfl
  | s :: l, i + 1, t, h => onDb_at l i t (by simpa using h)

theorem eachDb_locates {Ok : ω → σ → Prop} {C : ω → σ → Bytes → Prop} {w : ω} {f : σ → σ × Res β}
    (hf : ∀ s, Ok w s → Ok w (f s).1 ∧ ∀ x, C w (f s).1 x ↔ C w s x) : ∀ (l : List σ), (∀ s ∈ l, Ok w s) →
    SameContents Ok C w l (eachDb f l).1
  | [], _ => .nil
  | s :: l, h => by
    have h1 := hf s (h s (by simp))
    have h2 := eachDb_locates hf l fun t ht => h t (by simp [ht])
    unfold eachDb
    rcases hs : f s with ⟨s', e | x⟩
    · rw [hs] at h1
      exact .cons h1 (sameContents_refl fun t ht => h t (by simp [ht]))
    · rw [hs] at h1
      rcases hl : eachDb f l with ⟨l', e | xs⟩
      · rw [hl] at h2; exact .cons h1 h2
      · rw [hl] at h2; exact .cons h1 h2

theorem sameContents_trans {Ok : ω → σ → Prop} {C : ω → σ → Bytes → Prop} {w : ω} {l l' l'' : List σ}
    (h : SameContents Ok C w l l') (h' : SameContents Ok C w l' l'') : SameContents Ok C w l l'' := by
  unfold SameContents at *
  induction h generalizing l'' with
  | nil => cases h'; exact .nil
  | cons h _ ih =>
    cases h' with
    | cons g t => exact .cons ⟨g.1, fun x => (g.2 x).trans (h.2 x)⟩ (ih t)

theorem compound_step {O : DbOps ω σ α} {Ok : ω → σ → Prop} {C : ω → σ → Bytes → Prop} (hO : Locates O Ok C) {w : ω}
    {c : Compound σ} (h : CompoundOk Ok C w c) (op : DbOp) :
    CompoundOk Ok C w (dbStep (compoundOps O) w c op) ∧
      SameContents Ok C w c.dbs (dbStep (compoundOps O) w c op).dbs := by
  cases op with
  | has sha =>
    obtain ⟨q1, q2, -⟩ := query_locates hO h sha
    have : dbStep (compoundOps O) w c (.has sha) = (c.query O w sha).1 := compoundHas_fst O w c sha
    rw [this]
    exact ⟨q2, q1⟩
  | get sha =>
    obtain ⟨q1, q2, -⟩ := query_locates hO h sha
    show CompoundOk Ok C w (c.get O w sha).1 ∧ SameContents Ok C w c.dbs (c.get O w sha).1.dbs
    unfold Compound.get
    rcases hq : c.query O w sha with ⟨c', e | i⟩
    · rw [hq] at q1 q2; exact ⟨q2, q1⟩
    · rw [hq] at q1 q2
      have hs := onDb_locates (f := fun s => O.get w s sha) (fun s hs => ⟨hO.ok hs (.get sha), hO.same hs (.get sha)⟩) c'.dbs i q2.1
      exact ⟨sameContents_ok q2 hs, sameContents_trans q1 hs⟩
  | size =>
    have hs := eachDb_locates (f := O.size w) (fun s hs => ⟨hO.ok hs .size, hO.same hs .size⟩) c.dbs h.1
    exact ⟨sameContents_ok h hs, hs⟩
  | shas =>
    have hs := eachDb_locates (f := O.shas w) (fun s hs => ⟨hO.ok hs .shas, hO.same hs .shas⟩) c.dbs h.1
    exact ⟨sameContents_ok h hs, hs⟩

/-- A compound database finds the union of what its databases find. -/
theorem compound_locates {O : DbOps ω σ α} {Ok : ω → σ → Prop} {C : ω → σ → Bytes → Prop} (hO : Locates O Ok C) :
    Locates (compoundOps O) (CompoundOk Ok C) (fun w c sha => ∃ s ∈ c.dbs, C w s sha) where
  has := by
    intro w c h sha hne
    show ∃ b, (c.has O w sha).2 = .ok b ∧ _
    obtain ⟨-, -, q⟩ := query_locates hO h sha
    unfold Compound.has
    rcases hq : c.query O w sha with ⟨c', r⟩
    rw [hq] at q
    rcases q with ⟨i, s, e1, e2, e3⟩ | ⟨e1, e2⟩ | ⟨e1, -⟩
    · simp only at e1
      subst e1
      exact ⟨true, rfl, by simpa using ⟨s, List.mem_of_getElem? e2, e3⟩⟩
    · simp only at e1
      subst e1
      exact ⟨false, rfl, by simpa using e2 hne⟩
    · exact absurd e1 hne
  yes := by
    intro w c h sha hy
    replace hy : (c.has O w sha).2 = .ok true := hy
    obtain ⟨-, -, q⟩ := query_locates hO h sha
    unfold Compound.has at hy
    rcases hq : c.query O w sha with ⟨c', r⟩
    rw [hq] at q hy
    rcases q with ⟨i, s, e1, e2, e3⟩ | ⟨e1, -⟩ | ⟨-, e, e1⟩
    · exact ⟨s, List.mem_of_getElem? e2, e3⟩
    · simp only at e1
      subst e1
      simp at hy
    · simp only at e1
      subst e1
      cases e <;> simp at hy
  ok := fun h op => (compound_step hO h op).1
  same := fun h op sha => sameContents_union (compound_step hO h op).2 sha

theorem get_served {O : DbOps ω σ α} {Ok : ω → σ → Prop} {C : ω → σ → Bytes → Prop} (hO : Locates O Ok C) {w : ω}
    {c : Compound σ} (h : CompoundOk Ok C w c) (sha : Bytes) (hne : sha ≠ []) :
    (∃ s, Ok w s ∧ C w s sha ∧ (∃ s0 ∈ c.dbs, ∀ x, C w s x ↔ C w s0 x) ∧ (c.get O w sha).2 = (O.get w s sha).2) ∨
      ((∀ s ∈ c.dbs, ¬ C w s sha) ∧ (c.get O w sha).2 = .error .badObject) := by
  obtain ⟨q1, q2, q⟩ := query_locates hO h sha
  unfold Compound.get
  rcases hq : c.query O w sha with ⟨c', r⟩
  rw [hq] at q q1 q2
  rcases q with ⟨i, s, e1, e2, e3⟩ | ⟨e1, e2⟩ | ⟨e1, -⟩
  · simp only at e1 q1
    subst e1
    obtain ⟨s', g1, g2⟩ := sameContents_get q1 i s e2
    exact .inl ⟨s', q2.1 s' (List.mem_of_getElem? g1), (g2 sha).mpr e3, ⟨s, List.mem_of_getElem? e2, g2⟩,
      onDb_at c'.dbs i s' g1⟩
  · simp only at e1
    subst e1
    exact .inr ⟨e2 hne, rfl⟩
  · exact absurd e1 hne

/-! ### size, iteration -/

theorem eachDb_ok {f : σ → σ × Res β} : ∀ (l : List σ) (xs : List β), All2 (fun s x => (f s).2 = .ok x) l xs →
    (eachDb f l).2 = .ok xs
  | [], _, h => by cases h; rfl
  | s :: l, _, h => by
    cases h with
    | @cons _ x _ xs h t =>
      have ih := eachDb_ok l xs t
      unfold eachDb
      rcases hs : f s with ⟨s', e | y⟩
      · rw [hs] at h; simp at h
      · rw [hs] at h
        simp only [Except.ok.injEq] at h
        rcases hl : eachDb f l with ⟨l', e | ys⟩
        · rw [hl] at ih; simp at ih
        · rw [hl] at ih
          simp only [Except.ok.injEq] at ih
          simp [h, ih]

theorem eachDb_err {f : σ → σ × Res β} : ∀ (l : List σ) (e : Err), (eachDb f l).2 = .error e → ∃ s ∈ l, (f s).2 = .error e
  | [], e, h => by simp [eachDb] at h
  | s :: l, e, h => by
    unfold eachDb at h
    rcases hs : f s with ⟨s', e' | y⟩
    · rw [hs] at h
      exact ⟨s, by simp, by rw [hs]; simpa using h⟩
    · rw [hs] at h
      rcases hl : eachDb f l with ⟨l', e' | ys⟩
      · rw [hl] at h
        obtain ⟨t, ht, h2⟩ := eachDb_err l e (by rw [hl]; simpa using h)
        exact ⟨t, by simp [ht], h2⟩
      · rw [hl] at h; simp at h

/-! ### the databases of a tree -/

theorem filter_split_flatMap {γ δ : Type} (p : γ → Bool) (f : γ → List δ) (l : List γ) :
    ((l.filter fun d => !p d).flatMap f ++ (l.filter fun d => p d).flatMap f).Perm (l.flatMap f) := by
  rw [← List.flatMap_append]
  refine List.Perm.flatMap_right _ ?_
  have := List.filter_append_perm p l
  exact (List.perm_append_comm).trans this

/-- All databases of a tree, in order. -/
def leaves : (n : Nat) → Nest σ n → List σ
  | 0, s => [s]
  | _ + 1, .inl s => [s]
  | n + 1, .inr c => c.dbs.flatMap (leaves n)

theorem databasesRecursive_perm : ∀ (n : Nat) (t : Nest σ n), (databasesRecursive n t).Perm (leaves n t)
  | 0, _ => List.Perm.refl _
  | _ + 1, .inl _ => List.Perm.refl _
  | n + 1, .inr c => by
    refine (filter_split_flatMap (isCompound n) (databasesRecursive n) c.dbs).trans ?_
    show (c.dbs.flatMap (databasesRecursive n)).Perm (c.dbs.flatMap (leaves n))
    generalize c.dbs = l
    induction l with
    | nil => exact List.Perm.refl _
    | cons d l ih =>
      rw [List.flatMap_cons, List.flatMap_cons]
      exact (databasesRecursive_perm n d).append ih

/-! ### abbreviations -/

theorem completeDbs_spec (O : DbOps ω σ α) (w : ω) (part : Bytes) (N : σ → Bytes → Prop) (hne : ∀ s x, N s x → x ≠ []) :
    ∀ (l : List σ) (cand : Option Bytes), (∀ s ∈ l, Resolves (N s) (O.complete w s part).2) → (∀ c, cand = some c → c ≠ []) →
      (∃ x, (completeDbs O w part l cand).2 = .ok (some x) ∧ x ≠ [] ∧ (cand = some x ∨ ∃ s ∈ l, N s x) ∧
        (∀ y, cand = some y → y = x) ∧ ∀ s ∈ l, ∀ y, N s y → y = x) ∨
      ((completeDbs O w part l cand).2 = .ok none ∧ cand = none ∧ ∀ s ∈ l, ∀ y, ¬ N s y) ∨
      ((completeDbs O w part l cand).2 = .error .ambiguousObjectName ∧ ∃ x y, x ≠ y ∧ (cand = some x ∨ ∃ s ∈ l, N s x) ∧
        (cand = some y ∨ ∃ s ∈ l, N s y))
  | [], cand, _, hc => by
    cases cand with
    | none => exact .inr (.inl ⟨rfl, rfl, by simp⟩)
    | some c => exact .inl ⟨c, rfl, hc c rfl, .inl rfl, by simp, by simp⟩
  | s :: l, cand, h, hc => by
    have hs := h s (by simp)
    have ih := fun cand => completeDbs_spec O w part N hne l cand fun t ht => h t (by simp [ht])
    unfold completeDbs
    rcases hr : O.complete w s part with ⟨s', e | full⟩
    · rw [hr] at hs
      cases e with
      | badObject =>
        simp only [Resolves] at hs
        rcases ih cand hc with ⟨x, e1, e2, e3, e4, e5⟩ | ⟨e1, e2, e3⟩ | ⟨e1, x, y, e2, e3, e4⟩
        · refine .inl ⟨x, e1, e2, ?_, e4, ?_⟩
          · rcases e3 with e3 | ⟨t, ht, e3⟩
            · exact .inl e3
            · exact .inr ⟨t, by simp [ht], e3⟩
          · intro t ht y hy
            simp only [List.mem_cons] at ht
            rcases ht with rfl | ht
            · exact absurd hy (hs y)
            · exact e5 t ht y hy
        · refine .inr (.inl ⟨e1, e2, ?_⟩)
          intro t ht y hy
          simp only [List.mem_cons] at ht
          rcases ht with rfl | ht
          · exact hs y hy
          · exact e3 t ht y hy
        · refine .inr (.inr ⟨e1, x, y, e2, ?_, ?_⟩)
          · rcases e3 with e3 | ⟨t, ht, e3⟩
            · exact .inl e3
            · exact .inr ⟨t, by simp [ht], e3⟩
          · rcases e4 with e3 | ⟨t, ht, e3⟩
            · exact .inl e3
            · exact .inr ⟨t, by simp [ht], e3⟩
      | ambiguousObjectName =>
        obtain ⟨x, y, hxy, hx, hy⟩ := hs
        exact .inr (.inr ⟨rfl, x, y, hxy, .inr ⟨s, by simp, hx⟩, .inr ⟨s, by simp, hy⟩⟩)
      | _ => exact absurd hs (by simp [Resolves])
    · rw [hr] at hs
      obtain ⟨hf1, hf2⟩ := hs
      have hfull := hne s full hf1
      simp only [if_neg hfull]
      by_cases hcand : cand.any (fun c => decide (c ≠ [] ∧ c ≠ full)) = true
      · rw [if_pos hcand]
        cases cand with
        | none => simp at hcand
        | some c =>
          simp only [Option.any_some, decide_eq_true_eq] at hcand
          exact .inr (.inr ⟨rfl, c, full, hcand.2, .inl rfl, .inr ⟨s, by simp, hf1⟩⟩)
      · rw [if_neg hcand]
        have hcf : ∀ y, cand = some y → y = full := by
          rintro y rfl
          simp only [Option.any_some, decide_eq_true_eq] at hcand
          by_cases hy : y = full
          · exact hy
          · exact absurd ⟨hc y rfl, hy⟩ hcand
        rcases ih (some full) (by rintro c ⟨⟩; exact hfull) with ⟨x, e1, e2, e3, e4, e5⟩ | ⟨e1, e2, e3⟩ | ⟨e1, x, y, e2, e3, e4⟩
        · have hx : full = x := e4 full rfl
          subst hx
          refine .inl ⟨full, e1, hfull, .inr ⟨s, by simp, hf1⟩, hcf, ?_⟩
          intro t ht y hy
          simp only [List.mem_cons] at ht
          rcases ht with rfl | ht
          · exact hf2 y hy
          · exact e5 t ht y hy
        · simp at e2
        · refine .inr (.inr ⟨e1, x, y, e2, ?_, ?_⟩)
          · rcases e3 with e3 | ⟨t, ht, e3⟩
            · cases e3; exact .inr ⟨s, by simp, hf1⟩
            · exact .inr ⟨t, by simp [ht], e3⟩
          · rcases e4 with e3 | ⟨t, ht, e3⟩
            · cases e3; exact .inr ⟨s, by simp, hf1⟩
            · exact .inr ⟨t, by simp [ht], e3⟩

/-! ### putting back -/

theorem putBackList_len {γ δ : Type} {put : γ → List δ → γ × List δ} {sel : γ → Bool} {lv : γ → List δ}
    (hput : ∀ d l x, l.length = (lv d).length → lv (put d (l ++ x)).1 = l ∧ (put d (l ++ x)).2 = x ∧
      sel (put d (l ++ x)).1 = sel d) :
    ∀ (ds : List γ) (l x : List δ), l.length = ((ds.filter sel).flatMap lv).length →
      ((putBackList put sel ds (l ++ x)).1.filter sel).flatMap lv = l ∧ (putBackList put sel ds (l ++ x)).2 = x ∧
      (putBackList put sel ds (l ++ x)).1.filter (fun d => !sel d) = ds.filter (fun d => !sel d)
  | [], l, x, h => by
    simp only [List.filter_nil, List.flatMap_nil, List.length_nil] at h
    have : l = [] := List.length_eq_zero_iff.mp h
    subst this
    simp [putBackList]
  | d :: ds, l, x, h => by
    by_cases hd : sel d = true
    · rw [List.filter_cons_of_pos hd, List.flatMap_cons, List.length_append] at h
      have hsplit : l = l.take (lv d).length ++ l.drop (lv d).length := (List.take_append_drop _ _).symm
      obtain ⟨p1, p2, p3⟩ := hput d (l.take (lv d).length) (l.drop (lv d).length ++ x) (by rw [List.length_take]; omega)
      obtain ⟨q1, q2, q3⟩ := putBackList_len hput ds (l.drop (lv d).length) x (by rw [List.length_drop]; omega)
      rw [← List.append_assoc, ← hsplit] at p1 p2 p3
      unfold putBackList
      rw [if_pos hd]
      simp only [p2]
      refine ⟨?_, q2, ?_⟩
      · rw [List.filter_cons_of_pos (by rw [p3]; exact hd), List.flatMap_cons, p1, q1, ← hsplit]
      · rw [List.filter_cons_of_neg (by rw [p3, hd]; decide), List.filter_cons_of_neg (by rw [hd]; decide), q3]
    · have hd' : sel d = false := by simpa using hd
      rw [List.filter_cons_of_neg hd] at h
      obtain ⟨q1, q2, q3⟩ := putBackList_len hput ds l x h
      unfold putBackList
      rw [if_neg hd]
      simp only
      refine ⟨?_, q2, ?_⟩
      · rw [List.filter_cons_of_neg hd, q1]
      · rw [List.filter_cons_of_pos (by rw [hd']; decide), List.filter_cons_of_pos (by rw [hd']; decide), q3]

theorem putBack_spec : ∀ (n : Nat) (t : Nest σ n) (l x : List σ), l.length = (databasesRecursive n t).length →
    databasesRecursive n (putBack n t (l ++ x)).1 = l ∧ (putBack n t (l ++ x)).2 = x ∧
    isCompound n (putBack n t (l ++ x)).1 = isCompound n t
  | 0, s, l, x, h => by
    obtain ⟨a, rfl⟩ := List.length_eq_one_iff.mp h
    exact ⟨rfl, rfl, rfl⟩
  | n + 1, .inl s, l, x, h => by
    obtain ⟨a, rfl⟩ := List.length_eq_one_iff.mp h
    exact ⟨rfl, rfl, rfl⟩
  | n + 1, .inr c, l, x, h => by
    have h' : l.length = ((c.dbs.filter fun d => !isCompound n d).flatMap (databasesRecursive n)).length +
        ((c.dbs.filter fun d => isCompound n d).flatMap (databasesRecursive n)).length := by
      rw [h]; exact List.length_append
    obtain ⟨m, hm⟩ : ∃ m, m = ((c.dbs.filter fun d => !isCompound n d).flatMap (databasesRecursive n)).length := ⟨_, rfl⟩
    have hsplit : l = l.take m ++ l.drop m := (List.take_append_drop _ _).symm
    obtain ⟨a1, a2, a3⟩ := putBackList_len (put := putBack n) (sel := fun d => !isCompound n d) (lv := databasesRecursive n)
      (fun d l x hl => by
        obtain ⟨p1, p2, p3⟩ := putBack_spec n d l x hl
        exact ⟨p1, p2, by rw [p3]⟩) c.dbs (l.take m) (l.drop m ++ x) (by rw [List.length_take, ← hm]; omega)
    rw [← List.append_assoc, ← hsplit] at a1 a2 a3
    simp only [Bool.not_not] at a3
    obtain ⟨b1, b2, b3⟩ := putBackList_len (put := putBack n) (sel := fun d => isCompound n d) (lv := databasesRecursive n)
      (fun d l x hl => by
        obtain ⟨p1, p2, p3⟩ := putBack_spec n d l x hl
        exact ⟨p1, p2, by rw [p3]⟩) (putBackList (putBack n) (fun d => !isCompound n d) c.dbs (l ++ x)).1 (l.drop m) x
      (by rw [a3, List.length_drop]; omega)
    have hp : putBack (n + 1) (.inr c) (l ++ x) =
        (let r := putBackList (putBack n) (fun d => !isCompound n d) c.dbs (l ++ x)
         let r' := putBackList (putBack n) (fun d => isCompound n d) r.1 r.2
         (.inr { c with dbs := r'.1 }, r'.2)) := rfl
    rw [hp]
    simp only [a2]
    refine ⟨?_, b2, rfl⟩
    show List.flatMap _ _ ++ List.flatMap _ _ = l
    simp only
    rw [b1, b3, a1, ← hsplit]

theorem completeDbs_len (O : DbOps ω σ α) (w : ω) (part : Bytes) : ∀ (l : List σ) (cand : Option Bytes),
    (completeDbs O w part l cand).1.length = l.length
  | [], _ => rfl
  | s :: l, cand => by
    unfold completeDbs
    rcases O.complete w s part with ⟨s', e | full⟩
    · cases e <;> simp [completeDbs_len O w part l]
    · simp only
      split
      · simp [completeDbs_len O w part l]
      · split
        · simp
        · simp [completeDbs_len O w part l]

end GitDB
