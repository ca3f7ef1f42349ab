import Verif.Model.LazyThreads
import Verif.Props.EntityIter
/-!
# C110: first calls of several threads on an index or a pack
-/
set_option autoImplicit false

namespace GitDB.Props
open GitDB Spec

/-! ## Any class with attributes filled on first access -/

section
variable {A V α β : Type}

/-- Code that is right if every attribute has the value of `R`: it reads attributes of `D`, sets right values, ends after at most `n` steps of
its own thread (`cost a` of them for `_set_cache_(a)`, if `a` may be missing), and its result, with the attributes that exist by then (`P`), is in `Q`. -/
def RightCode (R : A → V) (D : A → Prop) (cost : A → Nat) (Q : Res α → (A → Prop) → Prop) : Att A V α → (A → Prop) → Nat → Prop
  | .ret r, P, _ => Q r P
  | .get a k, P, n => D a ∧ ∃ m, ((P a ∧ m + 1 ≤ n) ∨ m + cost a + 2 ≤ n) ∧ RightCode R D cost Q (k (R a)) (fun b => b = a ∨ P b) m
  | .raw a k, P, n => P a ∧ ∃ m, m + 1 ≤ n ∧ RightCode R D cost Q (k (R a)) P m
  | .set a v k, P, n => v = R a ∧ ∃ m, m + 1 ≤ n ∧ RightCode R D cost Q k (fun b => b = a ∨ P b) m

variable {R : A → V} {D : A → Prop} {cost : A → Nat}

theorem rightCode_mono {Q Q' : Res α → (A → Prop) → Prop} (hq : ∀ r (P P' : A → Prop), (∀ a, P a → P' a) → Q r P → Q' r P') :
    ∀ (l : Att A V α) (P P' : A → Prop) (n n' : Nat), (∀ a, P a → P' a) → n ≤ n' → RightCode R D cost Q l P n → RightCode R D cost Q' l P' n'
  | .ret r, P, P', _, _, h, _, hl => hq r P P' h hl
  | .get a k, _, _, _, _, h, hn, ⟨hd, m, hm, hl⟩ =>
    ⟨hd, m, hm.imp (fun e => ⟨h a e.1, Nat.le_trans e.2 hn⟩) (fun e => Nat.le_trans e hn),
      rightCode_mono hq (k (R a)) _ _ _ _ (fun b hb => hb.imp id (h b)) (Nat.le_refl _) hl⟩
  | .raw a k, _, _, _, _, h, hn, ⟨hd, m, hm, hl⟩ =>
    ⟨h a hd, m, Nat.le_trans hm hn, rightCode_mono hq (k (R a)) _ _ _ _ h (Nat.le_refl _) hl⟩
  | .set _ _ k, _, _, _, _, h, hn, ⟨hd, m, hm, hl⟩ =>
    ⟨hd, m, Nat.le_trans hm hn, rightCode_mono hq k _ _ _ _ (fun b hb => hb.imp id (h b)) (Nat.le_refl _) hl⟩

theorem rightCode_weaken {Q : Res α → Prop} {l : Att A V α} {P P' : A → Prop} {n n' : Nat} (h : RightCode R D cost (fun r _ => Q r) l P n)
    (hP : ∀ a, P a → P' a) (hn : n ≤ n') : RightCode R D cost (fun r _ => Q r) l P' n' :=
  rightCode_mono (Q := fun r _ => Q r) (Q' := fun r _ => Q r) (fun _ _ _ _ h => h) l P P' n n' hP hn h

theorem rightCode_bind {Q : Res α → (A → Prop) → Prop} {Q' : Res β → (A → Prop) → Prop} (f : α → Att A V β) (n' : Nat)
    (he : ∀ e P, Q (.error e) P → Q' (.error e) P) (hf : ∀ a P n, Q (.ok a) P → RightCode R D cost Q' (f a) P (n + n')) :
    ∀ (l : Att A V α) (P : A → Prop) (n : Nat), RightCode R D cost Q l P n → RightCode R D cost Q' (l.bind f) P (n + n')
  | .ret (.error e), P, _, hl => he e P hl
  | .ret (.ok a), P, n, hl => hf a P n hl
  | .get a k, _, _, ⟨hd, m, hm, hl⟩ =>
    ⟨hd, m + n', hm.imp (fun e => ⟨e.1, by omega⟩) (fun e => by omega), rightCode_bind f n' he hf (k (R a)) _ _ hl⟩
  | .raw a k, _, _, ⟨hd, m, hm, hl⟩ => ⟨hd, m + n', by omega, rightCode_bind f n' he hf (k (R a)) _ _ hl⟩
  | .set _ _ k, _, _, ⟨hd, m, hm, hl⟩ => ⟨hd, m + n', by omega, rightCode_bind f n' he hf k _ _ hl⟩

/-- Attributes that exist have their right values. -/
def RightAttrs (R : A → V) (s : A → Option V) : Prop := ∀ a v, s a = some v → v = R a

/-- `_set_cache_(a)` succeeds in `cost a` steps, and the attribute exists afterwards. -/
def Fills (R : A → V) (D : A → Prop) (cost : A → Nat) (setCache : A → Att A V Unit) : Prop :=
  ∀ a, D a → ∀ P, RightCode R D cost (fun r P' => r = .ok () ∧ P' a ∧ ∀ b, P b → P' b) (setCache a) P (cost a)

variable [DecidableEq A] {setCache : A → Att A V Unit}

/-- A step of a call that has not ended leaves fewer steps. -/
theorem step_right (hf : Fills R D cost setCache) (Q : Res α → Prop) (s : A → Option V) (hs : RightAttrs R s) (t : Att A V α) (P : A → Prop)
    (n : Nat) (hP : ∀ a, P a → s a ≠ none) (ht : RightCode R D cost (fun r _ => Q r) t P n) :
    RightAttrs R (t.step setCache s).1 ∧ (∀ a, s a ≠ none → (t.step setCache s).1 a ≠ none) ∧
      ∃ P', (∀ a, P' a → (t.step setCache s).1 a ≠ none) ∧ RightCode R D cost (fun r _ => Q r) (t.step setCache s).2 P' (n - 1) := by
  rcases t with r | ⟨a, k⟩ | ⟨a, k⟩ | ⟨a, v, k⟩
  · exact ⟨hs, fun _ h => h, P, hP, ht⟩
  · obtain ⟨hd, m, hm, ht⟩ := ht
    dsimp only [Att.step]
    rcases ha : s a with _ | v
    · refine ⟨hs, fun _ h => h, P, hP, ?_⟩
      have hm : m + cost a + 2 ≤ n := hm.resolve_left fun e => hP a e.1 ha
      have : cost a + (m + 1) ≤ n - 1 := by omega
      refine rightCode_weaken (n := cost a + (m + 1)) ?_ (fun _ h => h) this
      refine rightCode_bind _ (m + 1) ?_ ?_ _ P (cost a) (hf a hd P)
      · exact fun e P' h => absurd h.1 nofun
      · refine fun _ P' j h => ⟨h.2.1, m, by omega, rightCode_weaken ht ?_ (Nat.le_refl _)⟩
        rintro b (rfl | hb)
        · exact h.2.1
        · exact h.2.2 b hb
    · refine ⟨hs, fun _ h => h, fun b => b = a ∨ P b, ?_, ?_⟩
      · rintro b (rfl | hb)
        · show s b ≠ none
          rw [ha]; nofun
        · exact hP b hb
      · have : m ≤ n - 1 := by omega
        rw [hs a v ha]
        exact rightCode_weaken ht (fun _ h => h) this
  · obtain ⟨hd, m, hm, ht⟩ := ht
    dsimp only [Att.step]
    rcases ha : s a with _ | v
    · exact absurd ha (hP a hd)
    · refine ⟨hs, fun _ h => h, P, hP, ?_⟩
      have : m ≤ n - 1 := by omega
      rw [hs a v ha]
      exact rightCode_weaken ht (fun _ h => h) this
  · obtain ⟨hd, m, hm, ht⟩ := ht
    have key : ∀ b, s b ≠ none → (if b = a then some v else s b) ≠ none := by
      intro b hb
      split
      · nofun
      · exact hb
    have hn : m ≤ n - 1 := by omega
    refine ⟨?_, key, fun b => b = a ∨ P b, ?_, rightCode_weaken ht (fun _ h => h) hn⟩
    · intro b w hb
      dsimp only [Att.step] at hb
      split at hb
      · rename_i e
        cases hb
        rw [hd, e]
      · exact hs b w hb
    · rintro b (rfl | hb)
      · show (if b = b then some v else s b) ≠ none
        rw [if_pos rfl]; nofun
      · exact key b (hP b hb)

/-- Every thread runs right code, thread `i` with at most `n i` steps left. -/
def RightSys (R : A → V) (D : A → Prop) (cost : A → Nat) (Q : Nat → Res α → Prop) (n : Nat → Nat) (s : LazySys A V α) : Prop :=
  RightAttrs R s.attrs ∧ ∀ (i : Nat) t, s.threads[i]? = some t →
    ∃ P : A → Prop, (∀ a, P a → s.attrs a ≠ none) ∧ RightCode R D cost (fun r _ => Q i r) t P (n i)

theorem rightSys_step (hf : Fills R D cost setCache) {Q : Nat → Res α → Prop} (n : Nat → Nat) (s : LazySys A V α)
    (h : RightSys R D cost Q n s) (j : Nat) : RightSys R D cost Q (fun i => if i = j then n i - 1 else n i) (s.step setCache j) := by
  unfold LazySys.step
  rcases hj : s.threads[j]? with _ | t
  · refine ⟨h.1, fun i t ht => ?_⟩
    have hne : i ≠ j := fun e => by rw [e] at ht; exact absurd (hj.symm.trans ht) nofun
    dsimp only
    rw [if_neg hne]
    exact h.2 i t ht
  · obtain ⟨P, hP, ht⟩ := h.2 j t hj
    obtain ⟨h1, h2, P', h3, h4⟩ := step_right hf (Q j) s.attrs h.1 t P _ hP ht
    refine ⟨h1, ?_⟩
    intro i u hu
    dsimp only at hu ⊢
    rw [List.getElem?_set] at hu
    split at hu
    · rename_i e
      subst e
      rw [if_pos rfl]
      split at hu
      · cases hu; exact ⟨P', h3, h4⟩
      · cases hu
    · rename_i e
      rw [if_neg (fun e' => e e'.symm)]
      obtain ⟨P, hP, hc⟩ := h.2 i u hu
      exact ⟨P, fun a ha => h2 a (hP a ha), hc⟩

theorem rightSys_run (hf : Fills R D cost setCache) {Q : Nat → Res α → Prop} : ∀ (sched : List Nat) (n : Nat → Nat) (s : LazySys A V α),
    RightSys R D cost Q n s → RightSys R D cost Q (fun i => n i - sched.count i) (s.run setCache sched) := by
  intro sched
  induction sched with
  | nil => exact fun n s h => h
  | cons j l ih =>
    intro n s h
    have h := ih _ _ (rightSys_step hf n s h j)
    have : (fun i => n i - (j :: l).count i) = fun i => (if i = j then n i - 1 else n i) - l.count i := by
      funext i
      rw [List.count_cons]
      by_cases e : i = j
      · subst e; simp; omega
      · have : (j == i) = false := by simpa using fun h => e h.symm
        simp [e, this]
    rw [this]
    exact h

theorem run_length (sched : List Nat) : ∀ s : LazySys A V α, (s.run setCache sched).threads.length = s.threads.length := by
  induction sched with
  | nil => exact fun _ => rfl
  | cons j l ih =>
    intro s
    refine (ih _).trans ?_
    unfold LazySys.step
    split
    · rfl
    · exact List.length_set

/-- What ended calls returned, and that a call ends after sufficiently many steps of its own. -/
theorem lazy_right (hf : Fills R D cost setCache) (Q : Nat → Res α → Prop) (s : A → Option V) (hs : RightAttrs R s) (l : List (Att A V α))
    (hl : ∀ (i : Nat) c, l[i]? = some c → ∃ n, RightCode R D cost (fun r _ => Q i r) c (fun _ => False) n) :
    (∀ sched (i : Nat) r, (LazySys.run setCache ⟨s, l⟩ sched).threads[i]? = some (.ret r) → Q i r) ∧
      ∀ (i : Nat), i < l.length → ∃ n, ∀ sched, n ≤ sched.count i →
        ∃ r, (LazySys.run setCache ⟨s, l⟩ sched).threads[i]? = some (.ret r) := by
  have : ∃ n : Nat → Nat, RightSys R D cost Q n ⟨s, l⟩ := by
    have : ∀ i : Nat, ∃ n, ∀ c, l[i]? = some c → RightCode R D cost (fun r _ => Q i r) c (fun _ => False) n := by
      intro i
      rcases hc : l[i]? with _ | c
      · exact ⟨0, nofun⟩
      · obtain ⟨n, hn⟩ := hl i c hc
        exact ⟨n, fun c' e => by cases e; exact hn⟩
    refine ⟨fun i => Classical.choose (this i), hs, fun i t ht => ⟨fun _ => False, nofun, ?_⟩⟩
    exact Classical.choose_spec (this i) t ht
  obtain ⟨n, hn⟩ := this
  refine ⟨fun sched i r hr => ?_, fun i hi => ⟨n i, fun sched hc => ?_⟩⟩
  · obtain ⟨P, -, h⟩ := (rightSys_run hf sched n _ hn).2 i _ hr
    exact h
  · have hi' : i < (LazySys.run setCache ⟨s, l⟩ sched).threads.length := by rw [run_length]; exact hi
    obtain ⟨P, -, h⟩ := (rightSys_run hf sched n _ hn).2 i _ (List.getElem?_eq_getElem hi')
    dsimp only at h
    rw [Nat.sub_eq_zero_of_le hc] at h
    rw [List.getElem?_eq_getElem hi']
    generalize (LazySys.run setCache ⟨s, l⟩ sched).threads[i] = t at h
    rcases t with r | ⟨a, k⟩ | ⟨a, k⟩ | ⟨a, v, k⟩
    · exact ⟨r, rfl⟩
    · obtain ⟨-, m, hm, -⟩ := h; omega
    · obtain ⟨-, m, hm, -⟩ := h; omega
    · obtain ⟨-, m, hm, -⟩ := h; omega

omit [DecidableEq A]
/-- Code that is right for some number of steps, whatever exists. -/
def RightFor (R : A → V) (D : A → Prop) (cost : A → Nat) (Q : Res α → Prop) (l : Att A V α) : Prop :=
  ∃ n, RightCode R D cost (fun r _ => Q r) l (fun _ => False) n

theorem rightFor_ret {Q : Res α → Prop} {r : Res α} (h : Q r) : RightFor R D cost Q (.ret r) := ⟨0, h⟩

theorem rightFor_get {Q : Res α → Prop} {a : A} {k : V → Att A V α} (hd : D a) (h : RightFor R D cost Q (k (R a))) :
    RightFor R D cost Q (.get a k) := by
  obtain ⟨n, h⟩ := h
  exact ⟨n + cost a + 2, hd, n, .inr (Nat.le_refl _), rightCode_weaken h nofun (Nat.le_refl _)⟩

theorem rightFor_bind {Q : Res α → Prop} {Q' : Res β → Prop} {l : Att A V α} {f : α → Att A V β} {x : Res α} (hx : ∀ r, Q r → r = x)
    (h : RightFor R D cost Q l) (he : ∀ e, x = .error e → Q' (.error e)) (hf : ∀ a, x = .ok a → RightFor R D cost Q' (f a)) :
    RightFor R D cost Q' (l.bind f) := by
  obtain ⟨n, h⟩ := h
  rcases x with e | a
  · exact ⟨n + 0, rightCode_bind f 0 (fun e' P h => he e' (hx _ h).symm) (fun a P n h => by cases hx _ h) l _ n h⟩
  · obtain ⟨n', h'⟩ := hf a rfl
    refine ⟨n + n', rightCode_bind f n' (fun e' P h => he e' (hx _ h).symm) (fun b P n h => ?_) l _ n h⟩
    cases hx _ h
    exact rightCode_weaken h' nofun (by omega)

/-- One call of each thread on an object without attributes. -/
theorem calls_right [DecidableEq A] {C : Type} {code : C → Att A V α} {answer : C → Res α} {setCache : A → Att A V Unit}
    (hf : Fills R D cost setCache) (hc : ∀ c, RightFor R D cost (· = answer c) (code c)) (calls : List C) :
    (∀ sched (i : Nat) c r, calls[i]? = some c → (LazySys.run setCache ⟨fun _ => none, calls.map code⟩ sched).threads[i]? = some (.ret r) →
        r = answer c) ∧
      ∀ (i : Nat) c, calls[i]? = some c → ∃ n, ∀ sched : List Nat, n ≤ sched.count i →
        (LazySys.run setCache ⟨fun _ => none, calls.map code⟩ sched).threads[i]? = some (.ret (answer c)) := by
  have h := lazy_right hf (fun i r => ∀ c, calls[i]? = some c → r = answer c) (fun _ => none) nofun (calls.map code) (by
    intro i l hl
    rw [List.getElem?_map] at hl
    rcases hi : calls[i]? with _ | d
    · rw [hi] at hl; cases hl
    · rw [hi] at hl
      cases hl
      obtain ⟨n, hn⟩ := hc d
      refine ⟨n, rightCode_mono (fun r _ _ _ h c e => ?_) _ _ _ _ _ (fun _ h => h) (Nat.le_refl _) hn⟩
      cases e
      exact h)
  have h1 := fun sched (i : Nat) c r hc hr => h.1 sched i r hr c hc
  refine ⟨h1, fun i c hc => ?_⟩
  obtain ⟨hi, -⟩ := List.getElem?_eq_some_iff.mp hc
  obtain ⟨n, hn⟩ := h.2 i (by rw [List.length_map]; exact hi)
  refine ⟨n, fun sched hs => ?_⟩
  obtain ⟨r, hr⟩ := hn sched hs
  rw [hr, h1 sched i c r hc hr]

variable {Q : Res α → (A → Prop) → Prop} {P : A → Prop} {n : Nat} {a : A} {k : V → Att A V α}

theorem rightCode_known (hd : D a) (hP : P a) (h : RightCode R D cost Q (k (R a)) (fun b => b = a ∨ P b) n) :
    RightCode R D cost Q (.get a k) P (n + 1) := ⟨hd, n, .inl ⟨hP, Nat.le_refl _⟩, h⟩

theorem rightCode_get (hd : D a) (h : RightCode R D cost Q (k (R a)) (fun b => b = a ∨ P b) n) :
    RightCode R D cost Q (.get a k) P (n + cost a + 2) := ⟨hd, n, .inr (Nat.le_refl _), h⟩

theorem rightCode_set {v : V} {l : Att A V α} (hv : v = R a) (h : RightCode R D cost Q l (fun b => b = a ∨ P b) n) :
    RightCode R D cost Q (.set a v l) P (n + 1) := ⟨hv, n, Nat.le_refl _, h⟩
end

/-! ## Indices -/

/-- The attributes of a usable index. -/
def iRight (x : IndexFile) : IAttr → IVal
  | .cursor => .map x.map
  | .version | .entry | .offset | .sha | .crc => .num x.version
  | .fanout => .table x.fanout
  | .crcOff => .num x.crcOff
  | .packOff => .num x.packOff
  | .pack64Off => .num x.pack64Off

/-- The attributes of an index of its version. -/
def iAvail (x : IndexFile) (a : IAttr) : Prop := a = .crcOff ∨ a = .packOff ∨ a = .pack64Off → x.version = 2

def iCost (a : IAttr) : Nat := if a = .cursor then 1 else 40

theorem iLoad {file : Bytes} {x : IndexFile} (h : IndexFile.load file = .ok x) : x.map = file ∧
    ((file.take 4 = [0xff, 0x74, 0x4f, 0x63] ∧ unpackL file 4 = .ok 2 ∧ readFanout file 8 = .ok x.fanout ∧ x.version = 2 ∧
        x.crcOff = shaListOff + x.fanout.getD 255 0 * 20 ∧ x.packOff = x.crcOff + x.fanout.getD 255 0 * 4 ∧
        x.pack64Off = x.packOff + x.fanout.getD 255 0 * 4) ∨
      (file.take 4 ≠ [0xff, 0x74, 0x4f, 0x63] ∧ readFanout file 0 = .ok x.fanout ∧ x.version = 1)) := by
  unfold IndexFile.load at h
  by_cases h4 : file.take 4 = [0xff, 0x74, 0x4f, 0x63]
  · simp only [h4, if_true] at h
    rcases hu : unpackL file 4 with e | v
    · simp [hu] at h
    · simp only [hu] at h
      by_cases hv : v = 2
      · simp only [hv, if_true] at h
        rcases hr : readFanout file 8 with e | t
        · simp [hr] at h
        · simp only [hr] at h
          cases h
          exact ⟨rfl, .inl ⟨h4, by rw [hv], rfl, rfl, rfl, rfl, rfl⟩⟩
      · simp [hv] at h
  · simp only [h4, if_false] at h
    rcases hr : readFanout file 0 with e | t
    · simp [hr] at h
    · simp [hr] at h
      cases h
      exact ⟨rfl, .inr ⟨h4, rfl, rfl⟩⟩

theorem index_fills {file : Bytes} {x : IndexFile} (h : IndexFile.load file = .ok x) : Fills (iRight x) (iAvail x) iCost (iSetCache file) := by
  obtain ⟨hm, h⟩ := iLoad h
  have rest : ∀ P, RightCode (iRight x) (iAvail x) iCost (fun r P' => r = .ok () ∧ (∀ a, iAvail x a → P' a) ∧ ∀ b, P b → P' b)
      (iSetCache file .version) P 40 := by
    intro P
    refine rightCode_get (n := 37) (by simp [iAvail]) ?_
    refine rightCode_set ?_ ?_
    · simp only [iRight, IVal.toMap, hm]
      rcases h with h | h
      · rw [if_pos h.1, h.2.2.2.1]
      · rw [if_neg h.1, h.2.2]
    refine rightCode_known (by simp [iAvail]) (by simp) ?_
    rcases h with ⟨h4, hu, hr, hv, h1, h2, h3⟩ | ⟨h4, hr, hv⟩
    · simp only [iRight, IVal.toMap, IVal.toNum, hm, hv, if_true, hu]
      refine rightCode_known (by simp [iAvail]) (by simp) ?_
      simp only [iRight, IVal.toNum, hv, if_true, iBind]
      refine rightCode_known (by simp [iAvail]) (by simp) ?_
      refine rightCode_set rfl ?_
      refine rightCode_known (by simp [iAvail]) (by simp) ?_
      refine rightCode_set rfl ?_
      refine rightCode_known (by simp [iAvail]) (by simp) ?_
      refine rightCode_set rfl ?_
      refine rightCode_known (by simp [iAvail]) (by simp) ?_
      refine rightCode_set rfl ?_
      refine rightCode_known (by simp [iAvail]) (by simp) ?_
      refine rightCode_known (by simp [iAvail]) (by simp) ?_
      simp only [iRight, IVal.toNum, IVal.toMap, hv, hm, if_true, hr]
      refine rightCode_set rfl ?_
      refine rightCode_known (by simp [iAvail]) (by simp) ?_
      simp only [iRight, IVal.toNum, hv, if_true, iSize]
      refine rightCode_known (by simp [iAvail]) (by simp) ?_
      refine rightCode_set (by simp [iRight, IVal.toTable, h1]) ?_
      refine rightCode_known (by simp [iAvail, hv]) (by simp) ?_
      refine rightCode_known (by simp [iAvail]) (by simp) ?_
      refine rightCode_set (by simp [iRight, IVal.toTable, IVal.toNum, h2]) ?_
      refine rightCode_known (by simp [iAvail, hv]) (by simp) ?_
      refine rightCode_known (by simp [iAvail]) (by simp) ?_
      refine rightCode_set (by simp [iRight, IVal.toTable, IVal.toNum, h3]) ?_
      refine ⟨rfl, fun a _ => ?_, fun b hb => ?_⟩
      · cases a <;> simp
      · simp [hb]
    · simp only [iRight, IVal.toNum, hv, iBind]
      rw [if_neg (by decide)]
      refine rightCode_known (by simp [iAvail]) (by simp) ?_
      refine rightCode_set rfl ?_
      refine rightCode_known (by simp [iAvail]) (by simp) ?_
      refine rightCode_set rfl ?_
      refine rightCode_known (by simp [iAvail]) (by simp) ?_
      refine rightCode_set rfl ?_
      refine rightCode_known (by simp [iAvail]) (by simp) ?_
      refine rightCode_set rfl ?_
      refine rightCode_known (by simp [iAvail]) (by simp) ?_
      refine rightCode_known (by simp [iAvail]) (by simp) ?_
      simp only [iRight, IVal.toNum, IVal.toMap, hv, hm]
      rw [if_neg (by decide), hr]
      refine rightCode_set rfl ?_
      refine rightCode_known (by simp [iAvail]) (by simp) ?_
      simp only [iRight, IVal.toNum, hv]
      rw [if_neg (by decide)]
      refine ⟨rfl, fun a ha => ?_, fun b hb => ?_⟩
      · cases a <;> simp [iAvail, hv] at ha ⊢
      · simp [hb]
  intro a ha P
  by_cases hc : a = .cursor
  · subst hc
    exact ⟨by rw [iRight, hm], 0, by simp [iCost], rfl, .inl rfl, fun b hb => .inr hb⟩
  · have : iSetCache file a = iSetCache file .version := by cases a <;> first | rfl | exact absurd rfl hc
    rw [this, iCost, if_neg hc]
    exact rightCode_mono (fun r P1 P2 h12 hq => ⟨hq.1, h12 _ (hq.2.1 a ha), fun b hb => h12 _ (hq.2.2 b hb)⟩) _ P P 40 40 (fun _ h => h)
      (Nat.le_refl _) (rest P)

section
variable {x : IndexFile}

/-- Code on a usable index that returns `r`. -/
abbrev IRight (x : IndexFile) {α : Type} (r : Res α) (l : ICode α) : Prop := RightFor (iRight x) (iAvail x) iCost (· = r) l

theorem iright_bind {α β : Type} {r : Res α} {l : ICode α} {f : α → ICode β} {r' : Res β} (h : IRight x r l) (he : ∀ e, r = .error e → r' = .error e)
    (hf : ∀ a, r = .ok a → IRight x r' (f a)) : IRight x r' (l.bind f) :=
  rightFor_bind (fun _ h => h) h (fun e h => (he e h).symm) hf

theorem iright_sha {α : Type} {r : Res α} {i : Nat} {k : Bytes → ICode α} (h : IRight x r (k (x.sha i))) : IRight x r (iShaBody x.version i k) :=
  rightFor_get (by simp [iAvail]) h

theorem iright_offset (i : Nat) : IRight x (x.offset i) (iOffsetBody x.version i) := by
  unfold iOffsetBody IndexFile.offset
  by_cases hv : x.version = 2
  · rw [if_pos hv, if_pos hv]
    refine rightFor_get (by simp [iAvail]) (rightFor_get (by simp [iAvail, hv]) ?_)
    simp only [iRight, IVal.toMap, IVal.toNum]
    rcases unpackL x.map (x.packOff + i * 4) with e | o
    · exact rightFor_ret rfl
    · dsimp only
      split
      · exact rightFor_get (by simp [iAvail]) (rightFor_get (by simp [iAvail, hv]) (rightFor_ret rfl))
      · exact rightFor_ret rfl
  · rw [if_neg hv, if_neg hv]
    exact rightFor_get (by simp [iAvail]) (rightFor_ret rfl)

theorem iright_crc (i : Nat) : IRight x (x.crc i) (iCrcBody x.version i) := by
  unfold iCrcBody IndexFile.crc
  by_cases hv : x.version = 2
  · rw [if_pos hv, if_pos hv]
    exact rightFor_get (by simp [iAvail]) (rightFor_get (by simp [iAvail, hv]) (rightFor_ret rfl))
  · rw [if_neg hv, if_neg hv]
    exact rightFor_ret rfl

theorem iright_entry (i : Nat) : IRight x (x.entry i) (iEntryBody x.version i) := by
  unfold iEntryBody IndexFile.entry
  by_cases hv : x.version = 2
  · rw [if_pos hv, if_pos hv]
    have ho := iright_offset (x := x) i
    have hc := iright_crc (x := x) i
    rw [hv] at ho hc
    refine iright_bind ho (fun e h => by rw [h]) fun o h => ?_
    rw [h, ← hv]
    refine iright_sha ?_
    rw [hv]
    refine iright_bind hc (fun e h => by rw [h]) fun c h => ?_
    rw [h]
    exact rightFor_ret rfl
  · rw [if_neg hv, if_neg hv]
    refine rightFor_get (by simp [iAvail]) ?_
    have hm : (iRight x .cursor).toMap = x.map := rfl
    rw [hm, IndexFile.sha, if_neg hv]
    by_cases hl : 1024 + i * 24 + 24 ≤ x.map.length
    · rw [if_pos hl, if_pos hl]
      exact rightFor_ret rfl
    · rw [if_neg hl, if_neg hl]
      exact rightFor_ret rfl

theorem iright_bisect (sha : Bytes) : ∀ k lo hi, IRight x (.ok (bisect sha x.sha k lo hi)) (iBisect sha x.version k lo hi)
  | 0, _, _ => rightFor_ret rfl
  | k + 1, lo, hi => by
    unfold iBisect bisect
    dsimp only
    split
    · refine iright_sha ?_
      split
      · exact iright_bisect sha k _ _
      · split
        · exact rightFor_ret rfl
        · exact iright_bisect sha k _ _
    · exact rightFor_ret rfl

theorem iright_bisectLow (sha : Bytes) : ∀ k lo hi, IRight x (.ok (bisectLow sha x.sha k lo hi)) (iBisectLow sha x.version k lo hi)
  | 0, _, _ => rightFor_ret rfl
  | k + 1, lo, hi => by
    unfold iBisectLow bisectLow
    dsimp only
    split
    · refine iright_sha ?_
      split
      · exact iright_bisectLow sha k _ _
      · split
        · exact rightFor_ret rfl
        · exact iright_bisectLow sha k _ _
    · exact rightFor_ret rfl

theorem iright_shaToIndex (sha : Bytes) : IRight x (x.shaToIndex sha) (iShaToIndex sha) := by
  unfold iShaToIndex IndexFile.shaToIndex
  rcases sha.head? with _ | b
  · exact rightFor_ret rfl
  · refine rightFor_get (by simp [iAvail]) ?_
    dsimp only [IndexFile.bounds]
    by_cases hb : b.toNat ≠ 0
    · rw [if_pos hb, if_pos hb]
      exact rightFor_get (by simp [iAvail]) (rightFor_get (by simp [iAvail]) (iright_bisect ..))
    · rw [if_neg hb, if_neg hb]
      exact rightFor_get (by simp [iAvail]) (iright_bisect ..)

theorem iright_partialEnd (part : Bytes) (n lo : Nat) : IRight x
    (if lo < x.size then
        match isEqualCanonicalSha n part (x.sha lo) with
        | .error e => .error e
        | .ok true =>
          if (if lo + 1 < x.size then x.sha (lo + 1) else []) ≠ [] ∧ (if lo + 1 < x.size then x.sha (lo + 1) else []) = x.sha lo then
            .error .ambiguousObjectName
          else .ok (some lo)
        | .ok false => .ok none
      else .ok none) (iPartialEnd part n x.version lo) := by
  unfold iPartialEnd
  have hs : (iRight x .fanout).toTable.getD 255 0 = x.size := rfl
  refine rightFor_get (by simp [iAvail]) ?_
  rw [hs]
  by_cases hl : lo < x.size
  · rw [if_pos hl, if_pos hl]
    refine iright_sha ?_
    rcases isEqualCanonicalSha n part (x.sha lo) with e | _ | _
    · exact rightFor_ret rfl
    · exact rightFor_ret rfl
    · refine rightFor_get (by simp [iAvail]) ?_
      rw [hs]
      by_cases hl2 : lo + 1 < x.size
      · simp only [if_pos hl2]
        refine iright_sha ?_
        split <;> exact rightFor_ret rfl
      · simp only [if_neg hl2]
        exact rightFor_ret (by simp)
  · rw [if_neg hl, if_neg hl]
    exact rightFor_ret rfl

theorem iright_partial (part : Bytes) (n : Nat) : IRight x (x.partialShaToIndex part n) (iPartial part n) := by
  unfold iPartial IndexFile.partialShaToIndex
  split
  · exact rightFor_ret rfl
  · rcases part.head? with _ | b
    · exact rightFor_ret rfl
    · refine rightFor_get (by simp [iAvail]) ?_
      dsimp only [IndexFile.bounds]
      by_cases hb : b.toNat ≠ 0
      · rw [if_pos hb, if_pos hb]
        refine rightFor_get (by simp [iAvail]) (rightFor_get (by simp [iAvail]) (iright_bind (iright_bisectLow ..) nofun fun lo h => ?_))
        cases h
        exact iright_partialEnd ..
      · rw [if_neg hb, if_neg hb]
        refine rightFor_get (by simp [iAvail]) (iright_bind (iright_bisectLow ..) nofun fun lo h => ?_)
        cases h
        exact iright_partialEnd ..

theorem iright_offsetsLoop : ∀ l : List Nat, IRight x (l.mapM x.offset) (iOffsetsLoop l)
  | [] => rightFor_ret rfl
  | i :: l => by
    rw [List.mapM_cons]
    refine rightFor_get (by simp [iAvail]) (iright_bind (iright_offset i) (fun e h => by rw [h]; rfl) fun o h => ?_)
    rw [h]
    refine iright_bind (iright_offsetsLoop l) (fun e h => by rw [h]; rfl) fun r h => ?_
    rw [h]
    exact rightFor_ret rfl

theorem iright_offsets : IRight x x.offsets iOffsets := by
  unfold iOffsets IndexFile.offsets
  refine rightFor_get (by simp [iAvail]) ?_
  have hn : (iRight x .version).toNum = x.version := rfl
  rw [hn]
  by_cases hv : x.version = 2
  · rw [if_pos hv, if_pos hv]
    exact rightFor_get (by simp [iAvail]) (rightFor_get (by simp [iAvail, hv]) (rightFor_get (by simp [iAvail, hv]) (rightFor_ret rfl)))
  · rw [if_neg hv, if_neg hv]
    exact rightFor_get (by simp [iAvail]) (iright_offsetsLoop _)
end

/-- What a call on an opened index returns. -/
def indexAnswer (x : IndexFile) : ICall → Res IOut
  | .version => .ok (.num x.version)
  | .size => .ok (.num x.size)
  | .sha i => .ok (.bytes (x.sha i))
  | .offset i => (x.offset i).map .num
  | .crc i => (x.crc i).map .num
  | .entry i => (x.entry i).map fun e => .entry e.1 e.2.1 e.2.2
  | .offsets => x.offsets.map .nums
  | .shaToIndex name => (x.shaToIndex name).map .found
  | .partialSha part n => (x.partialShaToIndex part n).map .found
  | .packfileChecksum => .ok (.bytes x.packfileChecksum)
  | .indexfileChecksum => .ok (.bytes x.indexfileChecksum)

theorem iright_call (x : IndexFile) (c : ICall) : IRight x (indexAnswer x c) c.code := by
  have key : ∀ {α : Type} {r : Res α} {l : ICode α} {f : α → IOut}, IRight x r l → IRight x (r.map f) (l.bind fun a => .ret (.ok (f a))) := by
    intro α r l f h
    refine iright_bind h (fun e h => by rw [h]; rfl) fun a h => ?_
    rw [h]
    exact rightFor_ret rfl
  rcases c with _ | _ | i | i | i | i | _ | name | ⟨part, n⟩ | _ | _
  · exact rightFor_get (by simp [iAvail]) (rightFor_ret rfl)
  · exact rightFor_get (by simp [iAvail]) (rightFor_ret rfl)
  · exact rightFor_get (by simp [iAvail]) (iright_sha (rightFor_ret rfl))
  · exact rightFor_get (by simp [iAvail]) (key (iright_offset i))
  · exact rightFor_get (by simp [iAvail]) (key (iright_crc i))
  · exact rightFor_get (by simp [iAvail]) (key (f := fun e : Nat × Bytes × Nat => IOut.entry e.1 e.2.1 e.2.2) (iright_entry i))
  · exact key iright_offsets
  · exact key (iright_shaToIndex name)
  · exact key (iright_partial part n)
  · exact rightFor_get (by simp [iAvail]) (rightFor_ret rfl)
  · exact rightFor_get (by simp [iAvail]) (rightFor_ret rfl)

/-- A new `PackIndexFile` or `PackFile`, and one call of each thread. -/
def newIndex (calls : List ICall) : LazySys IAttr IVal IOut := ⟨fun _ => none, calls.map ICall.code⟩

/-- C110: whatever several threads first call on an index that can be opened, and however their steps alternate, a call that ends returns what it
would return on an opened index. -/
theorem C110_index {file : Bytes} {x : IndexFile} (h : IndexFile.load file = .ok x) (calls : List ICall) (sched : List Nat) (i : Nat) (c : ICall)
    (hc : calls[i]? = some c) (r : Res IOut) (hr : ((newIndex calls).run (iSetCache file) sched).threads[i]? = some (.ret r)) :
    r = indexAnswer x c := by
  exact (calls_right (index_fills h) (iright_call x) calls).1 sched i c r hc hr

/-- C110: no thread waits for another: every call ends after a number of its own steps that does not depend on the other threads' steps. -/
theorem C110_index_ends {file : Bytes} {x : IndexFile} (h : IndexFile.load file = .ok x) (calls : List ICall) (i : Nat) (c : ICall)
    (hc : calls[i]? = some c) : ∃ n, ∀ sched : List Nat, n ≤ sched.count i →
      ((newIndex calls).run (iSetCache file) sched).threads[i]? = some (.ret (indexAnswer x c)) := by
  exact (calls_right (index_fills h) (iright_call x) calls).2 i c hc

/-! ## Packs -/

/-- The attributes of a usable pack. -/
def pRight (p : PackFile) : PAttr → IVal
  | .cursor => .map p.data
  | .version => .num p.version
  | .size => .num p.size

theorem pack_fills {file : Bytes} {p : PackFile} (h : PackFile.load file = .ok p) :
    Fills (pRight p) (fun _ => True) (fun _ => 5) (pSetCache file) := by
  unfold PackFile.load at h
  rcases h0 : unpackL file 0 with e | t
  · simp [h0] at h
  rcases h4 : unpackL file 4 with e | v
  · simp [h0, h4] at h
  rcases h8 : unpackL file 8 with e | n
  · simp [h0, h4, h8] at h
  simp only [h0, h4, h8] at h
  by_cases ht : t ≠ packSignature
  · rw [if_pos ht] at h; cases h
  rw [if_neg ht] at h
  cases h
  intro a _ P
  refine rightCode_set rfl (rightCode_known trivial (.inl rfl) ?_)
  simp only [pRight, IVal.toMap, h0, h4, h8]
  refine rightCode_set rfl (rightCode_set rfl ?_)
  rw [if_neg ht]
  refine ⟨rfl, ?_, fun b hb => ?_⟩
  · cases a <;> simp
  · simp [hb]

/-- What a call on an opened pack returns. -/
def packAnswer (p : PackFile) : PCall → Res POut
  | .version => .ok (.num p.version)
  | .size => .ok (.num p.size)
  | .stream offset => (p.stream offset).map .object
  | .collect fuel offset => (p.collectStreams fuel offset).map .objects
  | .checksum => .ok (.bytes p.checksum)

theorem collect_data (d : Bytes) (v n v' n' : Nat) : ∀ fuel off,
    PackFile.collectStreams ⟨d, v, n⟩ fuel off = PackFile.collectStreams ⟨d, v', n'⟩ fuel off
  | 0, _ => rfl
  | fuel + 1, off => by
    unfold PackFile.collectStreams
    dsimp only
    rcases packObjectAt d off with e | o
    · rfl
    · dsimp only
      rcases o.info with _ | d' | b
      · rfl
      · dsimp only
        rw [collect_data d v n v' n' fuel]
      · rfl

theorem pright_call (p : PackFile) (c : PCall) :
    RightFor (pRight p) (fun _ => True) (fun _ => 5) (· = packAnswer p c) c.code := by
  rcases c with _ | _ | off | ⟨fuel, off⟩ | _
  · exact rightFor_get trivial (rightFor_ret rfl)
  · exact rightFor_get trivial (rightFor_ret rfl)
  · exact rightFor_get trivial (rightFor_ret rfl)
  · refine rightFor_get trivial (rightFor_ret ?_)
    exact congrArg (Except.map POut.objects) (collect_data ..)
  · exact rightFor_get trivial (rightFor_get trivial (rightFor_ret rfl))

def newPackFile (calls : List PCall) : LazySys PAttr IVal POut := ⟨fun _ => none, calls.map PCall.code⟩

/-- C110, packs. -/
theorem C110_pack {file : Bytes} {p : PackFile} (h : PackFile.load file = .ok p) (calls : List PCall) (sched : List Nat) (i : Nat) (c : PCall)
    (hc : calls[i]? = some c) (r : Res POut) (hr : ((newPackFile calls).run (pSetCache file) sched).threads[i]? = some (.ret r)) :
    r = packAnswer p c := by
  exact (calls_right (pack_fills h) (pright_call p) calls).1 sched i c r hc hr

/-- C110, packs: no thread waits for another. -/
theorem C110_pack_ends {file : Bytes} {p : PackFile} (h : PackFile.load file = .ok p) (calls : List PCall) (i : Nat) (c : PCall)
    (hc : calls[i]? = some c) : ∃ n, ∀ sched : List Nat, n ≤ sched.count i →
      ((newPackFile calls).run (pSetCache file) sched).threads[i]? = some (.ret (packAnswer p c)) := by
  exact (calls_right (pack_fills h) (pright_call p) calls).2 i c hc

/-! ## Indices in git's format -/

/-- C110: threads that ask a new version 2 index for an entry, or for the place of a name, among whatever other calls, get what is in the file. -/
theorem C110_git_index (es : List Entry) (packSha idxSha : Bytes) (hv : ValidV2 es) (hs : Ascending (es.map Entry.name))
    (hd : (es.map Entry.name).Nodup) (calls : List ICall) (i : Nat) (k : Nat) (hk : k < es.length) :
    (calls[i]? = some (.entry k) → ∃ n, ∀ sched : List Nat, n ≤ sched.count i →
      ((newIndex calls).run (iSetCache (indexV2 es packSha idxSha)) sched).threads[i]? =
        some (.ret (.ok (.entry es[k].ofs es[k].name es[k].crc)))) ∧
    (calls[i]? = some (.shaToIndex es[k].name) → ∃ n, ∀ sched : List Nat, n ≤ sched.count i →
      ((newIndex calls).run (iSetCache (indexV2 es packSha idxSha)) sched).threads[i]? = some (.ret (.ok (.found (some k))))) := by
  have hl := v2_load es packSha idxSha hv
  refine ⟨fun hc => ?_, fun hc => ?_⟩
  · obtain ⟨n, hn⟩ := C110_index_ends hl calls i _ hc
    refine ⟨n, fun sched h => ?_⟩
    rw [hn sched h, indexAnswer, ((v2_holds es packSha idxSha hv).2 k hk).1]
    rfl
  · obtain ⟨n, hn⟩ := C110_index_ends hl calls i _ hc
    refine ⟨n, fun sched h => ?_⟩
    have := (enumerates_of (v2_indexOf es packSha idxSha hv hs) hd (by
      intro n hn h0
      obtain ⟨e, he, rfl⟩ := List.mem_map.1 hn
      have := hv.name_len e he
      rw [h0] at this
      simp at this)).find k (by simpa using hk)
    rw [List.getElem_map] at this
    rw [hn sched h, indexAnswer, this]
    rfl

example := C110_git_index exEntries [] [] exEntries_valid exEntries_asc (by decide)
  [.size, .shaToIndex (0xc0 :: List.replicate 19 0), .entry 2, .offsets] 1 1 (by decide)

/-! ## Files that cannot be used -/

/-- C110: a wrong signature is refused in the thread that reads the header; a thread that looks at the attributes before the check gets an
answer, even with its first call. -/
theorem C110_signature {file : Bytes} {t v n : Nat} (h0 : unpackL file 0 = .ok t) (h4 : unpackL file 4 = .ok v) (h8 : unpackL file 8 = .ok n)
    (ht : t ≠ packSignature) :
    ((newPackFile [.version, .version]).run (pSetCache file) [0, 0, 0, 0, 1, 0]).threads =
      [.ret (.error .parseError), .ret (.ok (.num v))] := by
  simp [newPackFile, LazySys.run, LazySys.step, PCall.code, Att.step, pSetCache, Att.bind, IVal.toMap, IVal.toNum, h0, h4, h8, ht]

/-- C110: likewise an index of an unknown version. -/
theorem C110_unknown_version {file : Bytes} {id : Nat} (hs : file.take 4 = [0xff, 0x74, 0x4f, 0x63]) (h4 : unpackL file 4 = .ok id) (hid : id ≠ 2) :
    ((newIndex [.size, .version]).run (iSetCache file) [0, 0, 0, 0, 0, 1, 0, 0]).threads =
      [.ret (.error .assertionError), .ret (.ok (.num 2))] := by
  simp [newIndex, LazySys.run, LazySys.step, ICall.code, Att.step, iSetCache, Att.bind, IVal.toMap, IVal.toNum, hs, h4, hid]

example : unpackL [80, 65, 67, 76, 0, 0, 0, 2, 0, 0, 0, 5] 0 = .ok 0x5041434c ∧ unpackL [80, 65, 67, 76, 0, 0, 0, 2, 0, 0, 0, 5] 4 = .ok 2 ∧
    unpackL [80, 65, 67, 76, 0, 0, 0, 2, 0, 0, 0, 5] 8 = .ok 5 ∧ 0x5041434c ≠ packSignature := by decide
example : ([0xff, 0x74, 0x4f, 0x63, 0, 0, 0, 3] : Bytes).take 4 = [0xff, 0x74, 0x4f, 0x63] ∧
    unpackL [0xff, 0x74, 0x4f, 0x63, 0, 0, 0, 3] 4 = .ok 3 := by decide

/-- Two threads on a usable pack: both read the header, and both get their answers. -/
example : ((newPackFile [.size, .version]).run (pSetCache [80, 65, 67, 75, 0, 0, 0, 2, 0, 0, 0, 5])
      [0, 1, 0, 1, 0, 1, 0, 1, 0, 1, 0, 1]).threads = [.ret (.ok (.num 5)), .ret (.ok (.num 2))] ∧
    PackFile.load [80, 65, 67, 75, 0, 0, 0, 2, 0, 0, 0, 5] = .ok ⟨[80, 65, 67, 75, 0, 0, 0, 2, 0, 0, 0, 5], 2, 5⟩ := ⟨rfl, by decide⟩

end GitDB.Props
