import Verif.Proofs.Compound
import Verif.Props.PackedDB
import Verif.Props.Loose
import Verif.Props.Memory
/-!
# C44, C45, C46: compound databases
-/
set_option autoImplicit false

namespace GitDB.Props
open GitDB Spec

variable {ω σ α : Type}

/-! ## C44: histories in an unchanging world -/

/-- **C44** Nested compound databases of any depth, over any kind of databases whose answers to `has_object` reading does not
change (`Steady`: see below for packed, loose and memory databases): after any history of reading operations, whatever it has put into
the caches on all levels, `has_object` gives the same answer - also if it is an exception. -/
theorem C44_history (O : DbOps ω σ α) (w : ω) (R : σ → (Bytes → Res Bool) → Prop) (hO : Steady O w R) (n : Nat) (t : Nest σ n)
    (a : Bytes → Res Bool) (h : NestAns R n t a) (ops : List DbOp) (sha : Bytes) :
    ((nestOps O n).has w (ops.foldl (dbStep (nestOps O n) w) t) sha).2 = a sha := by
  have hs := nest_steady hO n
  have : ∀ (ops : List DbOp) (t : Nest σ n), NestAns R n t a → NestAns R n (ops.foldl (dbStep (nestOps O n) w) t) a := by
    intro ops
    induction ops with
    | nil => exact fun t h => h
    | cons op ops ih =>
      intro t h
      refine ih _ ?_
      cases op with
      | has sha => exact hs.has h sha
      | get sha => exact hs.get h sha
      | size => exact hs.size h
      | shas => exact hs.shas h
  exact hs.ans (this ops t h) sha

/-- **C44** `info` and `stream` are answered by the first database having the object, whatever the history: `s` is the state of the
database at the first position `i` whose answer is yes.  If none has it, `BadObject`. -/
theorem C44_first (O : DbOps ω σ α) (w : ω) (R : σ → (Bytes → Res Bool) → Prop) (hO : Steady O w R) (dbs : List σ)
    (as : List (Bytes → Res Bool)) (h : All2 R dbs as) (ops : List DbOp) (sha : Bytes) :
    let c := ops.foldl (dbStep (compoundOps O) w) { dbs := dbs }
    All2 R c.dbs as ∧
    (∀ i, FirstAt as sha i → ∃ s a, as[i]? = some a ∧ R s a ∧ (c.get O w sha).2 = (O.get w s sha).2) ∧
    (firstAnswer as sha = .ok false → (c.get O w sha).2 = .error .badObject) := by
  have hs := compound_steady hO
  have keep : ∀ (ops : List DbOp) (c : Compound σ), CompoundAns R as c →
      CompoundAns R as (ops.foldl (dbStep (compoundOps O) w) c) := by
    intro ops
    induction ops with
    | nil => exact fun t h => h
    | cons op ops ih =>
      intro c h
      refine ih _ ?_
      cases op with
      | has sha =>
        show CompoundAns R as (c.has O w sha).1
        rw [compoundHas_fst]
        exact (query_spec hO h sha).1
      | get sha =>
        show CompoundAns R as (c.get O w sha).1
        have hq := (query_spec hO h sha).1
        unfold Compound.get
        rcases hc : c.query O w sha with ⟨c', e | i⟩
        · rw [hc] at hq; exact hq
        · rw [hc] at hq
          exact ⟨onDb_spec (fun s a h => hO.get h sha) _ _ i hq.1, hq.2⟩
      | size => exact ⟨eachDb_spec (fun s a h => hO.size h) _ _ h.1, h.2⟩
      | shas => exact ⟨eachDb_spec (fun s a h => hO.shas h) _ _ h.1, h.2⟩
  intro c
  have hc : CompoundAns R as c := keep ops _ ⟨h, by simp [nameGet]⟩
  refine ⟨hc.1, ?_, ?_⟩
  · intro i hi
    obtain ⟨q1, q2⟩ := query_spec hO hc sha
    unfold Compound.get
    rcases hq : c.query O w sha with ⟨c', r⟩
    rw [hq] at q1 q2
    rcases q2 with ⟨j, e1, e2⟩ | ⟨-, e2⟩ | ⟨e, -, e2⟩
    · simp only at e1
      subst e1
      have hij : i = j := by
        obtain ⟨a, f1, f2, f3⟩ := hi
        obtain ⟨b, g1, g2, g3⟩ := e2
        rcases Nat.lt_trichotomy i j with hlt | rfl | hlt
        · have := g3 i a hlt f1; rw [f2] at this; simp at this
        · rfl
        · have := f3 j b hlt g1; rw [g2] at this; simp at this
      subst hij
      obtain ⟨a, f1, -, -⟩ := hi
      obtain ⟨s, -, g2, g3⟩ := onDb_result (f := fun s => O.get w s sha) c'.dbs as i a q1.1 f1
      exact ⟨s, a, f1, g2, g3⟩
    · rw [firstAt_answer hi] at e2; simp at e2
    · rw [firstAt_answer hi] at e2; simp at e2
  · intro hf
    obtain ⟨-, q2⟩ := query_spec hO hc sha
    unfold Compound.get
    rcases hq : c.query O w sha with ⟨c', r⟩
    rw [hq] at q2
    rcases q2 with ⟨j, e1, e2⟩ | ⟨e1, -⟩ | ⟨e, -, e2⟩
    · rw [firstAt_answer e2] at hf; simp at hf
    · simp only at e1; subst e1; rfl
    · rw [hf] at e2; simp at e2

/-- If the databases raise no exceptions: yes iff one of them says yes. -/
theorem C44_any (as : List (Bytes → Res Bool)) (sha : Bytes) (h : ∀ a ∈ as, ∃ b, a sha = .ok b) :
    ∃ b, firstAnswer as sha = .ok b ∧ (b = true ↔ ∃ a ∈ as, a sha = .ok true) := by
  induction as with
  | nil => exact ⟨false, rfl, by simp⟩
  | cons a as ih =>
    obtain ⟨b, hb⟩ := h a (by simp)
    obtain ⟨b', h1, h2⟩ := ih fun a ha => h a (by simp [ha])
    unfold firstAnswer
    cases b with
    | true => rw [hb]; exact ⟨true, rfl, by simp [hb]⟩
    | false => rw [hb]; exact ⟨b', h1, by rw [h2]; simp [hb]⟩

/-! ### the kinds of databases -/

/-- A pack database that is loaded, in an unchanging directory, with any files (also damaged ones). -/
def PackedAns (order : List Bytes → List Bytes) (dir : Option PackDir) (db : PackedDB) (a : Bytes → Res Bool) : Prop :=
  ∃ l pre suf, db.entities = some l ∧ PInv (dirFiles dir) pre suf l ∧ ∀ sha, a sha = (db.hasObject order dir sha).2

theorem packedAns_next {order : List Bytes → List Bytes} {dir : Option PackDir} {db db' : PackedDB} {l l' : List PackItem}
    {pre suf : List (Bytes × PackFile × Option Bytes)} {a : Bytes → Res Bool} (h1 : db.entities = some l)
    (h2 : PInv (dirFiles dir) pre suf l) (h3 : ∀ sha, a sha = (db.hasObject order dir sha).2) (h1' : db'.entities = some l')
    (h2' : PInv (dirFiles dir) pre suf l') : PackedAns order dir db' a := by
  refine ⟨l', pre, suf, h1', h2', fun sha => ?_⟩
  rw [h3]
  by_cases hs : sha = []
  · subst hs; rw [(packInfo_empty h1 h2).2, (packInfo_empty h1' h2').2]
  · rw [(packInfo_inv h1 h2 hs).2.1, (packInfo_inv h1' h2' hs).2.1]

theorem packed_steady (zl : Zlib) (fuel : Nat) (order : List Bytes → List Bytes) (dir : Option PackDir) :
    Steady (packedOps order fun d db sha => db.stream fuel order d sha) dir (PackedAns order dir) where
  noBad := by
    rintro db a ⟨l, pre, suf, -, -, h3⟩ sha
    rw [h3]
    unfold PackedDB.hasObject
    rcases db.packInfo order dir sha with ⟨d, e | r⟩
    · cases e <;> simp
    · simp
  ans := by
    rintro db a ⟨l, pre, suf, -, -, h3⟩ sha
    exact (h3 sha).symm
  has := by
    rintro db a ⟨l, pre, suf, h1, h2, h3⟩ sha
    obtain ⟨l', k1, k2⟩ := packStep_keeps (zl := zl) (order := order) h1 h2 (.has sha)
    exact packedAns_next h1 h2 h3 k1 k2
  get := by
    rintro db a ⟨l, pre, suf, h1, h2, h3⟩ sha
    obtain ⟨l', k1, k2⟩ := packStep_keeps (zl := zl) (order := order) h1 h2 (.stream fuel sha)
    exact packedAns_next h1 h2 h3 k1 k2
  size := by
    rintro db a ⟨l, pre, suf, h1, h2, h3⟩
    obtain ⟨l', k1, k2⟩ := packStep_keeps (zl := zl) (order := order) h1 h2 .size
    exact packedAns_next h1 h2 h3 k1 k2
  shas := by
    rintro db a ⟨l, pre, suf, h1, h2, h3⟩
    obtain ⟨l', k1, k2⟩ := packStep_keeps (zl := zl) (order := order) h1 h2 .iter
    exact packedAns_next h1 h2 h3 k1 k2

/-- What a loose database finds: the files there are, and the names it has seen. -/
def LooseHas (w : Fs × List (Bytes × List Bytes)) (db : LooseDB) (sha : Bytes) : Prop :=
  binToHex sha ∈ db.known ∨ (w.1 (objectPath (binToHex sha))).isSome = true

theorem looseHas_step (w : Fs × List (Bytes × List Bytes)) (db : LooseDB) (sha : Bytes) :
    ((db.hasObject w.1 sha).2 = true ↔ LooseHas w db sha) ∧
      ∀ x, LooseHas w (db.hasObject w.1 sha).1 x ↔ LooseHas w db x := by
  unfold LooseDB.hasObject LooseDB.readablePath LooseHas
  by_cases h1 : binToHex sha ∈ db.known
  · simp [h1]
  · by_cases h2 : (w.1 (objectPath (binToHex sha))).isSome = true
    · simp only [h1, h2, if_false, if_true]
      refine ⟨by simp, fun x => ⟨?_, ?_⟩⟩
      · rintro (h | h)
        · simp only [List.mem_cons] at h
          rcases h with h | h
          · rw [h]; exact .inr h2
          · exact .inl h
        · exact .inr h
      · rintro (h | h)
        · exact .inl (by simp [h])
        · exact .inr h
    · simp [h1, h2]

theorem loose_locates (get : Fs → Bytes → Res α) : Locates (looseOps get) (fun _ _ => True) LooseHas where
  has := fun {w s} _ sha _ => ⟨_, rfl, (looseHas_step w s sha).1⟩
  yes := fun {w s} _ sha h => (looseHas_step w s sha).1.mp (by simpa [looseOps] using h)
  ok := fun _ _ => trivial
  same := by
    intro w s _ op sha
    cases op with
    | has x => exact (looseHas_step w s x).2 sha
    | get x => exact Iff.rfl
    | size => exact Iff.rfl
    | shas => exact Iff.rfl

theorem memory_locates : Locates memoryOps (fun _ _ => True) (fun _ db sha => db.hasObject sha = true) where
  has := fun {w s} _ sha _ => ⟨_, rfl, Iff.rfl⟩
  yes := fun {w s} _ sha h => by simpa [memoryOps] using h
  ok := fun _ _ => trivial
  same := by
    intro w s _ op sha
    cases op with
    | has x => exact Iff.rfl
    | size => exact Iff.rfl
    | shas => exact Iff.rfl
    | get x =>
      show (s.stream x).1.hasObject sha = true ↔ s.hasObject sha = true
      unfold MemDB.stream
      rcases hx : nameGet x s.cache with _ | o
      · exact Iff.rfl
      · simp only
        rcases o.reader.seek 0 0 with ⟨r, e | u⟩
        · exact Iff.rfl
        · simp only [MemDB.hasObject]
          by_cases h : sha = x
          · subst h; rw [nameGet_set_same, hx]; simp
          · rw [nameGet_set_other _ h]

/-- A pack database that is loaded, with well-formed indices. -/
def PackedOk (dir : Option PackDir) (db : PackedDB) : Prop :=
  ∃ l, db.entities = some l ∧ ∀ it ∈ l, ∃ ns, Lists (dirFiles dir) it ns

/-- The names in its indices. -/
def PackedHas (dir : Option PackDir) (db : PackedDB) (sha : Bytes) : Prop :=
  ∃ l, db.entities = some l ∧ ∃ it ∈ l, ∃ ns, Lists (dirFiles dir) it ns ∧ sha ∈ ns

theorem lists_key {dir : PackDir} {a b : PackItem} (h : a.key dir = b.key dir) (ns : List Bytes) :
    Lists dir a ns ↔ Lists dir b ns := by
  simp only [PackItem.key, Prod.mk.injEq] at h
  unfold Lists
  rw [h.2.2]

theorem packedOk_pinv {dir : Option PackDir} {l : List PackItem} (h : ∀ it ∈ l, ∃ ns, Lists (dirFiles dir) it ns) :
    PInv (dirFiles dir) (l.map (PackItem.key (dirFiles dir))) [] l := by
  refine ⟨?_, by simp, l, [], by simp, List.Perm.refl _, rfl, List.Pairwise.nil, by simp⟩
  intro k hk
  obtain ⟨it, hit, rfl⟩ := List.mem_map.mp hk
  obtain ⟨ns, c, hc, hi⟩ := h it hit
  obtain ⟨x, hx, -⟩ := isIndex_load hi
  exact ⟨x, by unfold PackItem.key; rw [hc]; exact hx⟩

theorem packed_next {zl : Zlib} {order : List Bytes → List Bytes} {dir : Option PackDir} {db : PackedDB} (h : PackedOk dir db)
    (op : PackOp) : PackedOk dir (packStep zl order dir db op) ∧
      ∀ sha, PackedHas dir (packStep zl order dir db op) sha ↔ PackedHas dir db sha := by
  obtain ⟨l, h1, h2⟩ := h
  obtain ⟨l', k1, k2⟩ := packStep_keeps (zl := zl) (order := order) h1 (packedOk_pinv h2) op
  obtain ⟨pre, suf, rfl, e1, e2, -, -⟩ := k2.ex
  have hsuf : suf = [] := by simpa using e2
  subst hsuf
  rw [List.append_nil] at k1
  have to : ∀ it ∈ pre, ∃ it' ∈ l, it'.key (dirFiles dir) = it.key (dirFiles dir) := by
    intro it hit
    have := e1.mem_iff.mp (List.mem_map_of_mem hit)
    simpa using this
  have back : ∀ it ∈ l, ∃ it' ∈ pre, it'.key (dirFiles dir) = it.key (dirFiles dir) := by
    intro it hit
    have := e1.mem_iff.mpr (List.mem_map_of_mem hit)
    simpa using this
  refine ⟨⟨pre, k1, fun it hit => ?_⟩, fun sha => ⟨?_, ?_⟩⟩
  · obtain ⟨it', g1, g2⟩ := to it hit
    obtain ⟨ns, hns⟩ := h2 it' g1
    exact ⟨ns, (lists_key g2 ns).mp hns⟩
  · rintro ⟨l2, f1, it, hit, ns, hns, hm⟩
    rw [k1] at f1
    obtain rfl := Option.some.inj f1
    obtain ⟨it', g1, g2⟩ := to it hit
    exact ⟨l, h1, it', g1, ns, (lists_key g2 ns).mpr hns, hm⟩
  · rintro ⟨l2, f1, it, hit, ns, hns, hm⟩
    rw [h1] at f1
    obtain rfl := Option.some.inj f1
    obtain ⟨it', g1, g2⟩ := back it hit
    exact ⟨pre, k1, it', g1, ns, (lists_key g2 ns).mpr hns, hm⟩

theorem packed_answer {order : List Bytes → List Bytes} {dir : Option PackDir} {db : PackedDB} (h : PackedOk dir db)
    (sha : Bytes) (hsha : sha ≠ []) :
    ∃ b, (db.hasObject order dir sha).2 = .ok b ∧ (b = true ↔ PackedHas dir db sha) := by
  obtain ⟨l, h1, h2⟩ := h
  rw [(packInfo_inv h1 (packedOk_pinv h2) hsha).2.1]
  have : (l.map (PackItem.key (dirFiles dir))).any (keyHas sha) = true ↔ PackedHas dir db sha := by
    rw [List.any_eq_true]
    constructor
    · rintro ⟨k, hk, h⟩
      obtain ⟨it, hit, rfl⟩ := List.mem_map.mp hk
      obtain ⟨ns, hns⟩ := h2 it hit
      exact ⟨l, h1, it, hit, ns, hns, (keyHas_iff hns hsha).mp h⟩
    · rintro ⟨l2, f1, it, hit, ns, hns, hm⟩
      rw [h1] at f1
      obtain rfl := Option.some.inj f1
      exact ⟨_, List.mem_map_of_mem hit, (keyHas_iff hns hsha).mpr hm⟩
  unfold answer
  by_cases h : (l.map (PackItem.key (dirFiles dir))).any (keyHas sha) = true
  · rw [if_pos h]; exact ⟨true, rfl, by simp [this.mp h]⟩
  · rw [if_neg h]; exact ⟨false, rfl, by simpa using fun hh => h (this.mpr hh)⟩

theorem packed_locates (zl : Zlib) (fuel : Nat) (order : List Bytes → List Bytes) :
    Locates (packedOps order fun d db sha => db.stream fuel order d sha) PackedOk PackedHas where
  has := fun h sha hs => packed_answer h sha hs
  yes := by
    intro w s h sha hy
    by_cases hs : sha = []
    · subst hs
      obtain ⟨l, h1, h2⟩ := h
      have := (packInfo_empty (order := order) h1 (packedOk_pinv h2)).2
      rw [show (s.hasObject order w []).2 = .ok true from hy] at this
      split at this <;> simp at this
    · obtain ⟨b, e1, e2⟩ := packed_answer (order := order) h sha hs
      rw [show (s.hasObject order w sha).2 = .ok true from hy] at e1
      exact e2.mp (Except.ok.inj e1).symm
  ok := by
    intro w s h op
    cases op with
    | has x => exact (packed_next (zl := zl) (order := order) h (.has x)).1
    | get x => exact (packed_next (zl := zl) (order := order) h (.stream fuel x)).1
    | size => exact (packed_next (zl := zl) (order := order) h .size).1
    | shas => exact (packed_next (zl := zl) (order := order) h .iter).1
  same := by
    intro w s h op
    cases op with
    | has x => exact (packed_next (zl := zl) (order := order) h (.has x)).2
    | get x => exact (packed_next (zl := zl) (order := order) h (.stream fuel x)).2
    | size => exact (packed_next (zl := zl) (order := order) h .size).2
    | shas => exact (packed_next (zl := zl) (order := order) h .iter).2

/-- Databases of two kinds. -/
theorem sum_locates {τ : Type} {O : DbOps ω σ α} {P : DbOps ω τ α} {Ok : ω → σ → Prop} {C : ω → σ → Bytes → Prop}
    {Ok' : ω → τ → Prop} {C' : ω → τ → Bytes → Prop} (hO : Locates O Ok C) (hP : Locates P Ok' C') :
    Locates (sumOps O P) (fun w x => match x with | .inl s => Ok w s | .inr t => Ok' w t)
      (fun w x sha => match x with | .inl s => C w s sha | .inr t => C' w t sha) where
  has := by
    rintro w (s | t) h sha hs
    · exact hO.has h sha hs
    · exact hP.has h sha hs
  yes := by
    rintro w (s | t) h sha hs
    · exact hO.yes h sha hs
    · exact hP.yes h sha hs
  ok := by
    rintro w (s | t) h op
    · cases op with
      | has x => exact hO.ok h (.has x)
      | get x => exact hO.ok h (.get x)
      | size => exact hO.ok h .size
      | shas => exact hO.ok h .shas
    · cases op with
      | has x => exact hP.ok h (.has x)
      | get x => exact hP.ok h (.get x)
      | size => exact hP.ok h .size
      | shas => exact hP.ok h .shas
  same := by
    rintro w (s | t) h op
    · cases op with
      | has x => exact hO.same h (.has x)
      | get x => exact hO.same h (.get x)
      | size => exact hO.same h .size
      | shas => exact hO.same h .shas
    · cases op with
      | has x => exact hP.same h (.has x)
      | get x => exact hP.same h (.get x)
      | size => exact hP.same h .size
      | shas => exact hP.same h .shas

/-! ## C44: with stores in between -/

/-- What happens to a compound database: it is read; something happens outside or in its databases (a store, another process)
that leaves their states good and takes nothing away from what they find; or `update_cache` is called, before which anything
may have happened. -/
inductive CompoundEvent (ω σ : Type) where
  | read (op : DbOp)
  | grow (w : ω) (dbs : List σ)
  | update (w : ω) (dbs : List σ) (force : Bool)

/-- World and database before and after an event. -/
inductive CompoundStep (O : DbOps ω σ α) (Ok : ω → σ → Prop) (C : ω → σ → Bytes → Prop) :
    ω × Compound σ → CompoundEvent ω σ → ω × Compound σ → Prop
  | read (w : ω) (c : Compound σ) (op : DbOp) : CompoundStep O Ok C (w, c) (.read op) (w, dbStep (compoundOps O) w c op)
  | grow (w w' : ω) (c : Compound σ) (dbs : List σ)
      (h : All2 (fun s s' => Ok w' s' ∧ ∀ sha, C w s sha → C w' s' sha) c.dbs dbs) :
      CompoundStep O Ok C (w, c) (.grow w' dbs) (w', { c with dbs := dbs })
  | update (w w' : ω) (c : Compound σ) (dbs : List σ) (force : Bool)
      (h : ∀ s ∈ (({ c with dbs := dbs } : Compound σ).update O w' force).1.dbs, Ok w' s) :
      CompoundStep O Ok C (w, c) (.update w' dbs force) (w', (({ c with dbs := dbs } : Compound σ).update O w' force).1)

/-- A sequence of events. -/
inductive CompoundRun (O : DbOps ω σ α) (Ok : ω → σ → Prop) (C : ω → σ → Bytes → Prop) :
    ω × Compound σ → ω × Compound σ → Prop
  | refl (x : ω × Compound σ) : CompoundRun O Ok C x x
  | step {x y z : ω × Compound σ} {e : CompoundEvent ω σ} (h : CompoundRun O Ok C x y) (s : CompoundStep O Ok C y e z) :
      CompoundRun O Ok C x z

theorem grow_get {Ok : ω → σ → Prop} {C : ω → σ → Bytes → Prop} {w w' : ω} {l l' : List σ}
    (h : All2 (fun s s' => Ok w' s' ∧ ∀ sha, C w s sha → C w' s' sha) l l') : ∀ (i : Nat) (s : σ), l[i]? = some s →
    ∃ s', l'[i]? = some s' ∧ ∀ sha, C w s sha → C w' s' sha := by
  induction h with
  | nil => intro i s h; simp at h
  | cons h _ ih =>
    intro i s hs
    cases i with
    | zero =>
      simp only [List.getElem?_cons_zero, Option.some.injEq] at hs
      subst hs
      exact ⟨_, rfl, h.2⟩
    | succ i => simpa using ih i s (by simpa using hs)

theorem compoundRun_ok {O : DbOps ω σ α} {Ok : ω → σ → Prop} {C : ω → σ → Bytes → Prop} (hO : Locates O Ok C)
    {x y : ω × Compound σ} (h : CompoundRun O Ok C x y) (hx : CompoundOk Ok C x.1 x.2) : CompoundOk Ok C y.1 y.2 := by
  induction h with
  | refl => exact hx
  | step _ s ih =>
    cases s with
    | read w c op => exact (compound_step hO ih op).1
    | grow w w' c dbs h =>
      refine ⟨fun s hs => ?_, fun sha i hi => ?_⟩
      · obtain ⟨_, _, h2⟩ := all2_mem_right h s hs
        exact h2.1
      · obtain ⟨s, g1, g2⟩ := ih.2 sha i hi
        obtain ⟨s', g3, g4⟩ := grow_get h i s g1
        exact ⟨s', g3, g4 sha g2⟩
    | update w w' c dbs force h => exact ⟨h, by simp [Compound.update, nameGet]⟩

/-- **C44** (partial) From a new compound database, after any sequence of reads, changes which take no objects away (stores),
and calls of `update_cache` (after changes of any kind): `has_object` is true exactly for the objects in one of the databases,
and `info`/`stream` are answered by a database (with these contents) that has the object, or raise `BadObject` if there is none.
Missing: that the database answering is the first one (`C44_not_first`), and changes that take objects away without
`update_cache` (`C44_stale`). -/
theorem C44_stores_partial (O : DbOps ω σ α) (Ok : ω → σ → Prop) (C : ω → σ → Bytes → Prop) (hO : Locates O Ok C) (w0 w : ω)
    (dbs0 : List σ) (c : Compound σ) (hd : ∀ s ∈ dbs0, Ok w0 s) (h : CompoundRun O Ok C (w0, { dbs := dbs0 }) (w, c))
    (sha : Bytes) (hsha : sha ≠ []) :
    (∃ b, (c.has O w sha).2 = .ok b ∧ (b = true ↔ ∃ s ∈ c.dbs, C w s sha)) ∧
    ((∃ s, Ok w s ∧ C w s sha ∧ (∃ s0 ∈ c.dbs, ∀ x, C w s x ↔ C w s0 x) ∧ (c.get O w sha).2 = (O.get w s sha).2) ∨
      ((∀ s ∈ c.dbs, ¬ C w s sha) ∧ (c.get O w sha).2 = .error .badObject)) := by
  have hc := compoundRun_ok hO h ⟨hd, by simp [nameGet]⟩
  exact ⟨(compound_locates hO).has hc sha hsha, get_served hO hc sha hsha⟩

theorem has_cached (O : DbOps ω σ α) (w : ω) (c : Compound σ) (sha : Bytes) (h : (c.has O w sha).2 = .ok true) :
    ∃ i, nameGet sha (c.has O w sha).1.cache = some i := by
  rw [compoundHas_fst]
  unfold Compound.has at h
  unfold Compound.query at h ⊢
  rcases hc : nameGet sha c.cache with _ | i
  · rw [hc] at h
    simp only at h ⊢
    rcases hs : scanDbs O w sha c.dbs 0 with ⟨dbs, e | (_ | i)⟩
    · rw [hs] at h; cases e <;> simp at h
    · rw [hs] at h; simp at h
    · exact ⟨i, nameGet_set_same sha i c.cache⟩
  · exact ⟨i, hc⟩

/-- **C44** fails after an object has disappeared: once `has_object` has said yes, it says yes until `update_cache`, whatever
happens to the databases. -/
theorem C44_stale (O : DbOps ω σ α) (w : ω) (c : Compound σ) (sha : Bytes) (h : (c.has O w sha).2 = .ok true) (w' : ω)
    (dbs : List σ) : (({ (c.has O w sha).1 with dbs := dbs } : Compound σ).has O w' sha).2 = .ok true := by
  obtain ⟨i, hi⟩ := has_cached O w c sha h
  simp [Compound.has, Compound.query] at hi ⊢
  simp [hi]

/-- The full statement of **C44** for memory databases and stores: the first database with the object answers. -/
def C44_full : Prop :=
  ∀ (dbs0 : List MemDB) (c : Compound MemDB),
    CompoundRun memoryOps (fun _ _ => True) (fun _ db sha => db.hasObject sha = true) ((), { dbs := dbs0 }) ((), c) →
    ∀ (sha : Bytes) (i : Nat) (s : MemDB), c.dbs[i]? = some s → s.hasObject sha = true →
      (∀ j t, j < i → c.dbs[j]? = some t → t.hasObject sha = false) → (c.get memoryOps () sha).2 = (s.stream sha).2

/-- **C44** is false: an object is found in the second database, then stored in the first one (compressed in another way); the
second one goes on answering. -/
theorem C44_not_full : ¬ C44_full := by
  intro h
  have := h [{}, { cache := [([1], ⟨[98], 0, .ofMap [7]⟩)] }]
    { dbs := [{ cache := [([1], ⟨[98], 0, .ofMap [8]⟩)] }, { cache := [([1], ⟨[98], 0, .ofMap [7]⟩)] }], cache := [([1], 1)] }
    (.step (.step (.refl _) (.read _ _ (.has [1]))) (.grow _ () _ _ (.cons ⟨trivial, fun x hx => by simp [MemDB.hasObject, nameGet] at hx⟩
      (.cons ⟨trivial, fun x hx => hx⟩ .nil))))
    [1] 0 _ rfl (by decide) (by intro j t hj; omega)
  revert this
  decide

/-! ## C45 -/

/-- **C45** (partial) A tree of databases of any shape: if every database in it resolves the abbreviation correctly with respect to
its own names `N s` (the names there starting with it), the whole resolves it correctly with respect to all of them: the only
one, `BadObject`, or `AmbiguousObjectName`.  Missing: that every database does (`C45_loose`: loose ones do; `C45_not_full`: packed
ones do not; `C45_memory`: memory databases cannot). -/
theorem C45_tree_partial (O : DbOps ω σ α) (w : ω) (n : Nat) (t : Nest σ n) (part bin : Bytes)
    (hp : hexToBin (if part.length % 2 ≠ 0 then part ++ [0x30] else part) = .ok bin) (N : σ → Bytes → Prop)
    (hne : ∀ s x, N s x → x ≠ []) (h : ∀ s ∈ leaves n t, Resolves (N s) (O.complete w s part).2) :
    Resolves (fun x => ∃ s ∈ leaves n t, N s x) (nestComplete O w n t part).2 := by
  have hm : ∀ s, s ∈ databasesRecursive n t ↔ s ∈ leaves n t := fun s => (databasesRecursive_perm n t).mem_iff
  have hs := completeDbs_spec O w part N hne (databasesRecursive n t) none (fun s hs => h s ((hm s).mp hs)) (by simp)
  unfold nestComplete completeHex
  rw [hp]
  simp only
  rcases hc : completeDbs O w part (databasesRecursive n t) none with ⟨l, r⟩
  rw [hc] at hs
  simp only [reduceCtorEq, false_or, false_implies, implies_true, true_and] at hs
  rcases hs with ⟨x, rfl, hx, ⟨s, hs, hx1⟩, hx2⟩ | ⟨rfl, hx⟩ | ⟨rfl, x, y, hxy, ⟨s, hs, hx1⟩, ⟨s', hs', hy1⟩⟩
  · cases x with
    | nil => exact absurd rfl hx
    | cons b x =>
      refine ⟨⟨s, (hm s).mp hs, hx1⟩, ?_⟩
      rintro y ⟨s', hs', hy⟩
      exact hx2 s' ((hm s').mpr hs') y hy
  · rintro y ⟨s, hs, hy⟩
    exact hx s ((hm s).mpr hs) y hy
  · exact ⟨x, y, hxy, ⟨s, (hm s).mp hs, hx1⟩, s', (hm s').mp hs', hy1⟩

theorem completeDbs_asked (O : DbOps ω σ α) (w : ω) (part : Bytes) : ∀ (l : List σ) (cand : Option Bytes), ∃ k ≤ l.length,
    (completeDbs O w part l cand).1 = (l.take k).map (fun s => (O.complete w s part).1) ++ l.drop k ∧
    (k = l.length ∨ 0 < k ∧ ∃ e, e ≠ .badObject ∧ (completeDbs O w part l cand).2 = .error e)
  | [], _ => ⟨0, Nat.le_refl _, rfl, .inl rfl⟩
  | s :: l, cand => by
    have stop : ∀ (s' : σ), (O.complete w s part).1 = s' →
        s' :: l = ((s :: l).take 1).map (fun s => (O.complete w s part).1) ++ (s :: l).drop 1 := by
      intro s' h
      simp [h]
    have go : ∀ (cand' : Option Bytes) (s' : σ), (O.complete w s part).1 = s' → ∃ k ≤ (s :: l).length,
        s' :: (completeDbs O w part l cand').1 = ((s :: l).take k).map (fun s => (O.complete w s part).1) ++ (s :: l).drop k ∧
        (k = (s :: l).length ∨ 0 < k ∧ ∃ e, e ≠ .badObject ∧ (completeDbs O w part l cand').2 = .error e) := by
      intro cand' s' h
      obtain ⟨k, h1, h2, h3⟩ := completeDbs_asked O w part l cand'
      refine ⟨k + 1, by simp only [List.length_cons]; omega, by simp [h, h2], ?_⟩
      rcases h3 with h3 | ⟨-, h3⟩
      · exact .inl (by simp [h3])
      · exact .inr ⟨by omega, h3⟩
    unfold completeDbs
    rcases hs : O.complete w s part with ⟨s', e | full⟩
    · have h1 := stop s' (by rw [hs])
      have h2 := go cand s' (by rw [hs])
      cases e
      case badObject => exact h2
      all_goals exact ⟨1, by simp, h1, .inr ⟨by decide, _, by simp, rfl⟩⟩
    · simp only
      split
      · exact go cand s' (by rw [hs])
      · split
        · exact ⟨1, by simp, stop s' (by rw [hs]), .inr ⟨by decide, _, by simp, rfl⟩⟩
        · exact go (some full) s' (by rw [hs])

/-- **C45** What is done to the databases of a tree: in some order the first `k` have been asked once each, the others not at all.  All
have been asked if the answer is a name or `BadObject`, and one at least (if there is one) otherwise. -/
theorem C45_databases (O : DbOps ω σ α) (w : ω) (n : Nat) (t : Nest σ n) (part bin : Bytes)
    (hp : hexToBin (if part.length % 2 ≠ 0 then part ++ [0x30] else part) = .ok bin) :
    ∃ (l l' : List σ) (k : Nat), l.Perm (leaves n t) ∧ l'.Perm (leaves n (nestComplete O w n t part).1) ∧
      l' = (l.take k).map (fun s => (O.complete w s part).1) ++ l.drop k ∧
      (k = l.length ∨ 0 < k ∧ k ≤ l.length ∧ ∃ e, e ≠ .badObject ∧ (nestComplete O w n t part).2 = .error e) := by
  obtain ⟨k, h1, h2, h3⟩ := completeDbs_asked O w part (databasesRecursive n t) none
  have hlen : (completeDbs O w part (databasesRecursive n t) none).1.length = (databasesRecursive n t).length := by
    rw [h2]; simp; omega
  obtain ⟨p1, -, -⟩ := putBack_spec n t _ [] hlen
  rw [List.append_nil] at p1
  have hst : (nestComplete O w n t part).1 = (putBack n t (completeDbs O w part (databasesRecursive n t) none).1).1 ∧
      ∀ e, (completeDbs O w part (databasesRecursive n t) none).2 = .error e → (nestComplete O w n t part).2 = .error e := by
    unfold nestComplete completeHex
    rw [hp]
    simp only
    rcases hc : completeDbs O w part (databasesRecursive n t) none with ⟨l, e | (_ | (_ | ⟨b, f⟩))⟩
    · exact ⟨rfl, fun e h => by cases h; rfl⟩
    · exact ⟨rfl, fun e h => by cases h⟩
    · exact ⟨rfl, fun e h => by cases h⟩
    · exact ⟨rfl, fun e h => by cases h⟩
  refine ⟨databasesRecursive n t, _, k, databasesRecursive_perm n t, databasesRecursive_perm n _, ?_, ?_⟩
  · rw [hst.1, p1, h2]
  · rcases h3 with h3 | ⟨h3, e, h4, h5⟩
    · exact .inl h3
    · exact .inr ⟨h3, h1, e, h4, hst.2 e h5⟩

theorem putBackList_flat : ∀ (ds l : List σ), l.length = ds.length →
    putBackList (fun (s : σ) (l : List σ) => (l.headD s, l.tail)) (fun _ => true) ds l = (l, [])
  | [], l, h => by
    rw [List.length_eq_zero_iff.mp h]
    rfl
  | d :: ds, [], h => by cases h
  | d :: ds, x :: l, h => by
    have h1 := putBackList_flat ds l (by simpa using h)
    simp only [putBackList, if_true, List.headD_cons, List.tail_cons, h1]

theorem putBackList_none {τ β : Type} (put : τ → List β → τ × List β) (m : List β) : ∀ ds : List τ,
    putBackList put (fun _ => false) ds m = (ds, m)
  | [] => rfl
  | d :: ds => by
    have h1 := putBackList_none put m ds
    simp [putBackList, h1]

/-- **C45** a compound database without compound databases in it: the answer, and what becomes of its databases, is what the loop over
them gives. -/
theorem C45_flat (O : DbOps ω σ α) (w : ω) (c : Compound σ) (part : Bytes) :
    nestComplete O w 1 (.inr c) part = (.inr (c.complete O w part).1, (c.complete O w part).2) := by
  have hd : databasesRecursive (σ := σ) 1 (.inr c) = c.dbs := by
    show (c.dbs.filter fun _ => true).flatMap (fun s => [s]) ++ (c.dbs.filter fun _ => false).flatMap (fun s => [s]) = c.dbs
    have : ∀ l : List σ, l.flatMap (fun s => [s]) = l := fun l => by induction l <;> simp_all
    have f1 : ∀ l : List σ, (l.filter fun _ => true) ++ (l.filter fun _ => false) = l := fun l => by
      rw [List.filter_eq_self.mpr fun _ _ => rfl, List.filter_eq_nil_iff.mpr fun _ _ => Bool.false_ne_true, List.append_nil]
    rw [this, this]
    exact f1 c.dbs
  obtain ⟨k, h1, h2, -⟩ := completeDbs_asked O w part c.dbs none
  have hlen : (completeDbs O w part c.dbs none).1.length = c.dbs.length := by
    rw [h2]; simp; omega
  have hp : (putBack (σ := σ) 1 (.inr c) (completeDbs O w part c.dbs none).1).1 =
      .inr { c with dbs := (completeDbs O w part c.dbs none).1 } := by
    have e1 := putBackList_flat c.dbs _ hlen
    have e2 := putBackList_none (putBack (σ := σ) 0) [] (completeDbs O w part c.dbs none).1
    generalize (completeDbs O w part c.dbs none).1 = L at e1 e2 ⊢
    show (Sum.inr { c with dbs := (putBackList (putBack (σ := σ) 0) (fun _ => false)
      (putBackList (fun (s : σ) (l : List σ) => (l.headD s, l.tail)) (fun _ => true) c.dbs L).1
      (putBackList (fun (s : σ) (l : List σ) => (l.headD s, l.tail)) (fun _ => true) c.dbs L).2).1 } : Nest σ 1) = _
    rw [e1]
    exact congrArg (fun x : List σ × List σ => (Sum.inr { c with dbs := x.1 } : Nest σ 1)) e2
  unfold nestComplete Compound.complete completeHex
  rcases hexToBin (if part.length % 2 ≠ 0 then part ++ [0x30] else part) with e | b
  · rfl
  · simp only [hd, hp]
    rcases (completeDbs O w part c.dbs none).2 with e | (_ | (_ | ⟨x, f⟩)) <;> rfl

/-- Databases that count how often they have been asked, three of them in a tree of depth two; the second knows the answer. -/
example : leaves 2 (nestComplete (α := Unit)
      { has := fun _ s _ => (s, .ok false), get := fun _ s _ => (s, .ok ()), size := fun _ s => (s, .ok 0), shas := fun _ s => (s, .ok []),
        update := fun _ s _ => (s, .ok none),
        complete := fun (_ : Unit) (s : Nat × Bool) _ => ((s.1 + 1, s.2), if s.2 then .ok [1, 2] else .error .badObject) }
      () 2 (.inr { dbs := [.inl (0, false), .inr { dbs := [(7, true), (3, false)] }] }) [0x30]).1 =
    [(1, false), (8, true), (4, false)] := by decide

/-- Something else than hex digits: an exception, before any database is asked. -/
theorem C45_not_hex (O : DbOps ω σ α) (w : ω) (n : Nat) (t : Nest σ n) (part : Bytes) (e : Err)
    (hp : hexToBin (if part.length % 2 ≠ 0 then part ++ [0x30] else part) = .error e) :
    nestComplete O w n t part = (t, .error e) := by
  unfold nestComplete completeHex
  rw [hp]

/-- **C45** Loose databases with the usual layout resolve correctly. -/
theorem C45_loose (get : Fs → Bytes → Res α) (base : Bytes) (fs : Fs) (walk : List (Path × List Bytes)) (hw : IsWalk fs walk)
    (hl : ObjectLayout base fs) (db : LooseDB) (part : Bytes) :
    Resolves (fun x => x.length = 20 ∧ Contains fs x ∧ Abbreviates part x)
      ((looseOps get).complete (fs, seen base walk) db part).2 := by
  obtain ⟨h1, h2, h3⟩ := C38_partial_to_complete base fs walk hw hl part
  show Resolves _ (loosePartial (seen base walk) part)
  by_cases hn : ∀ n, n.length = 20 → Contains fs n → ¬ Abbreviates part n
  · rw [h2.mpr hn]
    rintro y ⟨k1, k2, k3⟩
    exact hn y k1 k2 k3
  · by_cases ha : ∃ a b, a ≠ b ∧ (a.length = 20 ∧ Contains fs a ∧ Abbreviates part a) ∧
        (b.length = 20 ∧ Contains fs b ∧ Abbreviates part b)
    · rw [h3.mpr ha]
      exact ha
    · have hx : ∃ x, x.length = 20 ∧ Contains fs x ∧ Abbreviates part x := by
        refine Classical.byContradiction fun hx => hn fun x k1 k2 k3 => hx ⟨x, k1, k2, k3⟩
      obtain ⟨x, k⟩ := hx
      have hu : ∀ n, n.length = 20 → Contains fs n → Abbreviates part n → n = x := by
        intro y g1 g2 g3
        refine Classical.byContradiction fun hne => ha ⟨y, x, hne, ⟨g1, g2, g3⟩, k⟩
      rw [(h1 x).mpr ⟨k, hu⟩]
      exact ⟨k, fun y hy => hu y hy.1 hy.2.1 hy.2.2⟩

/-- **C45** A memory database in the tree: `AttributeError` for every abbreviation (if no exception is raised before). -/
theorem C45_memory (n : Nat) (t : Nest MemDB n) (part bin : Bytes)
    (hp : hexToBin (if part.length % 2 ≠ 0 then part ++ [0x30] else part) = .ok bin) (h : leaves n t ≠ []) :
    (nestComplete memoryOps () n t part).2 = .error .attributeError := by
  unfold nestComplete completeHex
  rw [hp]
  simp only
  rcases hd : databasesRecursive n t with _ | ⟨s, l⟩
  · have := (databasesRecursive_perm n t)
    rw [hd] at this
    exact absurd this.nil_eq.symm h
  · rfl

/-- The full statement of **C45** for a compound database over one packed database with one index. -/
def C45_full : Prop :=
  ∀ (order : List Bytes → List Bytes) (get : Option PackDir → PackedDB → Bytes → PackedDB × Res Unit) (dir : Option PackDir)
    (it : PackItem) (names : List Bytes) (digits : List Nat) (part bin : Bytes), Lists (dirFiles dir) it names →
    hexToBin (if part.length % 2 ≠ 0 then part ++ [0x30] else part) = .ok bin → IsAbbrev bin digits →
    3 ≤ digits.length → digits.length ≤ 40 → digits.length = part.length →
    Resolves (fun x => x ∈ names ∧ HasDigits digits x)
      (nestComplete (packedOps order get) dir 1 (.inr { dbs := [{ entities := some [it] }] }) part).2

/-- **C45** is false: two objects `c000…` and `c001…` in one pack, and the abbreviation `c00`. -/
theorem C45_not_full : ¬ C45_full := by
  intro h
  obtain ⟨ix, hix⟩ : ∃ ix, ix = indexV2 exEntries [] [] := ⟨_, rfl⟩
  have hx := v2_load exEntries [] [] exEntries_valid
  obtain ⟨x, hxx⟩ : ∃ x, IndexFile.load ix = .ok x := ⟨_, by rw [hix]; exact hx⟩
  have hna := C21_never_ambiguous exEntries [] [] exEntries_valid exEntries_asc (by decide) [0xc0, 0x00]
    [0xc, 0, 0] (by decide) (by decide) (by decide) x (by rw [← hix]; exact hxx)
  have hr := h id (fun _ db _ => (db, .ok ())) none ⟨0, nameA, ⟨emptyPack, 2, 0⟩, some ix⟩ (exEntries.map Entry.name) [0xc, 0, 0]
    [0x63, 0x30, 0x30] [0xc0, 0x00] ⟨ix, rfl, by rw [hix]; exact exEntries_isIndex⟩ (by decide) (by decide) (by decide) (by decide)
    (by decide)
  have h1 : hexToBin [0x63, 0x30, 0x30, 0x30] = .ok [0xc0, 0x00] := by decide
  have key : ∀ r, (nestComplete (packedOps id fun _ db _ => (db, .ok ())) none 1
      (.inr { dbs := [{ entities := some [⟨0, nameA, ⟨emptyPack, 2, 0⟩, some ix⟩] }] }) [0x63, 0x30, 0x30]).2 = r →
      r ≠ .error .ambiguousObjectName := by
    rintro r rfl
    have hc : ((packedOps id fun _ db _ => (db, Except.ok ())).complete none
        { entities := some [⟨0, nameA, ⟨emptyPack, 2, 0⟩, some ix⟩] } [0x63, 0x30, 0x30]).2 ≠ .error .ambiguousObjectName := by
      simp only [packedOps, List.length_cons, List.length_nil]
      rw [if_pos (by decide), show ([0x63, 0x30, 0x30] : Bytes) ++ [0x30] = [0x63, 0x30, 0x30, 0x30] from rfl, h1]
      simp only [PackedDB.partialToComplete, PackedDB.load, completeLoop, PackItem.complete, PackItem.index, hxx]
      rw [if_neg (by decide)]
      rcases hpi : x.partialShaToIndex [0xc0, 0x00] 3 with e | (_ | i)
      · have : e ≠ .ambiguousObjectName := fun he => hna (by rw [← he]; exact hpi)
        simpa using this
      · simp
      · simp only [Option.any_none]
        rcases x.sha i with _ | ⟨b, r⟩ <;> simp
    unfold nestComplete completeHex
    rw [if_pos (by decide), show ([0x63, 0x30, 0x30] : Bytes) ++ [0x30] = [0x63, 0x30, 0x30, 0x30] from rfl, h1]
    simp only [show databasesRecursive 1 (Sum.inr { dbs := [{ entities := some [⟨0, nameA, ⟨emptyPack, 2, 0⟩, some ix⟩] }] } :
      Nest PackedDB 1) = [{ entities := some [⟨0, nameA, ⟨emptyPack, 2, 0⟩, some ix⟩] }] from rfl, completeDbs]
    rcases hq : (packedOps id fun _ db _ => (db, Except.ok ())).complete none
        { entities := some [⟨0, nameA, ⟨emptyPack, 2, 0⟩, some ix⟩] } [0x63, 0x30, 0x30] with ⟨s, e | full⟩
    · rw [hq] at hc
      cases e <;> simp at hc ⊢
    · cases full <;> simp
  have hk := key _ rfl
  generalize (nestComplete (packedOps id fun _ db _ => (db, Except.ok ())) none 1
      (.inr { dbs := [{ entities := some [⟨0, nameA, ⟨emptyPack, 2, 0⟩, some ix⟩] }] }) [0x63, 0x30, 0x30]).2 = r at hr hk
  have m1 : (0xc0 :: List.replicate 19 0 : Bytes) ∈ exEntries.map Entry.name ∧ HasDigits [0xc, 0, 0] (0xc0 :: List.replicate 19 0) := by
    exact ⟨by decide, by decide⟩
  have m2 : (0xc0 :: List.replicate 19 1 : Bytes) ∈ exEntries.map Entry.name ∧ HasDigits [0xc, 0, 0] (0xc0 :: List.replicate 19 1) := by
    exact ⟨by decide, by decide⟩
  rcases r with e | y
  · cases e with
    | badObject => exact hr _ m1
    | ambiguousObjectName => exact hk rfl
    | _ => exact hr
  · exact absurd ((hr.2 _ m1).trans (hr.2 _ m2).symm) (by decide)

/-! ## C46 -/

theorem eachDb_map {β γ : Type} {f : σ → σ × Res β} {g : σ → β} : ∀ (l : List σ), (∀ s ∈ l, (f s).2 = .ok (g s)) →
    (eachDb f l).2 = .ok (l.map g)
  | [], _ => rfl
  | s :: l, h => by
    have h1 := h s (by simp)
    have ih := eachDb_map (γ := γ) l fun t ht => h t (by simp [ht])
    unfold eachDb
    rcases hs : f s with ⟨s', e | y⟩
    · rw [hs] at h1; simp at h1
    · rw [hs] at h1
      rcases hl : eachDb f l with ⟨l', e | ys⟩
      · rw [hl] at ih; simp at ih
      · rw [hl] at ih
        simp only [Except.ok.injEq] at h1 ih
        simp [h1, ih]

theorem foldl_add (l : List Nat) : ∀ k, l.foldl (· + ·) k = k + l.sum := by
  induction l with
  | nil => simp
  | cons a l ih => intro k; rw [List.foldl_cons, ih, List.sum_cons]; omega

theorem sum_flatMap {γ : Type} (f : γ → List Nat) : ∀ l : List γ, (l.flatMap f).sum = (l.map fun x => (f x).sum).sum
  | [] => rfl
  | a :: l => by simp [sum_flatMap f l]

/-- **C46** `size` of a tree of any shape is the sum of the sizes of its databases. -/
theorem C46_size (O : DbOps ω σ α) (w : ω) (k : σ → Nat) : ∀ (n : Nat) (t : Nest σ n),
    (∀ s ∈ leaves n t, (O.size w s).2 = .ok (k s)) → ((nestOps O n).size w t).2 = .ok ((leaves n t).map k).sum
  | 0, s, h => by
    show (O.size w s).2 = .ok (k s + 0)
    rw [h s (List.mem_singleton.mpr rfl)]
    rfl
  | n + 1, .inl s, h => by
    show (O.size w s).2 = _
    rw [h s (List.mem_singleton.mpr rfl)]
    simp [leaves]
  | n + 1, .inr c, h => by
    show (eachDb ((nestOps O n).size w) c.dbs).2.map _ = _
    rw [eachDb_map (γ := Unit) (g := fun d => ((leaves n d).map k).sum) c.dbs fun d hd =>
      C46_size O w k n d fun s hs => h s (List.mem_flatMap.mpr ⟨d, hd, hs⟩)]
    show Except.ok (List.foldl (· + ·) 0 _) = Except.ok ((c.dbs.flatMap (leaves n)).map k).sum
    rw [foldl_add, List.map_flatMap, sum_flatMap]
    simp

/-- **C46** `sha_iter` of a tree of any shape yields the names in its databases, one database after the other. -/
theorem C46_sha_iter (O : DbOps ω σ α) (w : ω) (k : σ → List Bytes) : ∀ (n : Nat) (t : Nest σ n),
    (∀ s ∈ leaves n t, (O.shas w s).2 = .ok (k s)) → ((nestOps O n).shas w t).2 = .ok ((leaves n t).flatMap k)
  | 0, s, h => by
    show (O.shas w s).2 = .ok (k s ++ [])
    rw [h s (List.mem_singleton.mpr rfl), List.append_nil]
  | n + 1, .inl s, h => by
    show (O.shas w s).2 = _
    rw [h s (List.mem_singleton.mpr rfl)]
    simp [leaves]
  | n + 1, .inr c, h => by
    show (eachDb ((nestOps O n).shas w) c.dbs).2.map _ = _
    rw [eachDb_map (γ := Unit) (g := fun d => (leaves n d).flatMap k) c.dbs fun d hd =>
      C46_sha_iter O w k n d fun s hs => h s (List.mem_flatMap.mpr ⟨d, hd, hs⟩)]
    show Except.ok _ = Except.ok ((c.dbs.flatMap (leaves n)).flatMap k)
    rw [List.flatMap_assoc, List.flatMap_def]

/-- **C46** `_databases_recursive` gives every database of the tree exactly as often as it is there. -/
theorem C46_databases (n : Nat) (t : Nest σ n) : (databasesRecursive n t).Perm (leaves n t) :=
  databasesRecursive_perm n t

/-- **C46** Operating on the databases given by `_databases_recursive` is operating on those of the tree: changed ones are found at
the same places again. -/
theorem C46_put_back (n : Nat) (t : Nest σ n) (l : List σ) (h : l.length = (databasesRecursive n t).length) :
    databasesRecursive n (putBack n t l).1 = l := by
  have := (putBack_spec n t l [] h).1
  rwa [List.append_nil] at this

/-! ## Examples -/

/-- Two memory databases with different objects, and a compound database around one of them. -/
def memOne : MemDB := { cache := [([1], ⟨[98], 0, .ofMap [7]⟩)] }
def memTwo : MemDB := { cache := [([2], ⟨[98], 0, .ofMap [7]⟩), ([3], ⟨[98], 0, .ofMap [7]⟩)] }
def memTree : Nest MemDB 2 := .inr { dbs := [.inr { dbs := [memOne, memTwo] }, .inl memTwo] }

example : leaves 2 memTree = [memOne, memTwo, memTwo] := rfl
example : databasesRecursive 2 memTree = [memTwo, memOne, memTwo] := rfl
example : ((nestOps memoryOps 2).size () memTree).2 = .ok 5 :=
  C46_size memoryOps () MemDB.size 2 memTree (fun _ _ => rfl)
example : ((nestOps memoryOps 2).shas () memTree).2 = .ok [[1], [2], [3], [2], [3]] :=
  C46_sha_iter memoryOps () MemDB.shaIter 2 memTree (fun _ _ => rfl)
example : (nestComplete memoryOps () 2 memTree [0x63, 0x30]).2 = .error .attributeError :=
  C45_memory 2 memTree [0x63, 0x30] [0xc0] (by decide) (by decide)

/-- A new object appears in a loose database which has been asked before. -/
example (get : Fs → Bytes → Res Unit) (fs : Fs) (sha : Bytes) (hs : sha ≠ []) :=
  C44_stores_partial (looseOps get) _ _ (loose_locates get) ((fun _ => none), []) (fs, []) [{}, {}] _ (fun _ _ => trivial)
    (.step (.step (.refl _) (.read _ _ (.has [1]))) (.grow _ (fs, []) _ [{}, {}] (.cons ⟨trivial, by
      intro x hx
      exact absurd hx (by simp [LooseDB.hasObject,
        LooseDB.readablePath, LooseHas])⟩ (.cons ⟨trivial, by
      intro x hx
      exact absurd hx (by simp [LooseDB.hasObject,
        LooseDB.readablePath, LooseHas])⟩ .nil)))) sha hs

/-- A packed database with a damaged index, twice in a tree. -/
example (zl : Zlib) (ops : List DbOp) (sha : Bytes) :
    let dir : Option PackDir := some ⟨1, [(nameA, emptyPack), (idxName nameA, [1])]⟩
    let db : PackedDB := { entities := some [⟨3, nameA, ⟨emptyPack, 2, 0⟩, none⟩] }
    ∃ a, ((nestOps (packedOps id fun d db sha => db.stream 5 id d sha) 1).has dir
      (ops.foldl (dbStep (nestOps (packedOps id fun d db sha => db.stream 5 id d sha) 1) dir)
        (.inr { dbs := [db, db] })) sha).2 = firstAnswer [a, a] sha := by
  intro dir db
  obtain ⟨pre, suf, -, h⟩ := pinv_init (dirFiles dir) (l := [⟨3, nameA, ⟨emptyPack, 2, 0⟩, none⟩]) (by unfold MostHitsFirst; decide)
  have hd : PackedAns id dir db (fun sha => (db.hasObject id dir sha).2) := ⟨_, _, _, rfl, h, fun _ => rfl⟩
  exact ⟨_, C44_history (packedOps id fun d db sha => db.stream 5 id d sha) dir _ (packed_steady zl 5 id dir) 1 (.inr { dbs := [db, db] })
    _ ⟨[_, _], ⟨.cons hd (.cons hd .nil), by simp [nameGet]⟩, rfl⟩ ops sha⟩

end GitDB.Props
