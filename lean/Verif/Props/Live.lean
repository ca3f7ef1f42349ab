import Verif.Model.Live
import Verif.Props.GitStore
/-!
# C81: a `GitDB` on a disk that changes
-/
set_option autoImplicit false

namespace GitDB.Props
open GitDB Spec

variable {ω σ α β γ : Type}

/-! ## Calls -/

/-- Calls of a database that is a `CachingDB`. -/
inductive LiveCall where
  | read (op : DbOp)
  | update (force : Bool)

/-- The database after a call, whether it raised an exception or not. -/
def callStep (O : DbOps ω σ α) (w : ω) (s : σ) : LiveCall → σ
  | .read op => dbStep O w s op
  | .update force => (O.update w s force).1

theorem all2_refl {R : σ → σ → Prop} (h : ∀ s, R s s) : ∀ l : List σ, All2 R l l
  | [] => .nil
  | s :: l => .cons (h s) (all2_refl h l)

theorem all2_trans {R : σ → σ → Prop} (h : ∀ a b c, R a b → R b c → R a c) {l l' l'' : List σ} (h1 : All2 R l l')
    (h2 : All2 R l' l'') : All2 R l l'' := by
  induction h1 generalizing l'' with
  | nil => cases h2; exact .nil
  | cons h3 _ ih =>
    cases h2 with
    | cons h4 t => exact .cons (h _ _ _ h3 h4) (ih t)

section rel
variable {R : σ → σ → Prop} (hr : ∀ s, R s s)
include hr

theorem scanDbs_rel {O : DbOps ω σ α} {w : ω} (sha : Bytes) (h : ∀ s, R s (O.has w s sha).1) :
    ∀ (l : List σ) (i : Nat), All2 R l (scanDbs O w sha l i).1
  | [], _ => .nil
  | s :: l, i => by
    have h1 := h s
    have h2 := scanDbs_rel sha h l (i + 1)
    unfold scanDbs
    rcases hs : O.has w s sha with ⟨s', e | (_ | _)⟩ <;> rw [hs] at h1
    · exact .cons h1 (all2_refl hr l)
    · exact .cons h1 h2
    · exact .cons h1 (all2_refl hr l)

theorem onDb_rel {f : σ → σ × Res γ} (h : ∀ s, R s (f s).1) : ∀ (l : List σ) (i : Nat), All2 R l (onDb f l i).1
  | [], _ => .nil
  | s :: l, 0 => .cons (h s) (all2_refl hr l)
  | s :: l, i + 1 => .cons (hr s) (onDb_rel h l i)

theorem eachDb_rel {f : σ → σ × Res γ} (h : ∀ s, R s (f s).1) : ∀ (l : List σ), All2 R l (eachDb f l).1
  | [] => .nil
  | s :: l => by
    have h1 := h s
    have h2 := eachDb_rel h l
    unfold eachDb
    rcases hs : f s with ⟨s', e | x⟩
    · rw [hs] at h1; exact .cons h1 (all2_refl hr l)
    · rw [hs] at h1
      simp only
      rcases hq : eachDb f l with ⟨l', e | xs⟩ <;> rw [hq] at h2 <;> exact .cons h1 h2

theorem query_rel {O : DbOps ω σ α} {w : ω} (sha : Bytes) (h : ∀ s, R s (O.has w s sha).1) (c : Compound σ) :
    All2 R c.dbs (c.query O w sha).1.dbs := by
  unfold Compound.query
  rcases nameGet sha c.cache with _ | i
  · have h := scanDbs_rel hr sha h c.dbs 0
    simp only
    rcases hs : scanDbs O w sha c.dbs 0 with ⟨l, e | (_ | i)⟩ <;> rw [hs] at h <;> exact h
  · exact all2_refl hr _

/-- What every call does to every database, any call on a compound database does to each of its databases. -/
theorem compound_rel (ht : ∀ a b c, R a b → R b c → R a c) {O : DbOps ω σ α} {w : ω} (h : ∀ s call, R s (callStep O w s call))
    (c : Compound σ) (call : LiveCall) : All2 R c.dbs (callStep (compoundOps O) w c call).dbs := by
  cases call with
  | update force => exact eachDb_rel hr (f := fun s => O.update w s force) (fun s => h s (.update force)) c.dbs
  | read op =>
    cases op with
    | has sha =>
      have : callStep (compoundOps O) w c (.read (.has sha)) = (c.query O w sha).1 := compoundHas_fst O w c sha
      rw [this]
      exact query_rel hr sha (fun s => h s (.read (.has sha))) c
    | get sha =>
      have h1 := query_rel hr sha (fun s => h s (.read (.has sha))) c
      show All2 R c.dbs (c.get O w sha).1.dbs
      unfold Compound.get
      rcases hq : c.query O w sha with ⟨c', e | i⟩
      · rw [hq] at h1; exact h1
      · rw [hq] at h1
        exact all2_trans ht h1 (onDb_rel hr (f := fun s => O.get w s sha) (fun s => h s (.read (.get sha))) c'.dbs i)
    | size => exact eachDb_rel hr (f := O.size w) (fun s => h s (.read .size)) c.dbs
    | shas => exact eachDb_rel hr (f := O.shas w) (fun s => h s (.read .shas)) c.dbs
end rel

/-- Invariants of the databases, and what does not change about them, through a call on a compound database. -/
theorem compound_inv {O : DbOps ω σ α} {w : ω} {I : σ → Prop} {g : σ → β}
    (h : ∀ s call, I s → g (callStep O w s call) = g s ∧ I (callStep O w s call)) (c : Compound σ) (call : LiveCall)
    (hc : ∀ s ∈ c.dbs, I s) :
    (callStep (compoundOps O) w c call).dbs.map g = c.dbs.map g ∧ ∀ s ∈ (callStep (compoundOps O) w c call).dbs, I s := by
  have h1 := compound_rel (R := fun s s' => I s → g s' = g s ∧ I s') (fun s hs => ⟨rfl, hs⟩)
    (fun a b c h1 h2 ha => ⟨(h2 (h1 ha).2).1.trans (h1 ha).1, (h2 (h1 ha).2).2⟩) (O := O) (w := w) h c call
  generalize (callStep (compoundOps O) w c call).dbs = l at h1
  generalize c.dbs = l0 at h1 hc
  induction h1 with
  | nil => exact ⟨rfl, by simp⟩
  | cons h3 _ ih =>
    have h4 := h3 (hc _ (by simp))
    have h5 := ih fun s hs => hc s (by simp [hs])
    exact ⟨by simp only [List.map_cons, h4.1, h5.1], List.forall_mem_cons.mpr ⟨h4.2, h5.2⟩⟩

/-! ## Packs -/

/-- The files of an item, the pack and the index if it is mapped, have these contents. -/
def ItemFits (Q : Bytes → Bytes → Prop) (it : PackItem) : Prop :=
  (∀ c, it.idx = some c → Q (idxName it.path) c) ∧ ∃ c, PackFile.load c = .ok it.pack ∧ Q it.path c

section fits
variable {Q : Bytes → Bytes → Prop} {dir : PackDir} (hq : ∀ p c, dir.get p = some c → Q p c)
include hq

theorem index_fits {it : PackItem} (h : ItemFits Q it) : ItemFits Q (it.index dir).1 := by
  unfold PackItem.index
  rcases hi : it.idx with _ | c
  · simp only
    rcases hg : dir.get (idxName it.path) with _ | c
    · exact h
    · refine ⟨fun c' hc' => ?_, h.2⟩
      simp only [Option.some.injEq] at hc'
      subst hc'
      exact hq _ _ hg
  · exact h

theorem find_fits {it : PackItem} (h : ItemFits Q it) (sha : Bytes) : ItemFits Q (it.find dir sha).1 := by
  have := index_fits hq h
  unfold PackItem.find
  split
  · exact h
  · rcases hx : it.index dir with ⟨it', e | x⟩ <;> rw [hx] at this <;> exact this

theorem scan_fits (sha : Bytes) : ∀ {l : List PackItem}, (∀ it ∈ l, ItemFits Q it) → ∀ it ∈ (scanItems dir sha l).1, ItemFits Q it
  | [], h => h
  | a :: l, h => by
    have h1 := find_fits hq (h a (by simp)) sha
    have h2 : ∀ it ∈ l, ItemFits Q it := fun it hit => h it (by simp [hit])
    have ih := scan_fits sha h2
    unfold scanItems
    rcases hf : a.find dir sha with ⟨a', e | (_ | i)⟩ <;> rw [hf] at h1
    · exact List.forall_mem_cons.mpr ⟨h1, h2⟩
    · exact List.forall_mem_cons.mpr ⟨h1, ih⟩
    · exact List.forall_mem_cons.mpr ⟨h1, h2⟩

theorem indices_fit : ∀ {l : List PackItem}, (∀ it ∈ l, ItemFits Q it) → ∀ it ∈ (loadIndices dir l).1, ItemFits Q it
  | [], h => h
  | a :: l, h => by
    have h1 := index_fits hq (h a (by simp))
    have h2 : ∀ it ∈ l, ItemFits Q it := fun it hit => h it (by simp [hit])
    have ih := indices_fit h2
    unfold loadIndices
    rcases hf : a.index dir with ⟨a', e | x⟩ <;> rw [hf] at h1
    · exact List.forall_mem_cons.mpr ⟨h1, h2⟩
    · simp only
      rcases hl : loadIndices dir l with ⟨l', e | xs⟩ <;> rw [hl] at ih <;> exact List.forall_mem_cons.mpr ⟨h1, ih⟩
end fits

theorem fresh_fits {Q : Bytes → Bytes → Prop} {dir : PackDir} (hq : ∀ p c, dir.get p = some c → Q p c) {it : PackItem}
    (h : FreshItem dir it) : ItemFits Q it := by
  obtain ⟨c, h1, h2, -, h3⟩ := h
  refine ⟨fun c hc => ?_, c, h2, hq _ _ h1⟩
  rw [h3] at hc
  cases hc

/-- States of a pack database: every pack once, their files are of this kind. -/
def PackedFits (Q : Bytes → Bytes → Prop) (db : PackedDB) : Prop :=
  PathsOnce db ∧ ∀ l, db.entities = some l → ∀ it ∈ l, ItemFits Q it

theorem refresh_fits {Q : Bytes → Bytes → Prop} {order : List Bytes → List Bytes} (ho : ∀ l, (order l).Perm l) {dir : PackDir}
    (hd : dir.Wf) (hq : ∀ p c, dir.get p = some c → Q p c) {l : List PackItem} (hn : (l.map PackItem.path).Nodup) (hl : ∀ it ∈ l, ItemFits Q it) :
    ∀ it ∈ (refreshItems order dir l).1, ItemFits Q it := by
  intro it hit
  rcases (refresh_spec ho hd hn).2.1 it hit with h | ⟨-, -, h⟩
  · exact hl it h
  · exact fresh_fits hq h

theorem load_fits {Q : Bytes → Bytes → Prop} {order : List Bytes → List Bytes} (ho : ∀ l, (order l).Perm l) {dir : Option PackDir}
    (hd : ∀ d, dir = some d → d.Wf) (hq : ∀ p c, (dirFiles dir).get p = some c → Q p c) {db : PackedDB} (h : PackedFits Q db) :
    PackedFits Q (db.load order dir).1 := by
  have h1 := load_once ho hd h.1
  refine ⟨h1, ?_⟩
  unfold PackedDB.load
  rcases hl : db.entities with _ | l
  · simp only
    rcases dir with _ | dir
    · intro l hl; simp only [Option.some.injEq] at hl; subst hl; simp
    · have := refresh_fits (Q := Q) ho (hd dir rfl) hq (l := []) (by simp) (by simp)
      simp only
      rcases hr : refreshItems order dir [] with ⟨l, e | u⟩ <;>
      · rw [hr] at this
        intro l' hl'
        simp only [Option.some.injEq] at hl'
        subst hl'
        exact this
  · exact h.2

theorem update_fits {Q : Bytes → Bytes → Prop} {order : List Bytes → List Bytes} (ho : ∀ l, (order l).Perm l) {dir : Option PackDir}
    (hd : ∀ d, dir = some d → d.Wf) (hq : ∀ p c, (dirFiles dir).get p = some c → Q p c) {db : PackedDB} (h : PackedFits Q db)
    (force : Bool) : PackedFits Q (db.updateCache order dir force).1 := by
  refine ⟨update_once ho hd h.1 force, ?_⟩
  unfold PackedDB.updateCache
  rcases dir with _ | d
  · exact h.2
  · simp only
    split
    · exact h.2
    · have h1 := load_fits ho hd hq (db := { db with mtime := d.mtime }) h
      obtain ⟨l, e1, e2⟩ := load_entities order (some d) { db with mtime := d.mtime }
      rcases hl : PackedDB.load order (some d) { db with mtime := d.mtime } with ⟨db1, e | l1⟩
      · rw [hl] at h1; exact h1.2
      · rw [hl] at h1 e1 e2
        obtain rfl := e2 l1 rfl
        have := refresh_fits ho (hd d rfl) hq (h1.1 l1 e1) (h1.2 l1 e1)
        simp only
        rcases hr : refreshItems order d l1 with ⟨l2, e | u⟩ <;>
        · rw [hr] at this
          intro l' hl'
          simp only [Option.some.injEq] at hl'
          subst hl'
          exact this

theorem packInfo_fits {Q : Bytes → Bytes → Prop} {order : List Bytes → List Bytes} (ho : ∀ l, (order l).Perm l)
    {dir : Option PackDir} (hd : ∀ d, dir = some d → d.Wf) (hq : ∀ p c, (dirFiles dir).get p = some c → Q p c)
    {db : PackedDB} (h : PackedFits Q db) (sha : Bytes) : ∀ l, (db.packInfo order dir sha).1.entities = some l →
      ∀ it ∈ l, ItemFits Q it := by
  have h1 := load_fits ho hd hq h
  obtain ⟨l, e1, e2⟩ := load_entities order dir db
  unfold PackedDB.packInfo
  rcases hd' : db.load order dir with ⟨db1, e | l1⟩
  · rw [hd'] at h1; exact h1.2
  · rw [hd'] at h1 e1 e2
    obtain rfl := e2 l1 rfl
    have hs : ∀ it ∈ (if db1.hitCount % sortInterval = 0 then sortItems l1 else l1), ItemFits Q it := by
      split
      · intro it hit
        exact h1.2 l1 e1 it ((sortItems_perm _).mem_iff.mp hit)
      · exact h1.2 l1 e1
    have hsc := scan_fits hq sha hs
    simp only
    rcases hx : scanItems (dirFiles dir) sha (if db1.hitCount % sortInterval = 0 then sortItems l1 else l1) with ⟨l2, e | (_ | o)⟩ <;>
    · rw [hx] at hsc
      intro l' hl'
      simp only [Option.some.injEq] at hl'
      subst hl'
      exact hsc

theorem step_fits {Q : Bytes → Bytes → Prop} (zl : Zlib) {order : List Bytes → List Bytes} (ho : ∀ l, (order l).Perm l)
    {dir : Option PackDir} (hd : ∀ d, dir = some d → d.Wf) (hq : ∀ p c, (dirFiles dir).get p = some c → Q p c)
    {db : PackedDB} (h : PackedFits Q db) (fuel : Nat) (op : DbOp) :
    PackedFits Q (dbStep (packedOps order fun d db sha => db.stream fuel order d sha) dir db op) := by
  have honce : ∀ op', PathsOnce (packStep zl order dir db op') := by
    intro op'
    obtain ⟨l, l', k1, k2, k3, -⟩ := step_paths zl order dir db op'
    intro l1 hl1
    rw [k2] at hl1
    simp only [Option.some.injEq] at hl1
    subst hl1
    exact k3.nodup_iff.mpr (load_once ho hd h.1 l k1)
  cases op with
  | has sha =>
    refine ⟨honce (.has sha), ?_⟩
    show ∀ l, (db.hasObject order dir sha).1.entities = some l → _
    rw [hasObject_fst]
    exact packInfo_fits ho hd hq h sha
  | get sha =>
    refine ⟨honce (.stream fuel sha), ?_⟩
    show ∀ l, (db.stream fuel order dir sha).1.entities = some l → _
    rw [stream_fst]
    exact packInfo_fits ho hd hq h sha
  | size =>
    refine ⟨honce .size, ?_⟩
    show ∀ l, (db.size order dir).1.entities = some l → _
    have h1 := load_fits ho hd hq h
    obtain ⟨l, e1, e2⟩ := load_entities order dir db
    unfold PackedDB.size
    rcases hd' : db.load order dir with ⟨db1, e | l1⟩
    · rw [hd'] at h1; exact h1.2
    · rw [hd'] at h1 e1 e2
      obtain rfl := e2 l1 rfl
      have := indices_fit hq (h1.2 l1 e1)
      simp only
      rcases hx : loadIndices (dirFiles dir) l1 with ⟨l2, e | xs⟩ <;>
      · rw [hx] at this
        intro l' hl'
        simp only [Option.some.injEq] at hl'
        subst hl'
        exact this
  | shas =>
    refine ⟨honce .iter, ?_⟩
    show ∀ l, (db.shaIter order dir).1.entities = some l → _
    have h1 := load_fits ho hd hq h
    obtain ⟨l, e1, e2⟩ := load_entities order dir db
    unfold PackedDB.shaIter
    rcases hd' : db.load order dir with ⟨db1, e | l1⟩
    · rw [hd'] at h1; exact h1.2
    · rw [hd'] at h1 e1 e2
      obtain rfl := e2 l1 rfl
      have := indices_fit hq (h1.2 l1 e1)
      simp only
      rcases hx : loadIndices (dirFiles dir) l1 with ⟨l2, e | xs⟩ <;>
      · rw [hx] at this
        intro l' hl'
        simp only [Option.some.injEq] at hl'
        subst hl'
        exact this

/-! ## Refreshing the packs -/

/-- A directory of packs that can be used: the pack files can be opened, and have well-formed indices. -/
def GoodDir (d : PackDir) : Prop :=
  d.Wf ∧ ∀ p ∈ d.files.map Prod.fst, IsPackName p → (∃ c pk, d.get p = some c ∧ PackFile.load c = .ok pk) ∧
    ∃ i ns, d.get (idxName p) = some i ∧ IsIndex i ns

/-- The object is listed by the index of a pack of the directory. -/
def InPacks (d : PackDir) (sha : Bytes) : Prop :=
  ∃ p ∈ d.files.map Prod.fst, IsPackName p ∧ ∃ i ns, d.get (idxName p) = some i ∧ IsIndex i ns ∧ sha ∈ ns

/-- Files as they are. -/
def FileNow (d : PackDir) (p c : Bytes) : Prop := d.get p = some c

/-- The packs are those of the directory, with the files as they are. -/
def PackedNow (d : PackDir) (db : PackedDB) : Prop :=
  PackedFits (FileNow d) db ∧ ∃ l, db.entities = some l ∧ ∀ p, p ∈ l.map PackItem.path ↔ p ∈ d.packs

/-- Files do not change while they exist. -/
def FileSame (d : PackDir) (p c : Bytes) : Prop := ∀ c', d.get p = some c' → c' = c

theorem lists_now {d : PackDir} {it : PackItem} (hf : ItemFits (FileSame d) it) {i : Bytes} (hi : d.get (idxName it.path) = some i) :
    it.content d = some i := by
  unfold PackItem.content
  rcases hx : it.idx with _ | c
  · exact hi
  · simp only
    rw [hf.1 c hx i hi]

theorem packed_refreshed {order : List Bytes → List Bytes} (ho : ∀ l, (order l).Perm l) {d : PackDir} (hd : GoodDir d)
    {db : PackedDB} (h : PackedFits (FileSame d) db) :
    (db.updateCache order (some d) true).2 = .ok true ∧ PackedOk (some d) (db.updateCache order (some d) true).1 ∧
      PackedNow d (db.updateCache order (some d) true).1 ∧
      ∀ sha, PackedHas (some d) (db.updateCache order (some d) true).1 sha ↔ InPacks d sha := by
  have hu : ∀ p ∈ d.packs, ∃ c pk, d.get p = some c ∧ PackFile.load c = .ok pk := fun p hp =>
    (hd.2 p ((mem_packs d p).mp hp).1 ((mem_packs d p).mp hp).2).1
  have hfit := update_fits ho (dir := some d) (fun d' e => by cases e; exact hd.1)
    (fun p c hc c' hc' => by
      have hc : d.get p = some c := hc
      rw [hc] at hc'; cases hc'; rfl) h true
  have key : ∃ l, (db.updateCache order (some d) true).1.entities = some l ∧ (db.updateCache order (some d) true).2 = .ok true ∧
      ∀ p, p ∈ l.map PackItem.path ↔ p ∈ d.packs := by
    have h1 := load_once ho (dir := some d) (fun d' e => by cases e; exact hd.1) (db := { db with mtime := d.mtime }) h.1
    obtain ⟨l, e1, e2⟩ := load_entities order (some d) { db with mtime := d.mtime }
    have hok : ∃ l, (PackedDB.load order (some d) { db with mtime := d.mtime }).2 = .ok l := by
      unfold PackedDB.load
      rcases hl : db.entities with _ | l
      · have := refresh_succeeds ho (dir := d) (items := []) hu
        simp only
        rcases hr : refreshItems order d [] with ⟨l, e | u⟩
        · rw [hr] at this; cases this
        · exact ⟨l, rfl⟩
      · exact ⟨l, rfl⟩
    obtain ⟨l', hl'⟩ := hok
    have hle : l' = l := e2 l' hl'
    subst hle
    rcases hq : PackedDB.load order (some d) { db with mtime := d.mtime } with ⟨db1, r⟩
    rw [hq] at h1 e1 hl'
    simp only at hl'
    subst hl'
    have hs := refresh_spec ho hd.1 (h1 l' e1)
    have hsu := refresh_succeeds ho (dir := d) (items := l') hu
    have he : db.updateCache order (some d) true = ({ db1 with entities := some (refreshItems order d l').1 }, .ok true) := by
      unfold PackedDB.updateCache
      simp only [Bool.true_eq_false, false_and, if_false]
      rw [hq]
      simp only
      rcases hr : refreshItems order d l' with ⟨l2, e | u⟩
      · rw [hr] at hsu; cases hsu
      · rfl
    rw [he]
    exact ⟨_, rfl, rfl, (hs.2.2 hsu).1⟩
  obtain ⟨l, k1, k2, k3⟩ := key
  have hlist : ∀ it ∈ l, ∃ i ns, d.get (idxName it.path) = some i ∧ IsIndex i ns ∧ it.content d = some i := by
    intro it hit
    have hp := (mem_packs d it.path).mp ((k3 it.path).mp (List.mem_map_of_mem hit))
    obtain ⟨-, i, ns, g1, g2⟩ := hd.2 it.path hp.1 hp.2
    exact ⟨i, ns, g1, g2, lists_now (hfit.2 l k1 it hit) g1⟩
  refine ⟨k2, ⟨l, k1, fun it hit => ?_⟩, ⟨⟨hfit.1, fun l' hl' it hit => ?_⟩, l, k1, k3⟩,
    fun sha => ⟨?_, ?_⟩⟩
  · obtain ⟨i, ns, -, g2, g3⟩ := hlist it hit
    exact ⟨ns, i, g3, g2⟩
  · rw [k1] at hl'
    cases hl'
    obtain ⟨f1, c, f2, f3⟩ := hfit.2 l k1 it hit
    obtain ⟨i, -, g1, -⟩ := hlist it hit
    obtain ⟨c', -, g4, -⟩ := hu it.path ((k3 it.path).mp (List.mem_map_of_mem hit))
    refine ⟨fun c hc => ?_, c, f2, ?_⟩
    · show d.get _ = _
      rw [g1, f1 c hc i g1]
    · show d.get _ = _
      rw [g4, f3 c' g4]
  · rintro ⟨l', e, it, hit, ns, ⟨c, hc, hi⟩, hm⟩
    rw [k1] at e
    cases e
    obtain ⟨i, -, g1, -, g3⟩ := hlist it hit
    have hc : it.content d = some c := hc
    rw [g3] at hc
    cases hc
    have hp := (mem_packs d it.path).mp ((k3 it.path).mp (List.mem_map_of_mem hit))
    exact ⟨it.path, hp.1, hp.2, c, ns, g1, hi, hm⟩
  · rintro ⟨p, hp, hn, i, ns, g1, g2, hm⟩
    obtain ⟨it, hit, rfl⟩ := List.mem_map.mp ((k3 p).mpr ((mem_packs d p).mpr ⟨hp, hn⟩))
    exact ⟨l, k1, it, hit, ns, ⟨i, lists_now (hfit.2 l k1 it hit) g1, g2⟩, hm⟩

/-! ## The databases at the ends -/

/-- A disk as it was, compared with how it is: the same parts of repositories existed, no object file has been removed since, and
files in pack directories that exist now as well have the same contents.  (Packs and alternates may have come and gone.) -/
structure Before (D D' : Disk) : Prop where
  pack : ∀ q, (D'.pack q).isSome = (D.pack q).isSome
  loose : ∀ q, (D'.loose q).isSome = (D.loose q).isSome
  alt : ∀ q, (D'.alt q).isSome = (D.alt q).isSome
  wf : ∀ q d, D'.pack q = some d → d.Wf
  same : ∀ q d d' name c c', D.pack q = some d → D'.pack q = some d' → d.get name = some c → d'.get name = some c' → c = c'
  keep : ∀ q x x', D.loose q = some x → D'.loose q = some x' → ∀ sha,
    (x'.1 (objectPath (binToHex sha))).isSome = true → (x.1 (objectPath (binToHex sha))).isSome = true

/-- There is a file for the object. -/
def LooseThere (D : Disk) (q : Text) (sha : Bytes) : Prop :=
  ∃ x, D.loose q = some x ∧ (x.1 (objectPath (binToHex sha))).isSome = true

/-- What is true of the databases at the ends, whatever happened before. -/
def LeafInv (D : Disk) : GitLeaf → Prop
  | .stop => True
  | .pack r db => PackedFits (fun p c => ∀ d, D.pack r = some d → FileSame d p c) db
  | .loose r db => ∀ sha, binToHex sha ∈ db.known → LooseThere D r sha

/-- Which database it is. -/
theorem leafSite_call {order : List Bytes → List Bytes} {getP : Option PackDir → PackedDB → Bytes → PackedDB × Res α}
    {getL : Fs → Bytes → Res α} {D : Disk} (s : GitLeaf) (call : LiveCall) :
    leafSite (callStep (leafOps order getP getL) D s call) = leafSite s := by
  cases call with
  | read op => exact leafSite_step s op
  | update force => cases s <;> rfl

theorem leafInv_call (zl : Zlib) (fuel : Nat) {order : List Bytes → List Bytes} (ho : ∀ l, (order l).Perm l)
    (getL : Fs → Bytes → Res OStream) {D D' : Disk} (hb : Before D D') (s : GitLeaf) (call : LiveCall) (h : LeafInv D s) :
    LeafInv D (callStep (leafOps order (fun d db sha => db.stream fuel order d sha) getL) D' s call) := by
  cases s with
  | stop => cases call with
    | read op => cases op <;> trivial
    | update force => trivial
  | pack r db =>
    have hd : ∀ d, D'.pack r = some d → d.Wf := hb.wf r
    have hq : ∀ p c, (dirFiles (D'.pack r)).get p = some c → ∀ d, D.pack r = some d → FileSame d p c := by
      intro p c hc d hd c' hc'
      rcases hx : D'.pack r with _ | d'
      · rw [hx] at hc
        simp [dirFiles, PackDir.get] at hc
      · rw [hx] at hc
        exact hb.same r d d' _ c' c hd hx hc' hc
    cases call with
    | update force => exact update_fits ho hd hq h force
    | read op =>
      have := step_fits (Q := fun p c => ∀ d, D.pack r = some d → FileSame d p c) zl ho hd hq h fuel op
      cases op <;> exact this
  | loose r db =>
    cases call with
    | update force => exact h
    | read op =>
      cases op with
      | has sha =>
        show ∀ x, binToHex x ∈ (db.hasObject (D'.looseAt r).1 sha).1.known → LooseThere D r x
        unfold LooseDB.hasObject LooseDB.readablePath
        by_cases h1 : binToHex sha ∈ db.known
        · simp only [h1, if_true]; exact h
        · by_cases h2 : ((D'.looseAt r).1 (objectPath (binToHex sha))).isSome = true
          · simp only [h1, h2, if_false, if_true]
            intro x hx
            simp only [List.mem_cons] at hx
            rcases hx with hx | hx
            · unfold LooseThere
              rw [hx]
              unfold Disk.looseAt at h2
              rcases hy : D'.loose r with _ | x'
              · rw [hy] at h2; simp at h2
              · rw [hy] at h2
                obtain ⟨x0, hx0⟩ := Option.isSome_iff_exists.mp ((hb.loose r).symm.trans (by rw [hy]; rfl))
                exact ⟨x0, hx0, hb.keep r x0 x' hx0 hy sha h2⟩
            · exact h x hx
          · simp only [h1, h2, if_false]; exact h
      | get sha => exact h
      | size => exact h
      | shas => exact h

/-! ## Whole repositories -/

/-- Which part of which repository it is. -/
def partSite : GitLeaf ⊕ RefNode σ → Option (Sub × Text)
  | .inl .stop => none
  | .inl (.pack r _) => some (.pack, r)
  | .inl (.loose r _) => some (.loose, r)
  | .inr r => some (.ref, r.root)

/-- What is true of a part, whatever happened before; `I` is what is true of the repositories referred to. -/
def PartInv (D : Disk) (I : Text → σ → Prop) : GitLeaf ⊕ RefNode σ → Prop
  | .inl s => LeafInv D s
  | .inr r => ∀ l, r.db.dbs = some l → (l.map Prod.fst).Nodup ∧ ∀ y ∈ l, (D.loose y.1).isSome = true ∧ I y.1 y.2

/-- What is true of a repository at a path, whatever happened before. -/
def NodeInv (D : Disk) : (n : Nat) → Text → GitNode n → Prop
  | 0, _, _ => True
  | n + 1, p, t => GitState.root t = p ∧ ∀ l, GitState.dbs t = some l →
      l.map partSite = (gitDbs D p).1.map (fun b => some (b, p)) ∧ ∀ x ∈ l, PartInv D (NodeInv D n) x

theorem gitDbs_before {D D' : Disk} (h : Before D D') (p : Text) : gitDbs D' p = gitDbs D p := by
  unfold gitDbs
  have : (D'.loose p).isNone = (D.loose p).isNone := by
    rw [← Option.not_isSome, ← Option.not_isSome, h.loose]
  simp only [h.pack, h.loose, h.alt, this]

theorem newParts_site (D : Disk) (p : Text) : (newParts D p : List (GitLeaf ⊕ RefNode σ)).map partSite =
    (gitDbs D p).1.map fun b => some (b, p) := by
  unfold newParts
  rw [List.map_map]
  refine List.map_congr_left fun b _ => ?_
  cases b <;> rfl

theorem newParts_inv {D : Disk} (D' : Disk) (I : Text → σ → Prop) (p : Text) : ∀ x ∈ newParts D' p, PartInv D I x := by
  intro x hx
  obtain ⟨b, -, rfl⟩ := List.mem_map.mp hx
  cases b with
  | pack => exact ⟨fun l hl => (nomatch hl), fun l hl => (nomatch hl)⟩
  | loose => intro sha h; cases h
  | ref => intro l hl; cases hl

theorem gitLoad_inv {D D' : Disk} (hb : Before D D') {n : Nat} {p : Text} {t : GitState (GitNode n)} (h : NodeInv D (n + 1) p t) :
    NodeInv D (n + 1) p (t.load D').1 ∧ ∀ l, (t.load D').2 = .ok l → (t.load D').1.dbs = some l := by
  unfold GitState.load
  rcases hl : t.dbs with _ | l
  · have hn : ∀ t' : GitState (GitNode n), t'.root = p → t'.dbs = some (newParts D' p) → NodeInv D (n + 1) p t' := by
      intro t' h1 h2
      refine ⟨h1, fun l hl => ?_⟩
      have hl : t'.dbs = some l := hl
      rw [h2] at hl
      cases hl
      exact ⟨by rw [newParts_site, gitDbs_before hb], newParts_inv D' _ p⟩
    have hroot : t.root = p := h.1
    simp only [hroot]
    rcases (gitDbs D' p).2 with e | u
    · exact ⟨hn _ rfl rfl, fun l h => by cases h⟩
    · exact ⟨hn _ rfl rfl, fun l h => by cases h; rfl⟩
  · exact ⟨h, fun l' h' => by cases h'; exact hl⟩

theorem newNode_spec {D D' : Disk} (hb : Before D D') : ∀ (n : Nat) (p : Text) (t : GitNode n), newNode n D' p = some t →
    (D.loose p).isSome = true ∧ NodeInv D n p t
  | 0, p, t, h => by
    refine ⟨?_, trivial⟩
    rw [← hb.loose p]
    refine (C47_valid D' p).mp ?_
    have h : (mkGit D' p).map (fun _ => p) = some t := h
    rcases hm : mkGit D' p with _ | g
    · rw [hm] at h; cases h
    · rfl
  | n + 1, p, t, h => by
    have h0 : NodeInv D (n + 1) p ({ root := p } : GitState (GitNode n)) := ⟨rfl, fun l hl => by cases hl⟩
    have h1 := (gitLoad_inv hb h0).1
    simp only [newNode] at h
    rcases hl : GitState.load D' ({ root := p } : GitState (GitNode n)) with ⟨g, e | l⟩
    · rw [hl] at h; cases h
    · rw [hl] at h h1
      cases h
      refine ⟨?_, h1⟩
      unfold GitState.load at hl
      simp only at hl
      rcases hg : (gitDbs D' p).2 with e | u
      · rw [hg] at hl; cases hl
      · rw [← hb.loose p]
        unfold gitDbs at hg
        simp only at hg
        generalize ((if (D'.pack p).isSome = true then [Sub.pack] else []) ++ (if (D'.loose p).isSome = true then [.loose] else []) ++
          (if (D'.alt p).isSome = true then [.ref] else [])) = L at hg
        split at hg
        · cases hg
        · split at hg
          · cases hg
          · next h2 => rw [Option.isSome_iff_ne_none]; simpa using h2

theorem newNode_some {D : Disk} {n : Nat} {p : Text} (h : (D.loose p).isSome = true) : ∃ t, newNode n D p = some t := by
  cases n with
  | zero =>
    obtain ⟨g, hg⟩ := Option.isSome_iff_exists.mp ((C47_valid D p).mpr h)
    exact ⟨p, by show (mkGit D p).map (fun _ => p) = some p; rw [hg]; rfl⟩
  | succ n =>
    have : (gitDbs D p).2 = .ok () := by
      have h' : (D.loose p).isNone = false := by
        rcases hx : D.loose p with _ | x
        · rw [hx] at h; simp at h
        · rfl
      unfold gitDbs
      simp [h, h']
    refine ⟨{ root := p, dbs := some (newParts D p) }, ?_⟩
    simp only [newNode, GitState.load, this]

/-- Good lists of databases referred to. -/
def RefsInv (D : Disk) (I : Text → σ → Prop) (l : Refs σ) : Prop :=
  (l.map Prod.fst).Nodup ∧ ∀ y ∈ l, (D.loose y.1).isSome = true ∧ I y.1 y.2

theorem updateRefs_inv {D : Disk} {order : List Text → List Text} (ho : ∀ l, (order l).Perm l) {I : Text → σ → Prop}
    {mk : Text → Option σ} (hm : ∀ p t, mk p = some t → (D.loose p).isSome = true ∧ I p t) (file : Res Text) {l : Refs σ}
    (h : RefsInv D I l) : RefsInv D I (updateRefs order mk file l).1 := by
  refine ⟨updateRefs_nodup ho mk file l h.1, ?_⟩
  rcases hp : refPaths file with e | paths
  · unfold updateRefs
    rw [hp]
    exact h.2
  · rw [updateRefs_spec ho mk file paths hp l h.1]
    intro y hy
    rcases List.mem_append.mp hy with hy | hy
    · exact h.2 y (List.mem_filter.mp hy).1
    · obtain ⟨q, -, hq⟩ := List.mem_filterMap.mp hy
      rcases ht : mk q with _ | t
      · rw [ht] at hq; cases hq
      · rw [ht] at hq
        cases hq
        exact hm q t ht

theorem refLoad_inv {D : Disk} {order : List Text → List Text} (ho : ∀ l, (order l).Perm l) {I : Text → σ → Prop}
    {mk : Text → Option σ} (hm : ∀ p t, mk p = some t → (D.loose p).isSome = true ∧ I p t) (file : Res Text) {db : RefDB σ}
    (h : ∀ l, db.dbs = some l → RefsInv D I l) :
    (∀ l, (db.load order mk file).1.dbs = some l → RefsInv D I l) ∧
      (∀ l, (db.load order mk file).2 = .ok l → (db.load order mk file).1.dbs = some l) ∧
      (db.load order mk file).1.cache = db.cache := by
  unfold RefDB.load
  rcases hl : db.dbs with _ | l
  · have := updateRefs_inv ho hm file (l := []) ⟨by simp, by simp⟩
    simp only
    rcases hu : updateRefs order mk file [] with ⟨l, e | u⟩
    · rw [hu] at this
      exact ⟨fun l' h' => by cases h'; exact this, fun l' h' => (nomatch h'), rfl⟩
    · rw [hu] at this
      refine ⟨fun l' h' => by cases h'; exact this, fun l' h' => ?_, rfl⟩
      cases h'; rfl
  · refine ⟨fun l' h' => h l' h', fun l' h' => ?_, rfl⟩
    cases h'; exact hl

theorem refUse_inv {D D' : Disk} {order : List Text → List Text} (ho : ∀ l, (order l).Perm l) {I : Text → σ → Prop}
    {mk : Disk → Text → Option σ} (hm : ∀ p t, mk D' p = some t → (D.loose p).isSome = true ∧ I p t)
    (f : Compound (Text × σ) → Compound (Text × σ) × Res β) (hf : ∀ c, RefsInv D I c.dbs → RefsInv D I (f c).1.dbs)
    {r : RefNode σ} (h : PartInv D I (.inr r)) :
    (r.use order mk D' f).1.root = r.root ∧ PartInv D I (.inr (r.use order mk D' f).1) := by
  obtain ⟨h1, h2, -⟩ := refLoad_inv ho hm (D'.altFile r.root) h
  unfold RefNode.use
  rcases hl : r.db.load order (mk D') (D'.altFile r.root) with ⟨db, e | l⟩
  · rw [hl] at h1
    exact ⟨rfl, h1⟩
  · rw [hl] at h1 h2
    refine ⟨rfl, ?_⟩
    intro l' hl'
    cases hl'
    exact hf _ (h1 l (h2 l rfl))

theorem pairs_inv {O : DbOps Disk σ α} {D D' : Disk} {I : Text → σ → Prop}
    (hO : ∀ p s call, I p s → I p (callStep O D' s call)) (c : Compound (Text × σ)) (call : LiveCall) (h : RefsInv D I c.dbs) :
    RefsInv D I (callStep (compoundOps (pairOps O)) D' c call).dbs := by
  have hs : ∀ (x : Text × σ) call, callStep (pairOps O) D' x call = (x.1, callStep O D' x.2 call) := by
    intro x call
    cases call with
    | update force => rfl
    | read op => cases op <;> rfl
  obtain ⟨h1, h2⟩ := compound_inv (O := pairOps O) (w := D') (g := Prod.fst)
    (I := fun y => (D.loose y.1).isSome = true ∧ I y.1 y.2) (fun x call hx => by
      rw [hs]; exact ⟨rfl, hx.1, hO _ _ call hx.2⟩) c call h.2
  exact ⟨by rw [h1]; exact h.1, h2⟩

theorem refCall_inv {O : DbOps Disk σ α} {D D' : Disk} {order : List Text → List Text} (ho : ∀ l, (order l).Perm l)
    {I : Text → σ → Prop} {mk : Disk → Text → Option σ} (hm : ∀ p t, mk D' p = some t → (D.loose p).isSome = true ∧ I p t)
    (hO : ∀ p s call, I p s → I p (callStep O D' s call)) (r : RefNode σ) (call : LiveCall) (h : PartInv D I (.inr r)) :
    (callStep (refOps order mk O) D' r call).root = r.root ∧ PartInv D I (.inr (callStep (refOps order mk O) D' r call)) := by
  have hf := fun c call h => pairs_inv (D := D) hO c call h
  cases call with
  | read op =>
    cases op with
    | has sha => exact refUse_inv ho hm _ (fun c hc => hf c (.read (.has sha)) hc) h
    | get sha => exact refUse_inv ho hm _ (fun c hc => hf c (.read (.get sha)) hc) h
    | size => exact refUse_inv ho hm _ (fun c hc => hf c (.read .size) hc) h
    | shas => exact refUse_inv ho hm _ (fun c hc => hf c (.read .shas) hc) h
  | update force =>
    have hr : ∀ l, (r.db.refresh order (mk D') (D'.altFile r.root)).1.dbs = some l → RefsInv D I l := by
      obtain ⟨h1, h2, -⟩ := refLoad_inv ho hm (D'.altFile r.root) h
      unfold RefDB.refresh
      rcases hp : refPaths (D'.altFile r.root) with e | paths
      · exact h
      · simp only
        rcases hl : r.db.load order (mk D') (D'.altFile r.root) with ⟨db, e | l⟩
        · rw [hl] at h1; exact h1
        · rw [hl] at h1 h2
          have hu := updateRefs_inv ho hm (D'.altFile r.root) (h1 l (h2 l rfl))
          simp only
          rcases hx : updateRefs order (mk D') (D'.altFile r.root) l with ⟨l', e | u⟩ <;>
          · rw [hx] at hu
            intro l'' h''
            cases h''
            exact hu
    show ((refOps order mk O).update D' r force).1.root = r.root ∧ PartInv D I (.inr ((refOps order mk O).update D' r force).1)
    simp only [refOps]
    rcases hx : r.db.refresh order (mk D') (D'.altFile r.root) with ⟨db, e | u⟩
    · rw [hx] at hr; exact ⟨rfl, hr⟩
    · rw [hx] at hr
      exact refUse_inv ho hm _ (fun c hc => hf c (.update force) hc) (r := { r with db := db }) hr

theorem stateUse_inv {D D' : Disk} (hb : Before D D') {n : Nat} {p : Text}
    (f : Compound (GitLeaf ⊕ RefNode (GitNode n)) → Compound (GitLeaf ⊕ RefNode (GitNode n)) × Res β)
    (hf : ∀ c, (∀ x ∈ c.dbs, PartInv D (NodeInv D n) x) →
      (f c).1.dbs.map partSite = c.dbs.map partSite ∧ ∀ x ∈ (f c).1.dbs, PartInv D (NodeInv D n) x)
    {t : GitState (GitNode n)} (h : NodeInv D (n + 1) p t) : NodeInv D (n + 1) p (t.use D' f).1 := by
  obtain ⟨h1, h2⟩ := gitLoad_inv hb h
  unfold GitState.use
  rcases hl : t.load D' with ⟨g, e | l⟩
  · rw [hl] at h1; exact h1
  · rw [hl] at h1 h2
    obtain ⟨h3, h4⟩ := h1.2 l (h2 l rfl)
    obtain ⟨h5, h6⟩ := hf { dbs := l, cache := g.cache } h4
    refine ⟨h1.1, fun l' hl' => ?_⟩
    cases hl'
    exact ⟨h5.trans h3, h6⟩

/-- Calls of any kind, with the disk as it was at any time before, keep a repository in order. -/
theorem nodeInv_call {orderT : List Text → List Text} (hoT : ∀ l, (orderT l).Perm l) {L : DbOps Disk GitLeaf α} {D D' : Disk}
    (hb : Before D D') (hL : ∀ s call, LeafInv D s → leafSite (callStep L D' s call) = leafSite s ∧ LeafInv D (callStep L D' s call)) :
    ∀ (n : Nat) (p : Text) (t : GitNode n) (call : LiveCall), NodeInv D n p t → NodeInv D n p (callStep (liveOps orderT L n) D' t call)
  | 0, _, _, _, _ => trivial
  | n + 1, p, t, call, h => by
    have ih := nodeInv_call hoT hb hL n
    have hpart : ∀ (x : GitLeaf ⊕ RefNode (GitNode n)) (call : LiveCall), PartInv D (NodeInv D n) x →
        partSite (callStep (sumOps L (refOps orderT (newNode n) (liveOps orderT L n))) D' x call) = partSite x ∧
        PartInv D (NodeInv D n) (callStep (sumOps L (refOps orderT (newNode n) (liveOps orderT L n))) D' x call) := by
      rintro (s | r) call hx
      · have e : callStep (sumOps L (refOps orderT (newNode n) (liveOps orderT L n))) D' (.inl s) call =
            .inl (callStep L D' s call) := by
          cases call with
          | update force => rfl
          | read op => cases op <;> rfl
        rw [e]
        obtain ⟨h1, h2⟩ := hL s call hx
        refine ⟨?_, h2⟩
        generalize callStep L D' s call = s' at h1
        cases s <;> cases s' <;> simp_all [leafSite, partSite]
      · have e : callStep (sumOps L (refOps orderT (newNode n) (liveOps orderT L n))) D' (.inr r) call =
            .inr (callStep (refOps orderT (newNode n) (liveOps orderT L n)) D' r call) := by
          cases call with
          | update force => rfl
          | read op => cases op <;> rfl
        rw [e]
        obtain ⟨h1, h2⟩ := refCall_inv (O := liveOps orderT L n) (mk := newNode n) hoT (fun p t => newNode_spec hb n p t) ih r call hx
        exact ⟨by simp only [partSite, h1], h2⟩
    have hcomp := fun c call h => compound_inv (O := sumOps L (refOps orderT (newNode n) (liveOps orderT L n))) (w := D')
      (I := PartInv D (NodeInv D n)) (g := partSite) hpart c call h
    cases call with
    | update force => exact stateUse_inv hb _ (fun c hc => hcomp c (.update force) hc) h
    | read op =>
      cases op with
      | has sha => exact stateUse_inv hb _ (fun c hc => hcomp c (.read (.has sha)) hc) h
      | get sha => exact stateUse_inv hb _ (fun c hc => hcomp c (.read (.get sha)) hc) h
      | size => exact stateUse_inv hb _ (fun c hc => hcomp c (.read .size) hc) h
      | shas => exact stateUse_inv hb _ (fun c hc => hcomp c (.read .shas) hc) h

/-! ## What a repository finds -/

/-- What a part finds; `C` is what the repositories referred to find. -/
def PartHas (order : List Bytes → List Bytes) (C : Disk → σ → Bytes → Prop) (D : Disk) (x : GitLeaf ⊕ RefNode σ) (sha : Bytes) : Prop :=
  match x with
  | .inl s => LeafHas order D s sha
  | .inr r => ∃ l, r.db.dbs = some l ∧ ∃ y ∈ l, C D y.2 sha

/-- Good states of a part; `K` are those of the databases at the ends. -/
def PartOk (K : Disk → GitLeaf → Prop) (Ok : Disk → σ → Prop) (C : Disk → σ → Bytes → Prop) (D : Disk) (x : GitLeaf ⊕ RefNode σ) : Prop :=
  match x with
  | .inl s => K D s
  | .inr r => ∃ l, r.db.dbs = some l ∧ CompoundOk (fun D y => Ok D y.2) (fun D y => C D y.2) D { dbs := l, cache := r.db.cache }

/-- What a repository finds. -/
def LiveHas (order : List Bytes → List Bytes) : (n : Nat) → Disk → GitNode n → Bytes → Prop
  | 0, _, _, _ => False
  | n + 1, D, t, sha => ∃ l, GitState.dbs t = some l ∧ ∃ x ∈ l, PartHas order (LiveHas order n) D x sha

/-- Good states of a repository. -/
def LiveOk (K : Disk → GitLeaf → Prop) (order : List Bytes → List Bytes) : (n : Nat) → Disk → GitNode n → Prop
  | 0, _, _ => False
  | n + 1, D, t => ∃ l, GitState.dbs t = some l ∧
      CompoundOk (PartOk K (LiveOk K order n) (LiveHas order n)) (PartHas order (LiveHas order n)) D { dbs := l, cache := GitState.cache t }

theorem pair_locates {O : DbOps ω σ α} {Ok : ω → σ → Prop} {C : ω → σ → Bytes → Prop} (hO : Locates O Ok C) :
    Locates (pairOps O) (fun w y => Ok w y.2) (fun w y => C w y.2) where
  has := fun h => hO.has h
  yes := fun h => hO.yes h
  ok := fun h op => by have := hO.ok h op; cases op <;> exact this
  same := fun h op sha => by have := hO.same h op sha; cases op <;> exact this

theorem refUse_loaded {order : List Text → List Text} {mk : Disk → Text → Option σ} {D : Disk}
    {f : Compound (Text × σ) → Compound (Text × σ) × Res β} {r : RefNode σ} {l : Refs σ} (h : r.db.dbs = some l) :
    r.use order mk D f = (⟨r.root, ⟨some (f ⟨l, r.db.cache⟩).1.dbs, (f ⟨l, r.db.cache⟩).1.cache⟩⟩, (f ⟨l, r.db.cache⟩).2) := by
  unfold RefNode.use RefDB.load
  simp only [h]

theorem ref_locates {O : DbOps Disk σ α} {Ok : Disk → σ → Prop} {C : Disk → σ → Bytes → Prop} (hO : Locates O Ok C)
    (order : List Text → List Text) (mk : Disk → Text → Option σ) :
    Locates (refOps order mk O)
      (fun D r => ∃ l, r.db.dbs = some l ∧ CompoundOk (fun D y => Ok D y.2) (fun D y => C D y.2) D { dbs := l, cache := r.db.cache })
      (fun D r sha => ∃ l, r.db.dbs = some l ∧ ∃ y ∈ l, C D y.2 sha) := by
  have hc := compound_locates (pair_locates hO)
  have step : ∀ {D : Disk} {r : RefNode σ} {l : Refs σ} (op : DbOp), r.db.dbs = some l → (dbStep (refOps order mk O) D r op).db =
      { dbs := some (dbStep (compoundOps (pairOps O)) D { dbs := l, cache := r.db.cache } op).dbs,
        cache := (dbStep (compoundOps (pairOps O)) D { dbs := l, cache := r.db.cache } op).cache } := by
    intro D r l op h
    cases op <;> simp only [dbStep, refOps, refUse_loaded h, compoundOps]
  refine ⟨?_, ?_, ?_, ?_⟩
  · rintro D r ⟨l, h1, h2⟩ sha hne
    obtain ⟨b, e1, e2⟩ := hc.has h2 sha hne
    refine ⟨b, ?_, e2.trans ⟨fun h => ⟨l, h1, h⟩, fun ⟨l', h', h⟩ => ?_⟩⟩
    · show (r.use order mk D _).2 = _
      rw [refUse_loaded h1]
      exact e1
    · rw [h1] at h'; cases h'; exact h
  · rintro D r ⟨l, h1, h2⟩ sha hy
    refine ⟨l, h1, hc.yes h2 sha ?_⟩
    have hy : (r.use order mk D fun c => c.has (pairOps O) D sha).2 = .ok true := hy
    rw [refUse_loaded h1] at hy
    exact hy
  · rintro D r ⟨l, h1, h2⟩ op
    rw [step op h1]
    exact ⟨_, rfl, hc.ok h2 op⟩
  · rintro D r ⟨l, h1, h2⟩ op sha
    rw [step op h1]
    have := hc.same h2 op sha
    constructor
    · rintro ⟨l', h', h⟩
      cases h'
      exact ⟨l, h1, this.mp h⟩
    · rintro ⟨l', h', h⟩
      rw [h1] at h'
      cases h'
      exact ⟨_, rfl, this.mpr h⟩

theorem stateUse_loaded {D : Disk} {f : Compound (GitLeaf ⊕ RefNode σ) → Compound (GitLeaf ⊕ RefNode σ) × Res β}
    {g : GitState σ} {l : List (GitLeaf ⊕ RefNode σ)} (h : g.dbs = some l) :
    g.use D f = (⟨g.root, some (f ⟨l, g.cache⟩).1.dbs, (f ⟨l, g.cache⟩).1.cache⟩, (f ⟨l, g.cache⟩).2) := by
  unfold GitState.use GitState.load
  simp only [h]

theorem part_locates {L : DbOps Disk GitLeaf α} {K : Disk → GitLeaf → Prop} {order : List Bytes → List Bytes}
    (hL : Locates L K (LeafHas order))
    {O : DbOps Disk (RefNode σ) α} {Ok : Disk → σ → Prop} {C : Disk → σ → Bytes → Prop}
    (hO : Locates O
      (fun D r => ∃ l, r.db.dbs = some l ∧ CompoundOk (fun D y => Ok D y.2) (fun D y => C D y.2) D { dbs := l, cache := r.db.cache })
      (fun D r sha => ∃ l, r.db.dbs = some l ∧ ∃ y ∈ l, C D y.2 sha)) :
    Locates (sumOps L O) (PartOk K Ok C) (PartHas order C) := by
  have h := sum_locates hL hO
  refine ⟨?_, ?_, ?_, ?_⟩
  · rintro w (s | c) ha
    · exact h.has (s := .inl s) ha
    · exact h.has (s := .inr c) ha
  · rintro w (s | c) ha
    · exact h.yes (s := .inl s) ha
    · exact h.yes (s := .inr c) ha
  · rintro w (s | c) ha op
    · have := h.ok (s := .inl s) ha op
      cases op <;> exact this
    · have := h.ok (s := .inr c) ha op
      cases op <;> exact this
  · rintro w (s | c) ha op sha
    · have := h.same (s := .inl s) ha op sha
      cases op <;> exact this
    · have := h.same (s := .inr c) ha op sha
      cases op <;> exact this

theorem live_locates {L : DbOps Disk GitLeaf α} {K : Disk → GitLeaf → Prop} {order : List Bytes → List Bytes}
    (hL : Locates L K (LeafHas order))
    (orderT : List Text → List Text) : ∀ n, Locates (liveOps orderT L n) (LiveOk K order n) (LiveHas order n)
  | 0 => ⟨fun h => h.elim, fun h => h.elim, fun h => h.elim, fun h => h.elim⟩
  | n + 1 => by
    have hc := compound_locates (part_locates hL (ref_locates (live_locates hL orderT n) orderT (newNode n)))
    have step : ∀ {D : Disk} {g : GitState (GitNode n)} {l : List (GitLeaf ⊕ RefNode (GitNode n))} (op : DbOp), g.dbs = some l →
        (dbStep (liveOps orderT L (n + 1)) D g op : GitState (GitNode n)) = { g with
          dbs := some (dbStep (compoundOps (sumOps L (refOps orderT (newNode n) (liveOps orderT L n)))) D { dbs := l, cache := g.cache } op).dbs
          cache := (dbStep (compoundOps (sumOps L (refOps orderT (newNode n) (liveOps orderT L n)))) D { dbs := l, cache := g.cache } op).cache } := by
      intro D g l op h
      cases op <;> simp only [dbStep, liveOps, stateOps, stateUse_loaded h, compoundOps]
    refine ⟨?_, ?_, ?_, ?_⟩
    · rintro D g ⟨l, h1, h2⟩ sha hne
      obtain ⟨b, e1, e2⟩ := hc.has h2 sha hne
      refine ⟨b, ?_, e2.trans ⟨fun h => ⟨l, h1, h⟩, fun ⟨l', h', h⟩ => ?_⟩⟩
      · show (GitState.use D _ g).2 = _
        rw [stateUse_loaded h1]
        exact e1
      · rw [h1] at h'; cases h'; exact h
    · rintro D g ⟨l, h1, h2⟩ sha hy
      refine ⟨l, h1, hc.yes h2 sha ?_⟩
      have hy : (GitState.use D (fun c => c.has (sumOps L (refOps orderT (newNode n) (liveOps orderT L n))) D sha) g).2 = .ok true := hy
      rw [stateUse_loaded h1] at hy
      exact hy
    · rintro D g ⟨l, h1, h2⟩ op
      refine Eq.mpr (congrArg (fun g : GitState (GitNode n) => LiveOk K order (n + 1) D g) (step op h1)) ?_
      exact ⟨_, rfl, hc.ok h2 op⟩
    · rintro D g ⟨l, h1, h2⟩ op sha
      refine Eq.mpr (congrArg (fun g' : GitState (GitNode n) => (LiveHas order (n + 1) D g' sha ↔ LiveHas order (n + 1) D g sha))
        (step op h1)) ?_
      have := hc.same h2 op sha
      constructor
      · rintro ⟨l', h', h⟩
        cases h'
        exact ⟨l, h1, this.mp h⟩
      · rintro ⟨l', h', h⟩
        rw [h1] at h'
        cases h'
        exact ⟨_, rfl, this.mpr h⟩

/-! ## Refreshing -/

theorem eachDb_all {f : σ → σ × Res β} : ∀ (l : List σ), (∀ s ∈ l, ∃ y, (f s).2 = .ok y) →
    (eachDb f l).1 = l.map (fun s => (f s).1) ∧ ∃ ys, (eachDb f l).2 = .ok ys
  | [], _ => ⟨rfl, [], rfl⟩
  | s :: l, h => by
    obtain ⟨y, hy⟩ := h s (by simp)
    obtain ⟨h1, ys, h2⟩ := eachDb_all l fun t ht => h t (by simp [ht])
    unfold eachDb
    rcases hs : f s with ⟨s', e | x⟩
    · rw [hs] at hy; cases hy
    · simp only
      rcases hq : eachDb f l with ⟨l', e | xs⟩
      · rw [hq] at h2; cases h2
      · rw [hq] at h1
        simp only at h1
        subst h1
        exact ⟨by simp only [List.map_cons, hs], _, rfl⟩

theorem update_all {O : DbOps ω σ α} {w : ω} (c : Compound σ) (force : Bool) (h : ∀ s ∈ c.dbs, ∃ y, (O.update w s force).2 = .ok y) :
    (c.update O w force).1 = { dbs := c.dbs.map (fun s => (O.update w s force).1), cache := [] } ∧
      ∃ b, (c.update O w force).2 = .ok (some b) := by
  obtain ⟨h1, ys, h2⟩ := eachDb_all (f := fun s => O.update w s force) c.dbs h
  unfold Compound.update
  simp only
  rw [h1, h2]
  exact ⟨rfl, _, rfl⟩

/-- The objects in a repository without its alternates: listed by the index of a pack, or with a file. -/
def SiteNow (D : Disk) (q : Text) (sha : Bytes) : Prop := (∃ d, D.pack q = some d ∧ InPacks d sha) ∨ LooseThere D q sha

theorem before_refl {D : Disk} (h : ∀ q d, D.pack q = some d → GoodDir d) : Before D D where
  pack := fun _ => rfl
  loose := fun _ => rfl
  alt := fun _ => rfl
  wf := fun q d hd => (h q d hd).1
  same := fun q d d' name c c' h1 h2 h3 h4 => by
    rw [h1] at h2; cases h2
    rw [h3] at h4; cases h4; rfl
  keep := fun q x x' h1 h2 sha h3 => by rw [h1] at h2; cases h2; exact h3

theorem looseThere_at {D : Disk} {r : Text} (sha : Bytes) :
    ((D.looseAt r).1 (objectPath (binToHex sha))).isSome = true ↔ LooseThere D r sha := by
  unfold Disk.looseAt LooseThere
  rcases hx : D.loose r with _ | x <;> simp

theorem gitDbs_why {D : Disk} (p : Text) : ∀ b ∈ (gitDbs D p).1,
    (b = .pack → (D.pack p).isSome = true) ∧ (b = .ref → (D.alt p).isSome = true) := by
  intro b hb
  have e : (gitDbs D p).1 = (if (D.pack p).isSome then [Sub.pack] else []) ++ (if (D.loose p).isSome then [.loose] else []) ++
      (if (D.alt p).isSome then [.ref] else []) := by
    unfold gitDbs
    simp only
    generalize ((if (D.pack p).isSome = true then [Sub.pack] else []) ++ (if (D.loose p).isSome = true then [.loose] else []) ++
      (if (D.alt p).isSome = true then [.ref] else [])) = L
    split
    · rfl
    · split <;> rfl
  rw [e, List.mem_append, List.mem_append] at hb
  rcases hb with (hb | hb) | hb <;> split at hb <;> simp only [List.mem_singleton, List.not_mem_nil] at hb
  · subst hb; exact ⟨fun _ => by assumption, fun h => (nomatch h)⟩
  · subst hb; exact ⟨fun h => (nomatch h), fun h => (nomatch h)⟩
  · subst hb; exact ⟨fun h => (nomatch h), fun _ => by assumption⟩

theorem ref_refreshed {K : Disk → GitLeaf → Prop} {order : List Bytes → List Bytes} {orderT : List Text → List Text} (hoT : ∀ l, (orderT l).Perm l)
    {D : Disk} (hr : Readable D) {O : DbOps Disk σ α} {Ok : Disk → σ → Prop} {C : Disk → σ → Bytes → Prop} {I : Text → σ → Prop}
    {mk : Disk → Text → Option σ} (hm : ∀ p t, mk D p = some t → (D.loose p).isSome = true ∧ I p t)
    (hm' : ∀ p, (D.loose p).isSome = true → ∃ t, mk D p = some t) {p : Text} {W : Text → Bytes → Prop}
    (hO : ∀ q s, Alt D p q → I q s → (∃ y, (O.update D s true).2 = .ok y) ∧ Ok D (O.update D s true).1 ∧
      ∀ sha, C D (O.update D s true).1 sha ↔ W q sha)
    {r : RefNode σ} (hroot : r.root = p) (ha : (D.alt p).isSome = true) (h : PartInv D I (.inr r)) :
    (∃ y, ((refOps orderT mk O).update D r true).2 = .ok y) ∧
    PartOk K Ok C D (.inr ((refOps orderT mk O).update D r true).1) ∧
    ∀ sha, PartHas order C D (.inr ((refOps orderT mk O).update D r true).1) sha ↔ ∃ q, Alt D p q ∧ W q sha := by
  obtain ⟨f, hf⟩ := Option.isSome_iff_exists.mp ha
  obtain ⟨txt, rfl⟩ := hr p f hf
  have hfile : D.altFile r.root = .ok txt := by unfold Disk.altFile; rw [hroot, hf]; rfl
  obtain ⟨paths, hp1, hp2⟩ := refPaths_spec txt
  have halt : ∀ q, Alt D p q ↔ q ∈ paths ∧ (D.loose q).isSome = true := by
    intro q
    constructor
    · rintro ⟨t', paths', e, h3, h4, h5⟩
      rw [hf] at e
      cases e
      have : paths' = paths := by
        have := (refPaths_iff txt paths').mpr h3
        rw [hp1] at this
        exact (Except.ok.inj this).symm
      subst this
      exact ⟨h4, h5⟩
    · rintro ⟨h1, h2⟩
      exact ⟨txt, paths, hf, hp2, h1, h2⟩
  -- loading
  obtain ⟨k1, k2, -⟩ := refLoad_inv hoT hm (D.altFile r.root) h
  have hload : ∃ l0, (r.db.load orderT (mk D) (D.altFile r.root)).2 = .ok l0 := by
    unfold RefDB.load
    rcases hl : r.db.dbs with _ | l
    · simp only
      rw [hfile, updateRefs_spec hoT (mk D) (.ok txt) paths hp1 [] (by simp)]
      exact ⟨_, rfl⟩
    · exact ⟨l, rfl⟩
  obtain ⟨l0, hl0⟩ := hload
  have hinv := k1 l0 (k2 l0 hl0)
  have hinv1 := updateRefs_inv hoT hm (.ok txt) hinv
  have hspec := updateRefs_spec hoT (mk D) (.ok txt) paths hp1 l0 hinv.1
  generalize hl1 : (updateRefs orderT (mk D) (.ok txt) l0).1 = l1 at hinv1
  have hl1' : updateRefs orderT (mk D) (.ok txt) l0 = (l1, .ok ()) := by
    rw [hspec] at hl1 ⊢
    simp only at hl1
    rw [hl1]
  have hmem : ∀ q, q ∈ l1.map Prod.fst ↔ Alt D p q := by
    intro q
    rw [halt, ← hl1, hspec]
    simp only [List.map_append, List.mem_append]
    constructor
    · rintro (hq | hq)
      · obtain ⟨y, hy, rfl⟩ := List.mem_map.mp hq
        rw [List.mem_filter] at hy
        exact ⟨by simpa using hy.2, (hinv.2 y hy.1).1⟩
      · obtain ⟨y, hy, rfl⟩ := List.mem_map.mp hq
        obtain ⟨x, hx, he⟩ := List.mem_filterMap.mp hy
        rw [List.mem_filter, mem_firsts] at hx
        rcases ht : mk D x with _ | t
        · rw [ht] at he; cases he
        · rw [ht] at he
          cases he
          exact ⟨hx.1.1, (hm x t ht).1⟩
    · rintro ⟨h1, h2⟩
      by_cases h3 : q ∈ l0.map Prod.fst
      · left
        obtain ⟨y, hy, rfl⟩ := List.mem_map.mp h3
        exact List.mem_map.mpr ⟨y, List.mem_filter.mpr ⟨hy, by simpa using h1⟩, rfl⟩
      · right
        obtain ⟨t, ht⟩ := hm' q h2
        refine List.mem_map.mpr ⟨(q, t), List.mem_filterMap.mpr ⟨q, ?_, by rw [ht]; rfl⟩, rfl⟩
        rw [List.mem_filter, mem_firsts]
        exact ⟨⟨h1, by simp⟩, by simpa using h3⟩
  have hrefresh : r.db.refresh orderT (mk D) (D.altFile r.root) = ({ dbs := some l1, cache := [] }, .ok ()) := by
    unfold RefDB.refresh
    rw [hfile, hp1]
    rw [hfile] at hl0
    simp only
    rcases hq : r.db.load orderT (mk D) (.ok txt) with ⟨db, x⟩
    rw [hq] at hl0
    simp only at hl0
    subst hl0
    simp only [hl1']
  have hup : (refOps orderT mk O).update D r true = RefNode.use orderT mk D (fun c => c.update (pairOps O) D true)
      { r with db := { dbs := some l1, cache := [] } } := by
    simp only [refOps, hrefresh]
  rw [hup, refUse_loaded (l := l1) rfl]
  have hall : ∀ y ∈ l1, (∃ z, ((pairOps O).update D y true).2 = .ok z) ∧ Ok D ((pairOps O).update D y true).1.2 ∧
      ∀ sha, C D ((pairOps O).update D y true).1.2 sha ↔ W y.1 sha := fun y hy =>
    hO y.1 y.2 ((hmem y.1).mp (List.mem_map_of_mem hy)) (hinv1.2 y hy).2
  obtain ⟨u1, b, u2⟩ := update_all (O := pairOps O) (w := D) ({ dbs := l1, cache := [] } : Compound (Text × σ)) true
    (fun y hy => (hall y hy).1)
  refine ⟨⟨some b, u2⟩, ?_, ?_⟩
  · refine ⟨_, rfl, ?_⟩
    simp only [u1]
    refine ⟨?_, by simp [nameGet]⟩
    intro y hy
    obtain ⟨y0, hy0, rfl⟩ := List.mem_map.mp hy
    exact (hall y0 hy0).2.1
  · intro sha
    simp only [PartHas, u1]
    constructor
    · rintro ⟨l, e, y, hy, hc⟩
      cases e
      obtain ⟨y0, hy0, rfl⟩ := List.mem_map.mp hy
      exact ⟨y0.1, (hmem y0.1).mp (List.mem_map_of_mem hy0), ((hall y0 hy0).2.2 sha).mp hc⟩
    · rintro ⟨q, hq, hw⟩
      obtain ⟨y0, hy0, rfl⟩ := List.mem_map.mp ((hmem q).mpr hq)
      exact ⟨_, rfl, _, List.mem_map_of_mem hy0, ((hall y0 hy0).2.2 sha).mpr hw⟩

/-- The databases at the ends, when they are up to date, and in one of the repositories `S`. -/
def LeafSeen (order : List Bytes → List Bytes) (S : Text → Prop) (D : Disk) (s : GitLeaf) : Prop :=
  (∀ q d, D.pack q = some d → GoodDir d) ∧ match s with
    | .stop => False
    | .pack r db => S r ∧ PackedReady order (D.pack r) db ∧ ∃ d, D.pack r = some d ∧ PackedNow d db
    | .loose r db => S r ∧ ∀ sha, binToHex sha ∈ db.known → LooseThere D r sha

theorem leafSeen_ok {order : List Bytes → List Bytes} {S : Text → Prop} {D : Disk} : ∀ {s : GitLeaf}, LeafSeen order S D s → LeafOk order D s
  | .stop, h => h.2
  | .pack _ _, h => h.2.2.1
  | .loose _ _, _ => trivial

theorem packedNow_step (zl : Zlib) (fuel : Nat) {order : List Bytes → List Bytes} (ho : ∀ l, (order l).Perm l) {d : PackDir} (hd : d.Wf)
    {db : PackedDB} (h : PackedNow d db) (op : DbOp) :
    PackedNow d (dbStep (packedOps order fun d db sha => db.stream fuel order d sha) (some d) db op) := by
  refine ⟨step_fits (Q := FileNow d) (dir := some d) zl ho (fun d' e => by cases e; exact hd) (fun p c hc => hc) h.1 fuel op, ?_⟩
  obtain ⟨l, hl, hp⟩ := h.2
  have key : ∀ op', ∃ l', (packStep zl order (some d) db op').entities = some l' ∧ ∀ p, p ∈ l'.map PackItem.path ↔ p ∈ d.packs := by
    intro op'
    obtain ⟨l0, l', k1, k2, k3, -⟩ := step_paths zl order (some d) db op'
    have : l0 = l := by
      unfold PackedDB.load at k1
      rw [hl] at k1
      rw [hl] at k1
      exact (Option.some.inj k1).symm
    subst this
    exact ⟨l', k2, fun p => k3.mem_iff.trans (hp p)⟩
  cases op with
  | has sha => exact key (.has sha)
  | get sha => exact key (.stream fuel sha)
  | size => exact key .size
  | shas => exact key .iter

theorem leafSeen_locates (zl : Zlib) (fuel : Nat) {order : List Bytes → List Bytes} (ho : ∀ l, (order l).Perm l)
    (getL : Fs → Bytes → Res OStream) (S : Text → Prop) :
    Locates (leafOps order (fun d db sha => db.stream fuel order d sha) getL) (LeafSeen order S) (LeafHas order) where
  has := fun h => (leaf_locates zl fuel order getL).has (leafSeen_ok h)
  yes := fun h => (leaf_locates zl fuel order getL).yes (leafSeen_ok h)
  same := fun h => (leaf_locates zl fuel order getL).same (leafSeen_ok h)
  ok := by
    rintro D s h op
    have h1 := (leaf_locates zl fuel order getL).ok (leafSeen_ok h) op
    cases s with
    | stop => exact h.2.elim
    | pack r db =>
      obtain ⟨hg, h2, -, d, hd, h3⟩ := h
      have h4 := packedNow_step zl fuel ho (hg r d hd).1 h3 op
      rw [← hd] at h4
      cases op <;> exact ⟨hg, h2, h1, d, hd, h4⟩
    | loose r db =>
      obtain ⟨hg, h2, h3⟩ := h
      have h4 := leafInv_call zl fuel ho getL (before_refl hg) (.loose r db) (.read op) h3
      cases op <;> exact ⟨hg, h2, h4⟩

theorem leaf_refreshed (fuel : Nat) {order : List Bytes → List Bytes} (ho : ∀ l, (order l).Perm l) (getL : Fs → Bytes → Res OStream)
    {D : Disk} (hg : ∀ q d, D.pack q = some d → GoodDir d) {Ok : Disk → σ → Prop} {C : Disk → σ → Bytes → Prop} {S : Text → Prop} {p : Text}
    (hS : S p) {b : Sub} (hb : b ∈ (gitDbs D p).1) {s : GitLeaf}
    (hs : partSite (σ := σ) (.inl s) = some (b, p)) (h : LeafInv D s) :
    (∃ y, ((leafOps order (fun d db sha => db.stream fuel order d sha) getL).update D s true).2 = .ok y) ∧
    PartOk (LeafSeen order S) Ok C D (.inl ((leafOps order (fun d db sha => db.stream fuel order d sha) getL).update D s true).1) ∧
    ∀ sha, PartHas order C D (.inl ((leafOps order (fun d db sha => db.stream fuel order d sha) getL).update D s true).1) sha ↔
      (b = .pack ∧ ∃ d, D.pack p = some d ∧ InPacks d sha) ∨ (b = .loose ∧ LooseThere D p sha) := by
  cases s with
  | stop => cases hs
  | pack r db =>
    cases hs
    have hp : (D.pack p).isSome = true := (gitDbs_why p _ hb).1 rfl
    obtain ⟨d, hd⟩ := Option.isSome_iff_exists.mp hp
    have h : PackedFits (FileSame d) db := by
      refine ⟨h.1, fun l hl it hit => ?_⟩
      obtain ⟨f1, c, f2, f3⟩ := h.2 l hl it hit
      exact ⟨fun c hc => f1 c hc d hd, c, f2, f3 d hd⟩
    obtain ⟨h1, h2, h4, h3⟩ := packed_refreshed ho (hg p d hd) h
    obtain ⟨l, hl, -⟩ := id h2
    have hload : (db.updateCache order (D.pack p) true).1.load order (D.pack p) = ((db.updateCache order (D.pack p) true).1, .ok l) := by
      rw [hd]
      unfold PackedDB.load
      rw [hl]
    refine ⟨⟨some true, ?_⟩, ?_, fun sha => ?_⟩
    · show (db.updateCache order (D.pack p) true).2.map some = _
      rw [hd, h1]; rfl
    · refine ⟨hg, hS, ?_, d, hd, ?_⟩
      · show PackedReady order (D.pack p) (db.updateCache order (D.pack p) true).1
        unfold PackedReady
        rw [hload, hd]
        exact ⟨⟨l, rfl⟩, h2⟩
      · rw [hd]; exact h4
    · show PackedHas (D.pack p) ((db.updateCache order (D.pack p) true).1.load order (D.pack p)).1 sha ↔ _
      rw [hload, hd]
      exact (h3 sha).trans ⟨fun h => .inl ⟨rfl, d, rfl, h⟩, fun h => by
        rcases h with ⟨-, d', e, h⟩ | ⟨e, -⟩
        · cases e; exact h
        · cases e⟩
  | loose r db =>
    cases hs
    refine ⟨⟨none, rfl⟩, ⟨hg, hS, h⟩, fun sha => ?_⟩
    show LooseHas (D.looseAt p) db sha ↔ _
    unfold LooseHas
    rw [looseThere_at]
    constructor
    · rintro (h' | h')
      · exact .inr ⟨rfl, h sha h'⟩
      · exact .inr ⟨rfl, h'⟩
    · rintro (⟨e, -⟩ | ⟨-, h'⟩)
      · cases e
      · exact .inr h'

theorem node_refreshed (fuel : Nat) {order : List Bytes → List Bytes} (ho : ∀ l, (order l).Perm l)
    {orderT : List Text → List Text} (hoT : ∀ l, (orderT l).Perm l) (getL : Fs → Bytes → Res OStream) {D : Disk}
    (hg : ∀ q d, D.pack q = some d → GoodDir d) (hr : Readable D) {rank : Text → Nat} (hrank : ∀ p q, Alt D p q → rank q < rank p)
    {S : Text → Prop} (hS : ∀ p q, Alt D p q → S p → S q) :
    ∀ (n : Nat) (p : Text) (t : GitNode n), rank p < n → S p → (D.loose p).isSome = true → NodeInv D n p t →
      let r := (liveOps orderT (leafOps order (fun d db sha => db.stream fuel order d sha) getL) n).update D t true
      (∃ b, r.2 = .ok (some b)) ∧ LiveOk (LeafSeen order S) order n D r.1 ∧ ∀ sha, LiveHas order n D r.1 sha ↔ ∃ q, AltReach D p q ∧ SiteNow D q sha
  | 0, _, _, h, _, _, _ => absurd h (Nat.not_lt_zero _)
  | n + 1, p, t, hn, hSp, hl, h => by
    have ih := node_refreshed fuel ho hoT getL hg hr hrank hS n
    have hbb := before_refl hg
    obtain ⟨g1, g2⟩ := gitLoad_inv hbb h
    have hok : (gitDbs D p).2 = .ok () := by
      have h' : (D.loose p).isNone = false := by
        rcases hx : D.loose p with _ | x
        · rw [hx] at hl; simp at hl
        · rfl
      unfold gitDbs
      simp [hl, h']
    have hload : ∃ l, (GitState.load D t).2 = .ok l := by
      unfold GitState.load
      have hroot : GitState.root t = p := h.1
      rcases GitState.dbs t with _ | l
      · simp only [hroot, hok]; exact ⟨_, rfl⟩
      · exact ⟨l, rfl⟩
    obtain ⟨l, hll⟩ := hload
    obtain ⟨k1, k2⟩ := g1.2 l (g2 l hll)
    have hsite : ∀ x ∈ l, ∃ b ∈ (gitDbs D p).1, partSite x = some (b, p) := by
      intro x hx
      have : partSite x ∈ (gitDbs D p).1.map (fun b => some (b, p)) := k1 ▸ List.mem_map_of_mem hx
      obtain ⟨b, hb, e⟩ := List.mem_map.mp this
      exact ⟨b, hb, e.symm⟩
    have hsite' : ∀ b ∈ (gitDbs D p).1, ∃ x ∈ l, partSite x = some (b, p) := by
      intro b hb
      have : some (b, p) ∈ l.map partSite := k1 ▸ List.mem_map_of_mem (f := fun b => some (b, p)) hb
      exact List.mem_map.mp this
    have hpart : ∀ x ∈ l, ∀ b ∈ (gitDbs D p).1, partSite x = some (b, p) →
        let r := (sumOps (leafOps order (fun d db sha => db.stream fuel order d sha) getL)
          (refOps orderT (newNode n) (liveOps orderT (leafOps order (fun d db sha => db.stream fuel order d sha) getL) n))).update D x true
        (∃ y, r.2 = .ok y) ∧ PartOk (LeafSeen order S) (LiveOk (LeafSeen order S) order n) (LiveHas order n) D r.1 ∧
        ∀ sha, PartHas order (LiveHas order n) D r.1 sha ↔
          (b = .pack ∧ ∃ d, D.pack p = some d ∧ InPacks d sha) ∨ (b = .loose ∧ LooseThere D p sha) ∨
          (b = .ref ∧ ∃ q, Alt D p q ∧ ∃ q', AltReach D q q' ∧ SiteNow D q' sha) := by
      rintro (s | r) hx b hb hs
      · obtain ⟨a1, a2, a3⟩ := leaf_refreshed (σ := GitNode n) fuel ho getL hg (Ok := LiveOk (LeafSeen order S) order n)
          (C := LiveHas order n) hSp hb hs
          (k2 _ hx)
        refine ⟨a1, a2, fun sha => (a3 sha).trans ⟨fun h => ?_, fun h => ?_⟩⟩
        · rcases h with h | h
          · exact .inl h
          · exact .inr (.inl h)
        · rcases h with h | h | ⟨h, -⟩
          · exact .inl h
          · exact .inr h
          · subst h
            cases s <;> cases hs
      · cases hs
        have ha : (D.alt r.root).isSome = true := (gitDbs_why _ _ hb).2 rfl
        obtain ⟨a1, a2, a3⟩ := ref_refreshed (K := LeafSeen order S) (order := order) hoT hr (O := liveOps orderT (leafOps order
          (fun d db sha => db.stream fuel order d sha) getL) n) (Ok := LiveOk (LeafSeen order S) order n) (C := LiveHas order n) (I := NodeInv D n)
          (mk := newNode n) (fun q t ht => newNode_spec hbb n q t ht) (fun q hq => newNode_some hq) (p := r.root)
          (W := fun q sha => ∃ q', AltReach D q q' ∧ SiteNow D q' sha)
          (fun q s hq hs => by
            obtain ⟨txt, paths, c1, c2, c3, c4⟩ := id hq
            obtain ⟨⟨b, b1⟩, b2, b3⟩ := ih q s (by have := hrank _ _ hq; omega) (hS _ _ hq hSp) c4 hs
            exact ⟨⟨_, b1⟩, b2, b3⟩) rfl ha (k2 _ hx)
        refine ⟨a1, a2, fun sha => (a3 sha).trans ⟨fun h => .inr (.inr ⟨rfl, h⟩), fun h => ?_⟩⟩
        rcases h with ⟨e, -⟩ | ⟨e, -⟩ | ⟨-, h⟩
        · cases e
        · cases e
        · exact h
    have hall := update_all (O := sumOps (leafOps order (fun d db sha => db.stream fuel order d sha) getL)
          (refOps orderT (newNode n) (liveOps orderT (leafOps order (fun d db sha => db.stream fuel order d sha) getL) n))) (w := D)
      ({ dbs := l, cache := (GitState.load D t).1.cache } : Compound (GitLeaf ⊕ RefNode (GitNode n))) true
      (fun x hx => by obtain ⟨b, hb, hs⟩ := hsite x hx; exact (hpart x hx b hb hs).1)
    obtain ⟨u1, b, u2⟩ := hall
    have huse : (liveOps orderT (leafOps order (fun d db sha => db.stream fuel order d sha) getL) (n + 1)).update D t true =
        ((⟨(GitState.load D t).1.root, some (l.map fun x => ((sumOps (leafOps order (fun d db sha => db.stream fuel order d sha) getL)
          (refOps orderT (newNode n) (liveOps orderT (leafOps order (fun d db sha => db.stream fuel order d sha) getL) n))).update D x true).1),
          []⟩ : GitState (GitNode n)), .ok (some b)) := by
      show GitState.use D (fun c => c.update (sumOps (leafOps order (fun d db sha => db.stream fuel order d sha) getL)
          (refOps orderT (newNode n) (liveOps orderT (leafOps order (fun d db sha => db.stream fuel order d sha) getL) n))) D true) t = _
      unfold GitState.use
      rcases hq : GitState.load D t with ⟨g, x⟩
      rw [hq] at hll u1 u2
      simp only at hll
      subst hll
      simp only at u1 u2 ⊢
      rw [u1, u2]
    intro r
    have hr' : r = _ := huse
    rw [hr']
    refine ⟨⟨b, rfl⟩, ⟨_, rfl, ?_, by simp [nameGet]⟩, fun sha => ?_⟩
    · intro x hx
      obtain ⟨x0, hx0, rfl⟩ := List.mem_map.mp hx
      obtain ⟨b, hb, hs⟩ := hsite x0 hx0
      exact (hpart x0 hx0 b hb hs).2.1
    · constructor
      · rintro ⟨l', e, x, hx, hc⟩
        cases e
        obtain ⟨x0, hx0, rfl⟩ := List.mem_map.mp hx
        obtain ⟨b, hb, hs⟩ := hsite x0 hx0
        rcases ((hpart x0 hx0 b hb hs).2.2 sha).mp hc with ⟨-, h⟩ | ⟨-, h⟩ | ⟨-, q, h1, q', h2, h3⟩
        · exact ⟨p, .refl p, .inl h⟩
        · exact ⟨p, .refl p, .inr h⟩
        · exact ⟨q', .step h1 h2, h3⟩
      · have fin : ∀ T : GitState (GitNode n), T.dbs = some (l.map fun x => ((sumOps (leafOps order (fun d db sha => db.stream fuel order d
            sha) getL) (refOps orderT (newNode n) (liveOps orderT (leafOps order (fun d db sha => db.stream fuel order d sha) getL)
            n))).update D x true).1) → ∀ b ∈ (gitDbs D p).1, ((b = .pack ∧ ∃ d, D.pack p = some d ∧ InPacks d sha) ∨ (b = .loose ∧ LooseThere D p sha) ∨
            (b = .ref ∧ ∃ q, Alt D p q ∧ ∃ q', AltReach D q q' ∧ SiteNow D q' sha)) → LiveHas order (n + 1) D T sha := by
          intro T hT b hb hw
          obtain ⟨x, hx, hs⟩ := hsite' b hb
          exact ⟨_, hT, _, List.mem_map_of_mem hx, ((hpart x hx b hb hs).2.2 sha).mpr hw⟩
        rintro ⟨q, hq, hs⟩
        cases hq with
        | refl =>
          rcases hs with ⟨d, hd, h⟩ | h
          · exact fin _ rfl .pack (by rw [gitDbs_of_loose hl, hd]; simp) (.inl ⟨rfl, d, hd, h⟩)
          · exact fin _ rfl .loose (by rw [gitDbs_of_loose hl]; simp) (.inr (.inl ⟨rfl, h⟩))
        | step h1 h2 =>
          refine fin _ rfl .ref ?_ (.inr (.inr ⟨rfl, _, h1, _, h2, hs⟩))
          obtain ⟨txt, paths, c1, -⟩ := h1
          rw [gitDbs_of_loose hl, c1]
          simp

theorem nodeInv_past (zl : Zlib) (fuel : Nat) {order : List Bytes → List Bytes} (ho : ∀ l, (order l).Perm l)
    {orderT : List Text → List Text} (hoT : ∀ l, (orderT l).Perm l) (getL : Fs → Bytes → Res OStream) {D : Disk}
    (n : Nat) (p : Text) (past : List (Disk × LiveCall)) (hpast : ∀ e ∈ past, Before D e.1) :
    NodeInv D n p (past.foldl (fun t e => callStep (liveOps orderT (leafOps order (fun d db sha => db.stream fuel order d sha) getL) n)
      e.1 t e.2) (freshNode n p)) := by
  have h0 : NodeInv D n p (freshNode n p) := by
    cases n with
    | zero => trivial
    | succ n => exact ⟨rfl, fun l hl => by cases hl⟩
  suffices ∀ (past : List (Disk × LiveCall)) (t0 : GitNode n), (∀ e ∈ past, Before D e.1) → NodeInv D n p t0 →
      NodeInv D n p (past.foldl (fun t e => callStep (liveOps orderT (leafOps order (fun d db sha => db.stream fuel order d sha) getL) n) e.1 t e.2) t0) from this past _ hpast h0
  intro past
  induction past with
  | nil => exact fun _ _ h => h
  | cons e past ih =>
    intro t0 hp h
    exact ih _ (fun e' he' => hp e' (by simp [he'])) (nodeInv_call hoT (hp e (by simp)) (fun s call hs =>
      ⟨leafSite_call s call, leafInv_call zl fuel ho getL (hp e (by simp)) s call hs⟩) n p t0 e.2 h)

/-! ## C81 -/

/-- **C81 (`update_cache(force=True)` brings a `GitDB` up to date).**  A `GitDB` is used for any time, with any calls, while packs and
alternates come and go.  Then `update_cache(True)` succeeds, and from then on `has_object` answers exactly whether the object is now
in the repository or one that can be reached through alternates, in a pack or as a file. -/
theorem C81_refresh (zl : Zlib) (fuel : Nat) {order : List Bytes → List Bytes} (ho : ∀ l, (order l).Perm l)
    {orderT : List Text → List Text} (hoT : ∀ l, (orderT l).Perm l) (getL : Fs → Bytes → Res OStream) {D : Disk}
    (hg : ∀ q d, D.pack q = some d → GoodDir d) (hr : Readable D) {rank : Text → Nat} (hrank : ∀ p q, Alt D p q → rank q < rank p)
    (n : Nat) (p : Text) (hn : rank p < n) (hl : (D.loose p).isSome = true) (past : List (Disk × LiveCall))
    (hpast : ∀ e ∈ past, Before D e.1) (reads : List DbOp) (sha : Bytes) (hne : sha ≠ []) :
    let O := liveOps orderT (leafOps order (fun d db sha => db.stream fuel order d sha) getL) n
    let t := past.foldl (fun t e => callStep O e.1 t e.2) (freshNode n p)
    (∃ b, (O.update D t true).2 = .ok (some b)) ∧
    ∃ b, (O.has D (reads.foldl (dbStep O D) (O.update D t true).1) sha).2 = .ok b ∧
      (b = true ↔ ∃ q, AltReach D p q ∧ SiteNow D q sha) := by
  intro O t
  have hinv : NodeInv D n p t := nodeInv_past zl fuel ho hoT getL n p past hpast
  obtain ⟨h1, h2, h3⟩ := node_refreshed fuel ho hoT getL hg hr hrank (S := fun _ => True) (fun _ _ _ _ => trivial) n p t hn
    trivial hl hinv
  have hloc := live_locates (leafSeen_locates zl fuel ho getL fun _ => True) orderT n
  have hrun : ∀ (reads : List DbOp) (t0 : GitNode n), LiveOk (LeafSeen order fun _ => True) order n D t0 →
      LiveOk (LeafSeen order fun _ => True) order n D (reads.foldl (dbStep O D) t0) ∧
      (LiveHas order n D (reads.foldl (dbStep O D) t0) sha ↔ LiveHas order n D t0 sha) := by
    intro reads
    induction reads with
    | nil => exact fun _ h => ⟨h, Iff.rfl⟩
    | cons op reads ih =>
      intro t0 h
      obtain ⟨k1, k2⟩ := ih _ (hloc.ok h op)
      exact ⟨k1, k2.trans (hloc.same h op sha)⟩
  obtain ⟨k1, k2⟩ := hrun reads _ h2
  obtain ⟨b, e1, e2⟩ := hloc.has k1 sha hne
  exact ⟨h1, b, e1, e2.trans (k2.trans (h3 sha))⟩

/-! ### Parts that are created later -/

/-- A repository with a loose database only, which has not seen the object. -/
def OnlyLoose (p : Text) (sha : Bytes) (c : Compound (GitLeaf ⊕ RefNode σ)) : Prop :=
  ∃ db : LooseDB, c.dbs = [.inl (.loose p db)] ∧ binToHex sha ∉ db.known ∧ nameGet sha c.cache = none

theorem onlyLoose_query {order : List Bytes → List Bytes} {getP : Option PackDir → PackedDB → Bytes → PackedDB × Res α}
    {getL : Fs → Bytes → Res α} {P : DbOps Disk (RefNode σ) α} {D : Disk} {p : Text} {sha : Bytes} (hD : ¬ LooseThere D p sha)
    {c : Compound (GitLeaf ⊕ RefNode σ)} (h : OnlyLoose p sha c) (x : Bytes) :
    OnlyLoose p sha (c.query (sumOps (leafOps order getP getL) P) D x).1 ∧
      (x = sha → (c.query (sumOps (leafOps order getP getL) P) D x).2 = .error .badObject) := by
  obtain ⟨db, h1, h2, h3⟩ := h
  have hfile : ((D.looseAt p).1 (objectPath (binToHex sha))).isSome = false := by
    rw [← Bool.not_eq_true]
    exact fun h => hD ((looseThere_at sha).mp h)
  unfold Compound.query
  rcases hc : nameGet x c.cache with _ | i
  · simp only [h1, scanDbs, sumOps, leafOps, looseOps, LooseDB.hasObject, LooseDB.readablePath]
    by_cases hk : binToHex x ∈ db.known
    · have hx : x ≠ sha := fun e => h2 (e ▸ hk)
      simp only [hk, if_true]
      exact ⟨⟨db, rfl, h2, by rw [nameGet_set_other _ (Ne.symm hx)]; exact h3⟩, fun e => absurd e hx⟩
    · by_cases hf : ((D.looseAt p).1 (objectPath (binToHex x))).isSome = true
      · have hx : x ≠ sha := by
          rintro rfl
          rw [hfile] at hf; cases hf
        simp only [hk, hf, if_true, if_false]
        refine ⟨⟨_, rfl, ?_, by rw [nameGet_set_other _ (Ne.symm hx)]; exact h3⟩, fun e => absurd e hx⟩
        simp only [List.mem_cons, not_or]
        refine ⟨fun e => hx ?_, h2⟩
        have := congrArg hexToBin e
        rw [hexToBin_binToHex, hexToBin_binToHex] at this
        exact (Except.ok.inj this).symm
      · simp only [hk, hf, if_false]
        exact ⟨⟨db, rfl, h2, h3⟩, fun _ => rfl⟩
  · refine ⟨⟨db, h1, h2, h3⟩, ?_⟩
    rintro rfl
    rw [h3] at hc
    cases hc

theorem onlyLoose_call {order : List Bytes → List Bytes} {getP : Option PackDir → PackedDB → Bytes → PackedDB × Res α}
    {getL : Fs → Bytes → Res α} {P : DbOps Disk (RefNode σ) α} {D : Disk} {p : Text} {sha : Bytes} (hD : ¬ LooseThere D p sha)
    {c : Compound (GitLeaf ⊕ RefNode σ)} (h : OnlyLoose p sha c) (call : LiveCall) :
    OnlyLoose p sha (callStep (compoundOps (sumOps (leafOps order getP getL) P)) D c call) := by
  cases call with
  | update force =>
    obtain ⟨db, h1, h2, h3⟩ := h
    refine ⟨db, ?_, h2, rfl⟩
    simp only [callStep, compoundOps, Compound.update, h1, eachDb, sumOps, leafOps, looseOps]
  | read op =>
    cases op with
    | has x =>
      have h4 := (onlyLoose_query (order := order) (getP := getP) (getL := getL) (P := P) hD h x).1
      simp only [callStep, dbStep, compoundOps, Compound.has]
      rcases hq : c.query (sumOps (leafOps order getP getL) P) D x with ⟨c', e | i⟩
      · rw [hq] at h4
        cases e <;> exact h4
      · rw [hq] at h4; exact h4
    | get x =>
      have h4 := (onlyLoose_query (order := order) (getP := getP) (getL := getL) (P := P) hD h x).1
      simp only [callStep, dbStep, compoundOps, Compound.get]
      rcases hq : c.query (sumOps (leafOps order getP getL) P) D x with ⟨c', e | i⟩
      · rw [hq] at h4; exact h4
      · rw [hq] at h4
        obtain ⟨db, h1, h2, h3⟩ := h4
        refine ⟨db, ?_, h2, h3⟩
        have h1 : c'.dbs = [.inl (.loose p db)] := h1
        simp only [h1]
        rcases i with _ | i <;> rfl
    | size =>
      obtain ⟨db, h1, h2, h3⟩ := h
      refine ⟨db, ?_, h2, h3⟩
      simp only [callStep, dbStep, compoundOps, Compound.size, h1, eachDb, sumOps, leafOps, looseOps]
      rcases shaCount (shaIter (D.looseAt p).2) with e | k <;> rfl
    | shas =>
      obtain ⟨db, h1, h2, h3⟩ := h
      refine ⟨db, ?_, h2, h3⟩
      simp only [callStep, dbStep, compoundOps, Compound.shas, h1, eachDb, sumOps, leafOps, looseOps]
      rcases List.mapM id (shaIter (D.looseAt p).2) with e | k <;> rfl

/-- **C81 (parts created later are never noticed).**  A `GitDB` is used for the first time when the repository has neither a directory
of packs nor alternates.  From then on, whatever is on the disk and whatever is called, `update_cache(True)` included, `has_object`
answers `False` for every object that has no file of its own. -/
theorem C81_late (fuel : Nat) (order : List Bytes → List Bytes) (orderT : List Text → List Text) (getL : Fs → Bytes → Res OStream)
    (D0 : Disk) (p : Text) (h0 : (D0.loose p).isSome = true) (h1 : D0.pack p = none) (h2 : D0.alt p = none) (first : LiveCall)
    (sha : Bytes) (hD0 : ¬ LooseThere D0 p sha) (later : List (Disk × LiveCall)) (hlater : ∀ e ∈ later, ¬ LooseThere e.1 p sha)
    (D : Disk) (hD : ¬ LooseThere D p sha) (n : Nat) :
    let O := liveOps orderT (leafOps order (fun d db sha => db.stream fuel order d sha) getL) (n + 1)
    (O.has D (later.foldl (fun t e => callStep O e.1 t e.2) (callStep O D0 (freshNode (n + 1) p) first)) sha).2 = .ok false := by
  intro O
  have hcall : ∀ (D : Disk) (g : GitState (GitNode n)) (call : LiveCall) (l), g.dbs = some l →
      (callStep O D g call : GitState (GitNode n)) = ⟨g.root,
        some (callStep (compoundOps (sumOps (leafOps order (fun d db sha => db.stream fuel order d sha) getL)
          (refOps orderT (newNode n) (liveOps orderT (leafOps order (fun d db sha => db.stream fuel order d sha) getL) n))))
          D ⟨l, g.cache⟩ call).dbs,
        (callStep (compoundOps (sumOps (leafOps order (fun d db sha => db.stream fuel order d sha) getL)
          (refOps orderT (newNode n) (liveOps orderT (leafOps order (fun d db sha => db.stream fuel order d sha) getL) n))))
          D ⟨l, g.cache⟩ call).cache⟩ := by
    intro D g call l hl
    cases call with
    | update force => simp only [callStep, O, liveOps, stateOps, stateUse_loaded hl, compoundOps]
    | read op => cases op <;> simp only [callStep, dbStep, O, liveOps, stateOps, stateUse_loaded hl, compoundOps]
  have hload : GitState.load D0 ({ root := p } : GitState (GitNode n)) =
      ({ root := p, dbs := some [.inl (.loose p {})] }, .ok [.inl (.loose p {})]) := by
    have e1 := gitDbs_of_loose h0
    have e2 : (gitDbs D0 p).2 = .ok () := by
      have h' : (D0.loose p).isNone = false := by
        rcases hx : D0.loose p with _ | x
        · rw [hx] at h0; simp at h0
        · rfl
      unfold gitDbs
      simp [h0, h']
    rw [h1, h2] at e1
    unfold GitState.load newParts
    simp only [e1, e2]
    rfl
  have hfirst : (callStep O D0 (freshNode (n + 1) p) first : GitState (GitNode n)) =
      callStep O D0 ({ root := p, dbs := some [.inl (.loose p {})] } : GitState (GitNode n)) first := by
    have e : ∀ {β : Type} (f : Compound (GitLeaf ⊕ RefNode (GitNode n)) → Compound (GitLeaf ⊕ RefNode (GitNode n)) × Res β),
        GitState.use D0 f ({ root := p } : GitState (GitNode n)) =
          GitState.use D0 f ({ root := p, dbs := some [.inl (.loose p {})] } : GitState (GitNode n)) := by
      intro β f
      unfold GitState.use
      rw [hload]
      rfl
    cases first with
    | update force => simp only [callStep, O, liveOps, stateOps, freshNode, e]
    | read op => cases op <;> simp only [callStep, dbStep, O, liveOps, stateOps, freshNode, e]
  have hinv : ∀ (later : List (Disk × LiveCall)) (g : GitState (GitNode n)), (∀ e ∈ later, ¬ LooseThere e.1 p sha) →
      (∃ l, g.dbs = some l ∧ OnlyLoose p sha ⟨l, g.cache⟩) →
      ∃ l, GitState.dbs (later.foldl (fun t e => callStep O e.1 t e.2) g) = some l ∧
        OnlyLoose p sha ⟨l, GitState.cache (later.foldl (fun t e => callStep O e.1 t e.2) g)⟩ := by
    intro later
    induction later with
    | nil => exact fun g _ h => h
    | cons e later ih =>
      rintro g hl ⟨l, hg, h⟩
      refine ih _ (fun e' he' => hl e' (by simp [he'])) ?_
      refine Eq.mpr (congrArg (fun g : GitState (GitNode n) => ∃ l, g.dbs = some l ∧ OnlyLoose p sha ⟨l, g.cache⟩)
        (hcall e.1 g e.2 l hg)) ⟨_, rfl, onlyLoose_call (hl e (by simp)) h e.2⟩
  have hstart : ∃ l, GitState.dbs (callStep O D0 (freshNode (n + 1) p) first) = some l ∧
      OnlyLoose p sha ⟨l, GitState.cache (callStep O D0 (freshNode (n + 1) p) first)⟩ := by
    refine Eq.mpr (congrArg (fun g : GitState (GitNode n) => ∃ l, g.dbs = some l ∧ OnlyLoose p sha ⟨l, g.cache⟩)
      (hfirst.trans (hcall D0 _ first _ rfl))) ⟨_, rfl, onlyLoose_call hD0 ⟨{}, rfl, by simp, rfl⟩ first⟩
  have fin : ∀ (g : GitState (GitNode n)) (l), g.dbs = some l → OnlyLoose p sha ⟨l, g.cache⟩ → (O.has D g sha).2 = .ok false := by
    intro g l e1 e2
    show (GitState.use D (fun c => Compound.has (sumOps (leafOps order (fun d db sha => PackedDB.stream fuel order d db sha) getL)
      (refOps orderT (newNode n) (liveOps orderT (leafOps order (fun d db sha => db.stream fuel order d sha) getL) n))) D c sha) g).2 = _
    rw [stateUse_loaded e1]
    obtain ⟨-, k⟩ := onlyLoose_query (order := order) (getP := fun d db sha => PackedDB.stream fuel order d db sha) (getL := getL)
      (P := refOps orderT (newNode n) (liveOps orderT (leafOps order (fun d db sha => db.stream fuel order d sha) getL) n)) hD e2 sha
    have k := k rfl
    simp only [Compound.has]
    rcases hq : Compound.query (sumOps (leafOps order (fun d db sha => PackedDB.stream fuel order d db sha) getL)
      (refOps orderT (newNode n) (liveOps orderT (leafOps order (fun d db sha => db.stream fuel order d sha) getL) n))) D
      ⟨l, g.cache⟩ sha with ⟨c', r⟩
    rw [hq] at k
    simp only at k
    subst k
    rfl
  obtain ⟨l, e1, e2⟩ := hinv later _ hlater hstart
  exact fin _ l e1 e2

/-! ### A case -/

/-- `/a` with a directory of packs and an alternates file; `/b` has an object. -/
def liveDisk (d : PackDir) (alts : Text) : Disk where
  pack := fun p => if p = rootA then some d else none
  loose := fun p => if p = rootA then some (fun _ => none, []) else
    if p = rootB then some (fun q => if q = objectPath (binToHex [7]) then some (.file [1] 0o444) else none, []) else none
  alt := fun p => if p = rootA then some (.ok alts) else none

/-- The disk before: `/a` has neither packs nor alternates. -/
def bareDisk : Disk := { liveDisk ⟨0, []⟩ [] with pack := fun _ => none, alt := fun _ => none }

def bothPacks : PackDir := twoPacks 5 (indexV2 exEntries [] []) (indexV1 (exEntries.take 1) [] [])

theorem bothPacks_packs : bothPacks.packs = [nameA, nameB] := by
  unfold bothPacks
  generalize indexV2 exEntries [] [] = ia
  generalize indexV1 (exEntries.take 1) [] [] = ib
  rfl

theorem bothPacks_good : GoodDir bothPacks := by
  obtain ⟨h1, h2⟩ := twoPacks_usable 5 (indexV2 exEntries [] []) (indexV1 (exEntries.take 1) [] [])
  refine ⟨h1, fun p hp hn => ⟨h2 p hp hn, ?_⟩⟩
  have := (mem_packs bothPacks p).mpr ⟨hp, hn⟩
  rw [bothPacks_packs] at this
  simp only [List.mem_cons, List.not_mem_nil, or_false] at this
  rcases this with rfl | rfl
  · exact ⟨_, _, rfl, exEntries_isIndex⟩
  · exact ⟨_, _, rfl, exEntries1_isIndex⟩

theorem bothPacks_has : InPacks bothPacks (0xc0 :: List.replicate 19 1) := by
  obtain ⟨h1, h2⟩ := (mem_packs bothPacks nameA).mp (by rw [bothPacks_packs]; simp)
  exact ⟨nameA, h1, h2, _, _, rfl, exEntries_isIndex, by decide⟩

theorem liveDisk_good (d : PackDir) (hd : GoodDir d) (alts : Text) (q : Text) (d' : PackDir) (h : (liveDisk d alts).pack q = some d') :
    GoodDir d' := by
  simp only [liveDisk] at h
  split at h
  · cases h; exact hd
  · cases h

theorem liveDisk_readable (d : PackDir) (alts : Text) : Readable (liveDisk d alts) := by
  intro p r h
  simp only [liveDisk] at h
  split at h
  · cases h; exact ⟨_, rfl⟩
  · cases h

theorem liveDisk_rank (d : PackDir) (p q : Text) (h : Alt (liveDisk d (rootB ++ ['\n'])) p q) :
    (fun p => if p = rootA then 1 else 0) q < (fun p => if p = rootA then 1 else 0) p := by
  obtain ⟨t, ps, h, h2, h3, -⟩ := h
  simp only [liveDisk] at h
  split at h
  · rename_i hp
    have := (refPaths_iff t ps).mpr h2
    obtain rfl := Except.ok.inj (Option.some.inj h)
    rw [(refPaths_iff _ _).mpr (alternates_one rootB rootB_plain)] at this
    obtain rfl := Except.ok.inj this
    rw [List.mem_singleton] at h3
    subst h3
    rw [hp]
    decide
  · simp at h

theorem liveDisk_alt (d : PackDir) : Alt (liveDisk d (rootB ++ ['\n'])) rootA rootB :=
  ⟨_, _, rfl, alternates_one rootB rootB_plain, by simp, rfl⟩

/-- Before: no packs, and nothing in the alternates file. -/
theorem liveDisk_before (d : PackDir) (m : Int) : Before (liveDisk d (rootB ++ ['\n'])) (liveDisk ⟨m, []⟩ []) where
  pack := fun q => by simp only [liveDisk]; split <;> rfl
  loose := fun _ => rfl
  alt := fun q => by simp only [liveDisk]; split <;> rfl
  wf := fun q d' h => by
    simp only [liveDisk] at h
    split at h
    · cases h; exact List.nodup_nil
    · cases h
  same := fun q d1 d' name c c' _ h _ h' => by
    simp only [liveDisk] at h
    split at h
    · cases h; cases h'
    · cases h
  keep := fun q x x' h h' sha hs => by
    have h' : (liveDisk d (rootB ++ ['\n'])).loose q = some x' := h'
    rw [h] at h'; cases h'; exact hs

/-- A `GitDB` at `/a`, asked for a packed object and one of `/b` while neither was there; afterwards packs and an alternate have been
added.  After `update_cache(True)` both are found. -/
example (zl : Zlib) (getL : Fs → Bytes → Res OStream) (sha : Bytes) (hs : sha = 0xc0 :: List.replicate 19 1 ∨ sha = [7]) :
    let O := liveOps id (leafOps List.reverse (fun d db sha => db.stream 5 List.reverse d sha) getL) 2
    let t := [(liveDisk ⟨1, []⟩ [], LiveCall.read (.has sha)), (liveDisk ⟨2, []⟩ [], .update false)].foldl
      (fun t e => callStep O e.1 t e.2) (freshNode 2 rootA)
    let t' := (O.update (liveDisk bothPacks (rootB ++ ['\n'])) t true).1
    (O.has (liveDisk bothPacks (rootB ++ ['\n'])) ([DbOp.has sha, .size].foldl (dbStep O (liveDisk bothPacks (rootB ++ ['\n']))) t') sha).2 =
      .ok true := by
  intro O t t'
  obtain ⟨-, b, h1, h2⟩ := C81_refresh zl 5 (order := List.reverse) (fun l => List.reverse_perm l) (orderT := id) (fun l => .refl l) getL
    (liveDisk_good bothPacks bothPacks_good _) (liveDisk_readable _ _) (liveDisk_rank bothPacks) 2 rootA (by decide) rfl
    [(liveDisk ⟨1, []⟩ [], LiveCall.read (.has sha)), (liveDisk ⟨2, []⟩ [], .update false)]
    (fun e he => by
      simp only [List.mem_cons, List.not_mem_nil, or_false] at he
      rcases he with rfl | rfl <;> exact liveDisk_before _ _) [.has sha, .size] sha (by rcases hs with rfl | rfl <;> simp)
  rw [show b = true from h2.mpr ?_] at h1
  · exact h1
  · rcases hs with rfl | rfl
    · exact ⟨rootA, .refl _, .inl ⟨bothPacks, rfl, bothPacks_has⟩⟩
    · exact ⟨rootB, .step (liveDisk_alt _) (.refl _), .inr ⟨_, rfl, by decide⟩⟩

/-- The same when `/a` had neither directory nor file at first: nothing is found, also after `update_cache(True)`; a new `GitDB` finds
both. -/
example (zl : Zlib) (getL : Fs → Bytes → Res OStream) (sha : Bytes) (hs : sha = 0xc0 :: List.replicate 19 1 ∨ sha = [7]) :
    let O := liveOps id (leafOps List.reverse (fun d db sha => db.stream 5 List.reverse d sha) getL) 2
    let D := liveDisk bothPacks (rootB ++ ['\n'])
    (O.has D ([(D, LiveCall.update true), (D, .read (.get sha)), (D, .update true)].foldl (fun t e => callStep O e.1 t e.2)
      (callStep O bareDisk (freshNode 2 rootA) (.read .size))) sha).2 = .ok false ∧
    (O.has D (O.update D (freshNode 2 rootA) true).1 sha).2 = .ok true := by
  have hno : ∀ D : Disk, D.loose rootA = some (fun _ => none, []) → ¬ LooseThere D rootA sha := by
    rintro D h ⟨x, hx, hh⟩
    rw [h] at hx
    cases hx
    cases hh
  refine ⟨C81_late 5 List.reverse id getL bareDisk rootA rfl rfl rfl (.read .size) sha (hno _ rfl) _ (fun e he => ?_) _ (hno _ rfl) 1, ?_⟩
  · simp only [List.mem_cons, List.not_mem_nil, or_false] at he
    rcases he with rfl | rfl | rfl <;> exact hno _ rfl
  · obtain ⟨-, b, h1, h2⟩ := C81_refresh zl 5 (order := List.reverse) (fun l => List.reverse_perm l) (orderT := id) (fun l => .refl l)
      getL (liveDisk_good bothPacks bothPacks_good _) (liveDisk_readable _ _) (liveDisk_rank bothPacks) 2 rootA (by decide) rfl
      [] (fun e he => by cases he) [] sha (by rcases hs with rfl | rfl <;> simp)
    rw [show b = true from h2.mpr ?_] at h1
    · exact h1
    · rcases hs with rfl | rfl
      · exact ⟨rootA, .refl _, .inl ⟨bothPacks, rfl, bothPacks_has⟩⟩
      · exact ⟨rootB, .step (liveDisk_alt _) (.refl _), .inr ⟨_, rfl, by decide⟩⟩

end GitDB.Props
