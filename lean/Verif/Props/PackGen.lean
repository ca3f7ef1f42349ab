import Verif.Props.PackedDB
import Verif.Proofs.LightZlib
/-!
# C78: packs that are replaced under their name
-/
set_option autoImplicit false

namespace GitDB.Props
open GitDB Spec

/-- What a reading operation does to an item: at most its index is mapped. -/
def Mapped (dir : PackDir) (it it' : PackItem) : Prop :=
  it'.path = it.path ∧ it'.pack = it.pack ∧ (it'.idx = it.idx ∨ (it.idx = none ∧ it'.idx = dir.get (idxName it.path)))

/-- Every item comes from one of these. -/
def From (dir : PackDir) (l l' : List PackItem) : Prop := ∀ it' ∈ l', ∃ it ∈ l, Mapped dir it it'

theorem Mapped.rfl' (dir : PackDir) (it : PackItem) : Mapped dir it it := ⟨rfl, rfl, .inl rfl⟩

theorem From.rfl' (dir : PackDir) (l : List PackItem) : From dir l l := fun it h => ⟨it, h, .rfl' dir it⟩

theorem From.cons {dir : PackDir} {a a' : PackItem} {l l' : List PackItem} (h : Mapped dir a a') (ht : From dir l l') :
    From dir (a :: l) (a' :: l') := by
  intro it hit
  rcases List.mem_cons.1 hit with rfl | hit
  · exact ⟨a, by simp, h⟩
  · obtain ⟨b, hb, hm⟩ := ht it hit
    exact ⟨b, List.mem_cons_of_mem _ hb, hm⟩

theorem index_mapped (dir : PackDir) (it : PackItem) : Mapped dir it (it.index dir).1 := by
  unfold PackItem.index
  rcases hi : it.idx with _ | c
  · simp only
    rcases hg : dir.get (idxName it.path) with _ | c
    · exact .rfl' dir it
    · exact ⟨rfl, rfl, .inr ⟨hi, hg.symm⟩⟩
  · exact .rfl' dir it

theorem find_mapped (dir : PackDir) (it : PackItem) (sha : Bytes) : Mapped dir it (it.find dir sha).1 := by
  have := index_mapped dir it
  unfold PackItem.find
  split
  · exact .rfl' dir it
  · rcases hi : it.index dir with ⟨it', e | x⟩ <;> (rw [hi] at this; exact this)

theorem complete_mapped (dir : PackDir) (it : PackItem) (part : Bytes) (n : Nat) : Mapped dir it (it.complete dir part n).1 := by
  have := index_mapped dir it
  unfold PackItem.complete
  split
  · exact .rfl' dir it
  · rcases hi : it.index dir with ⟨it', e | x⟩
    · rw [hi] at this; exact this
    · rw [hi] at this
      simp only
      rcases x.partialShaToIndex part n with e | _ | i <;> exact this

theorem scan_from (dir : PackDir) (sha : Bytes) : ∀ l : List PackItem, From dir l (scanItems dir sha l).1
  | [] => .rfl' dir []
  | a :: l => by
    have h := find_mapped dir a sha
    unfold scanItems
    rcases hf : a.find dir sha with ⟨a1, e | _ | i⟩ <;> rw [hf] at h
    · exact .cons h (.rfl' dir l)
    · exact .cons h (scan_from dir sha l)
    · exact .cons h (.rfl' dir l)

theorem loadIndices_from (dir : PackDir) : ∀ l : List PackItem, From dir l (loadIndices dir l).1
  | [] => .rfl' dir []
  | a :: l => by
    have h := index_mapped dir a
    have ih := loadIndices_from dir l
    unfold loadIndices
    rcases hf : a.index dir with ⟨a1, e | x⟩ <;> rw [hf] at h
    · exact .cons h (.rfl' dir l)
    · simp only
      rcases hq : loadIndices dir l with ⟨l1, e | xs⟩ <;> (rw [hq] at ih; exact .cons h ih)

theorem completeLoop_from (dir : PackDir) (part : Bytes) (n : Nat) : ∀ (l : List PackItem) (c : Option Bytes),
    From dir l (completeLoop dir part n l c).1
  | [], _ => .rfl' dir []
  | a :: l, c => by
    have h := complete_mapped dir a part n
    unfold completeLoop
    rcases hf : a.complete dir part n with ⟨a1, e | _ | sha⟩ <;> rw [hf] at h
    · exact .cons h (.rfl' dir l)
    · exact .cons h (completeLoop_from dir part n l c)
    · simp only
      split
      · exact .cons h (.rfl' dir l)
      · exact .cons h (completeLoop_from dir part n l (some sha))

/-- After `load`, the items are what was there, or have just been read. -/
theorem refresh_origin (order : List Bytes → List Bytes) (dir : PackDir) (items : List PackItem) :
    ∀ it ∈ (refreshItems order dir items).1, it ∈ items ∨ FreshItem dir it := by
  obtain ⟨new, h1, h2, -, -⟩ := addPacks_spec dir
    (order (dir.packs.filter fun f => decide (f ∉ items.map PackItem.path))) items
  have hdrop : ∀ (ps : List Bytes) (l : List PackItem) (it : PackItem), it ∈ dropPacks ps l → it ∈ l := by
    intro ps
    induction ps with
    | nil => intro l it h; exact h
    | cons p ps ih => intro l it h; exact List.mem_of_mem_eraseP (ih _ it h)
  have hall : ∀ it ∈ items ++ new, it ∈ items ∨ FreshItem dir it := by
    intro it hit
    rcases List.mem_append.1 hit with h | h
    · exact .inl h
    · exact .inr (h2 it h)
  unfold refreshItems
  simp only
  rcases hq : addPacks dir (order (dir.packs.filter fun f => decide (f ∉ items.map PackItem.path))) items with ⟨l, e | u⟩ <;>
    (rw [hq] at h1; simp only at h1; subst h1)
  · exact hall
  · intro it hit
    exact hall it (hdrop _ _ it ((sortItems_perm _).mem_iff.1 hit))

/-- Where the parts of an item come from: the pack was read from an earlier state of the directory, the index, if it is mapped,
from that state or a later one. -/
def Origin (past : List PackDir) (it : PackItem) : Prop :=
  ∃ a d b, past = a ++ d :: b ∧ (∃ c, d.get it.path = some c ∧ PackFile.load c = .ok it.pack) ∧
    ∀ ci, it.idx = some ci → ∃ d' ∈ d :: b, d'.get (idxName it.path) = some ci

theorem Origin.later {past : List PackDir} {it : PackItem} (h : Origin past it) (more : List PackDir) :
    Origin (past ++ more) it := by
  obtain ⟨a, d, b, rfl, h1, h2⟩ := h
  refine ⟨a, d, b ++ more, by simp, h1, fun ci hc => ?_⟩
  obtain ⟨d', hd, hg⟩ := h2 ci hc
  exact ⟨d', by rw [← List.cons_append]; exact List.mem_append_left _ hd, hg⟩

theorem FreshItem.origin {past : List PackDir} {d : PackDir} {it : PackItem} (h : FreshItem d it) : Origin (past ++ [d]) it := by
  obtain ⟨c, h1, h2, _, h4⟩ := h
  exact ⟨past, d, [], rfl, ⟨c, h1, h2⟩, fun ci hc => by rw [h4] at hc; cases hc⟩

/-- All items have such an origin. -/
def Origins (past : List PackDir) (db : PackedDB) : Prop := ∀ l, db.entities = some l → ∀ it ∈ l, Origin past it

theorem load_origins (order : List Bytes → List Bytes) (dir : Option PackDir) (db : PackedDB) (past : List PackDir)
    (h : Origins past db) : Origins (past ++ dir.toList) (db.load order dir).1 := by
  unfold PackedDB.load
  rcases hl : db.entities with _ | l
  · simp only
    rcases dir with _ | d
    · intro l hl; cases hl; intro it hit; cases hit
    · have := refresh_origin order d []
      simp only
      rcases hr : refreshItems order d [] with ⟨l, e | u⟩ <;>
      · rw [hr] at this
        intro l' hl'
        cases hl'
        intro it hit
        rcases this it hit with hn | hf
        · cases hn
        · exact FreshItem.origin hf
  · intro l' hl' it hit
    exact (h l' hl' it hit).later _

/-- A reading operation keeps the origins. -/
theorem step_from (zl : Zlib) (order : List Bytes → List Bytes) (dir : Option PackDir) (db : PackedDB) (op : PackOp) :
    ∃ l l', (db.load order dir).1.entities = some l ∧ (packStep zl order dir db op).entities = some l' ∧
      From (dirFiles dir) l l' := by
  obtain ⟨l, h1, h2⟩ := load_entities order dir db
  have hp : ∀ sha, ∃ l', (db.packInfo order dir sha).1.entities = some l' ∧ From (dirFiles dir) l l' := by
    intro sha
    unfold PackedDB.packInfo
    rcases hd : db.load order dir with ⟨db1, e | l1⟩
    · rw [hd] at h1
      exact ⟨l, h1, .rfl' _ l⟩
    · rw [hd] at h2
      obtain rfl := h2 l1 rfl
      have hs : ∀ it, it ∈ (if db1.hitCount % sortInterval = 0 then sortItems l1 else l1) → it ∈ l1 := by
        intro it hit
        split at hit
        · exact (sortItems_perm _).mem_iff.1 hit
        · exact hit
      have hsc := scan_from (dirFiles dir) sha (if db1.hitCount % sortInterval = 0 then sortItems l1 else l1)
      have hsc' : From (dirFiles dir) l1
          (scanItems (dirFiles dir) sha (if db1.hitCount % sortInterval = 0 then sortItems l1 else l1)).1 := by
        intro it hit
        obtain ⟨b, hb, hm⟩ := hsc it hit
        exact ⟨b, hs b hb, hm⟩
      simp only
      rcases hq : scanItems (dirFiles dir) sha (if db1.hitCount % sortInterval = 0 then sortItems l1 else l1) with ⟨l2, e | _ | r⟩ <;>
        (rw [hq] at hsc'; exact ⟨l2, rfl, hsc'⟩)
  cases op with
  | has sha => obtain ⟨l', a, b⟩ := hp sha; exact ⟨l, l', h1, by rw [packStep, hasObject_fst]; exact a, b⟩
  | info fuel sha => obtain ⟨l', a, b⟩ := hp sha; exact ⟨l, l', h1, by rw [packStep, info_fst]; exact a, b⟩
  | stream fuel sha => obtain ⟨l', a, b⟩ := hp sha; exact ⟨l, l', h1, by rw [packStep, stream_fst]; exact a, b⟩
  | size =>
    unfold packStep PackedDB.size
    rcases hd : db.load order dir with ⟨db1, e | l1⟩
    · rw [hd] at h1
      exact ⟨l, l, h1, h1, .rfl' _ l⟩
    · rw [hd] at h1 h2
      obtain rfl := h2 l1 rfl
      have := loadIndices_from (dirFiles dir) l1
      simp only
      rcases hq : loadIndices (dirFiles dir) l1 with ⟨l2, e | xs⟩ <;> (rw [hq] at this; exact ⟨l1, l2, h1, rfl, this⟩)
  | iter =>
    unfold packStep PackedDB.shaIter
    rcases hd : db.load order dir with ⟨db1, e | l1⟩
    · rw [hd] at h1
      exact ⟨l, l, h1, h1, .rfl' _ l⟩
    · rw [hd] at h1 h2
      obtain rfl := h2 l1 rfl
      have := loadIndices_from (dirFiles dir) l1
      simp only
      rcases hq : loadIndices (dirFiles dir) l1 with ⟨l2, e | xs⟩ <;> (rw [hq] at this; exact ⟨l1, l2, h1, rfl, this⟩)
  | complete part n =>
    unfold packStep PackedDB.partialToComplete
    rcases hd : db.load order dir with ⟨db1, e | l1⟩
    · rw [hd] at h1
      exact ⟨l, l, h1, h1, .rfl' _ l⟩
    · rw [hd] at h1 h2
      obtain rfl := h2 l1 rfl
      have := completeLoop_from (dirFiles dir) part n l1 none
      simp only
      rcases hq : completeLoop (dirFiles dir) part n l1 none with ⟨l2, e | o⟩
      · rw [hq] at this; exact ⟨l1, l2, h1, rfl, this⟩
      · rw [hq] at this
        rcases o with _ | (_ | _) <;> exact ⟨l1, l2, h1, rfl, this⟩

/-- An origin after a call: mapping in the state of the call, which the past ends with. -/
theorem origin_step {past : List PackDir} {dir : Option PackDir} {it it' : PackItem}
    (h : Origin (past ++ dir.toList) it) (hm : Mapped (dirFiles dir) it it') : Origin (past ++ dir.toList) it' := by
  obtain ⟨a, d0, b, e, h1, h2⟩ := h
  obtain ⟨m1, m2, m3⟩ := hm
  refine ⟨a, d0, b, e, by rw [m1, m2]; exact h1, fun ci hc => ?_⟩
  rw [m1]
  rcases m3 with m3 | ⟨_, m3⟩
  · exact h2 ci (by rw [← m3]; exact hc)
  · rw [hc] at m3
    cases dir with
    | none => cases m3
    | some d =>
      refine ⟨d, ?_, m3.symm⟩
      have : (a ++ d0 :: b).getLast? = some d := by rw [← e]; simp
      rw [List.getLast?_append, List.getLast?_cons] at this
      simp only [Option.some_or] at this
      exact List.mem_of_getLast? (by rw [List.getLast?_cons]; exact this)

theorem call_origins (zl : Zlib) (order : List Bytes → List Bytes) (x : Option PackDir × PackCall) (db : PackedDB)
    (past : List PackDir) (h : Origins past db) : Origins (past ++ x.1.toList) (packCall zl order db x) := by
  obtain ⟨dir, call⟩ := x
  cases call with
  | read op =>
    obtain ⟨l, l', h1, h2, h3⟩ := step_from zl order dir db op
    intro l1 hl1 it hit
    simp only [packCall] at hl1
    rw [h2] at hl1
    cases hl1
    obtain ⟨b, hb, hm⟩ := h3 it hit
    exact origin_step (load_origins order dir db past h l h1 b hb) hm
  | update force =>
    simp only [packCall]
    unfold PackedDB.updateCache
    rcases dir with _ | d
    · intro l hl it hit; exact (h l hl it hit).later _
    · simp only
      split
      · intro l hl it hit; exact (h l hl it hit).later _
      · have hL := load_origins order (some d) { db with mtime := d.mtime } past h
        obtain ⟨l, e1, e2⟩ := load_entities order (some d) { db with mtime := d.mtime }
        rcases hq : PackedDB.load order (some d) { db with mtime := d.mtime } with ⟨db1, e | l1⟩
        · rw [hq] at hL; exact hL
        · rw [hq] at hL e1 e2
          obtain rfl := e2 l1 rfl
          have := refresh_origin order d l1
          simp only
          rcases hr : refreshItems order d l1 with ⟨l2, e | u⟩ <;>
          · rw [hr] at this
            intro l' hl'
            cases hl'
            intro it hit
            rcases this it hit with hn | hf
            · exact hL l1 e1 it hn
            · exact FreshItem.origin hf

theorem run_origins (zl : Zlib) (order : List Bytes → List Bytes) : ∀ (tr : List (Option PackDir × PackCall)) (db : PackedDB)
    (past : List PackDir), Origins past db →
    Origins (past ++ tr.filterMap Prod.fst) (tr.foldl (packCall zl order) db)
  | [], db, past, h => by simpa using h
  | x :: tr, db, past, h => by
    have := run_origins zl order tr _ _ (call_origins zl order x db past h)
    rw [List.foldl_cons]
    have e : past ++ (x :: tr).filterMap Prod.fst = past ++ x.1.toList ++ tr.filterMap Prod.fst := by
      rcases x with ⟨_ | d, c⟩ <;> simp
    rw [e]
    exact this

/-- **C78** whatever happens to the directory between the calls: every pack in use has been read completely from one state of the
directory, its index, if it is mapped, from that state or from a later one. -/
theorem C78_generations (zl : Zlib) (order : List Bytes → List Bytes) (tr : List (Option PackDir × PackCall)) (l : List PackItem)
    (hl : (packRun zl order tr).entities = some l) : ∀ it ∈ l, Origin (tr.filterMap Prod.fst) it := by
  have := run_origins zl order tr {} [] (by intro l hl; cases hl)
  exact this l hl

/-- **C78** if no file is ever replaced by another one with the same name, what is found comes from a pack and its own index. -/
theorem C78_write_once (zl : Zlib) (order : List Bytes → List Bytes) (tr : List (Option PackDir × PackCall)) (dir : Option PackDir)
    (file : Bytes → Bytes) (hf : ∀ d ∈ tr.filterMap Prod.fst ++ dir.toList, ∀ name c, d.get name = some c → file name = c)
    (fuel : Nat) (sha : Bytes) (hsha : sha ≠ []) (o : OStream)
    (ho : ((packRun zl order tr).stream fuel order dir sha).2 = .ok o) :
    ∃ name pk x i, PackFile.load (file name) = .ok pk ∧ IndexFile.load (file (idxName name)) = .ok x ∧
      x.shaToIndex sha = .ok (some i) ∧ PackEntity.streamAt ⟨x, pk⟩ fuel (x.sha i) i = .ok o := by
  have hpast : Origins (tr.filterMap Prod.fst ++ dir.toList) ((packRun zl order tr).load order dir).1 :=
    load_origins order dir _ _ (by have := run_origins zl order tr {} [] (by intro l hl; cases hl); simpa [packRun] using this)
  have hmem := hf
  obtain ⟨l, h1, h2⟩ := load_entities order dir (packRun zl order tr)
  unfold PackedDB.stream PackedDB.packInfo at ho
  rcases hd : (packRun zl order tr).load order dir with ⟨db1, e | l1⟩
  · rw [hd] at ho; cases ho
  · rw [hd] at h1 h2 hpast ho
    obtain rfl := h2 l1 rfl
    simp only at ho
    rcases hq : scanItems (dirFiles dir) sha (if db1.hitCount % sortInterval = 0 then sortItems l1 else l1) with ⟨l2, e | _ | ⟨it, i⟩⟩
    · rw [hq] at ho; cases ho
    · rw [hq] at ho; cases ho
    · rw [hq] at ho
      simp only at ho
      obtain ⟨it0, x, k1, k2, k3, k4, -⟩ := scan_found (dirFiles dir) hsha _ l2 it i hq
      have hit0 : it0 ∈ l1 := by
        split at k1
        · exact (sortItems_perm _).mem_iff.1 k1
        · exact k1
      obtain ⟨a, d, b, e, ⟨c, hc1, hc2⟩, hidx⟩ := hpast l1 h1 it0 hit0
      simp only [PackItem.key, Prod.mk.injEq] at k2
      obtain ⟨kp, kq, kc⟩ := k2
      rw [index_of_key (x := x) (by rw [kc]; exact k3), kq] at ho
      refine ⟨it0.path, it0.pack, x, i, ?_, ?_, k4, ho⟩
      · rw [hmem d (by rw [e]; simp) _ _ hc1]; exact hc2
      · unfold PackItem.content at k3
        rcases hi : it0.idx with _ | ci
        · rw [hi] at k3
          simp only at k3
          rcases hg : (dirFiles dir).get (idxName it0.path) with _ | ci
          · rw [hg] at k3; cases k3
          · rw [hg] at k3
            rcases dir with _ | d1
            · cases hg
            · rw [hmem d1 (by simp) _ _ hg]; exact k3
        · rw [hi] at k3
          obtain ⟨d', hd', hg'⟩ := hidx ci hi
          rw [hmem d' (by rw [e]; exact List.mem_append_right _ hd') _ _ hg']
          exact k3

/-- **C78** once the index is mapped, nothing that happens to the directory changes an answer. -/
theorem C78_snapshot (zl : Zlib) (fuel : Nat) (order : List Bytes → List Bytes) (db : PackedDB) (l : List PackItem)
    (hl : db.entities = some l) (hm : ∀ it ∈ l, it.idx ≠ none) (dir dir' : Option PackDir) (sha : Bytes) :
    db.hasObject order dir sha = db.hasObject order dir' sha ∧ db.stream fuel order dir sha = db.stream fuel order dir' sha ∧
      db.info zl fuel order dir sha = db.info zl fuel order dir' sha := by
  have hix : ∀ it : PackItem, it.idx ≠ none → ∀ d d' : PackDir, it.index d = it.index d' := by
    intro it hi d d'
    unfold PackItem.index
    rcases h : it.idx with _ | c
    · exact absurd h hi
    · rfl
  have hkeep : ∀ it : PackItem, it.idx ≠ none → ∀ d : PackDir, (it.index d).1 = it := by
    intro it hi d
    unfold PackItem.index
    rcases h : it.idx with _ | c
    · exact absurd h hi
    · rfl
  have hfind : ∀ it : PackItem, it.idx ≠ none → ∀ d d' : PackDir, it.find d sha = it.find d' sha := by
    intro it hi d d'
    unfold PackItem.find
    rw [hix it hi d d']
  have hscan : ∀ l : List PackItem, (∀ it ∈ l, it.idx ≠ none) → ∀ d d' : PackDir,
      scanItems d sha l = scanItems d' sha l ∧ ∀ r, (scanItems d sha l).2 = .ok (some r) → r.1.idx ≠ none := by
    intro l
    induction l with
    | nil => intro _ d d'; exact ⟨rfl, fun r h => by cases h⟩
    | cons a l ih =>
      intro hl d d'
      have ha := hl a (by simp)
      obtain ⟨i1, i2⟩ := ih (fun it h => hl it (by simp [h])) d d'
      unfold scanItems
      rw [hfind a ha d d', i1]
      refine ⟨rfl, fun r hr => ?_⟩
      have hk : (a.find d' sha).1.idx ≠ none := by
        unfold PackItem.find
        split
        · exact ha
        · have := hkeep a ha d'
          rcases hi : a.index d' with ⟨b, e | x⟩ <;> (rw [hi] at this; simp only at this; subst this; exact ha)
      rcases hq : a.find d' sha with ⟨b, e | _ | i⟩
      · rw [hq] at hr; cases hr
      · rw [hq] at hr
        simp only at hr
        exact i2 r (by rw [i1]; exact hr)
      · rw [hq] at hr hk
        cases hr
        exact hk
  have hsort : ∀ it ∈ (if db.hitCount % sortInterval = 0 then sortItems l else l), it.idx ≠ none := by
    intro it hit
    split at hit
    · exact hm it ((sortItems_perm _).mem_iff.1 hit)
    · exact hm it hit
  have hload : ∀ dir, db.load order dir = (db, .ok l) := by intro dir; unfold PackedDB.load; rw [hl]
  obtain ⟨s1, s2⟩ := hscan _ hsort (dirFiles dir) (dirFiles dir')
  have hpi : db.packInfo order dir sha = db.packInfo order dir' sha := by
    unfold PackedDB.packInfo
    rw [hload, hload]
    simp only
    rw [s1]
  have hfound : ∀ d it i, db.packInfo order dir sha = (d, .ok (it, i)) → it.idx ≠ none := by
    intro d it i h
    unfold PackedDB.packInfo at h
    rw [hload] at h
    simp only at h
    rcases hq : scanItems (dirFiles dir) sha (if db.hitCount % sortInterval = 0 then sortItems l else l) with ⟨l2, e | _ | r⟩
    · rw [hq] at h; cases h
    · rw [hq] at h; cases h
    · rw [hq] at h s2
      cases h
      exact s2 _ rfl
  have hent : ∀ d it i, db.packInfo order dir sha = (d, .ok (it, i)) → it.entity (dirFiles dir) = it.entity (dirFiles dir') := by
    intro d it i h
    unfold PackItem.entity
    rw [hix it (hfound d it i h) (dirFiles dir) (dirFiles dir')]
  refine ⟨?_, ?_, ?_⟩
  · unfold PackedDB.hasObject; rw [hpi]
  · unfold PackedDB.stream
    rw [← hpi]
    rcases hq : db.packInfo order dir sha with ⟨d, e | ⟨it, i⟩⟩
    · rfl
    · simp only; rw [hent d it i hq]
  · unfold PackedDB.info
    rw [← hpi]
    rcases hq : db.packInfo order dir sha with ⟨d, e | ⟨it, i⟩⟩
    · rfl
    · simp only; rw [hent d it i hq]

/-! ### two generations of a pack -/

/-- A blob `a` and a commit `b`, in both orders (in the format of `lightZlib`). -/
def genPack (swapped : Bool) : Bytes :=
  [0x50, 0x41, 0x43, 0x4b, 0, 0, 0, 2, 0, 0, 0, 2] ++
    (if swapped then [0x11, 0x62, 255] ++ [0x31, 0x61, 255] else [0x31, 0x61, 255] ++ [0x11, 0x62, 255]) ++
    List.replicate 20 0

def blobName : Bytes := 0x10 :: List.replicate 19 1
def commitName : Bytes := 0x20 :: List.replicate 19 2

def genIndex (swapped : Bool) : Bytes :=
  if swapped then indexV2 [⟨blobName, 0, 15⟩, ⟨commitName, 0, 12⟩] (List.replicate 20 0) (List.replicate 20 0)
  else indexV2 [⟨blobName, 0, 12⟩, ⟨commitName, 0, 15⟩] (List.replicate 20 0)
    (List.replicate 20 0)

/-- The directory with one generation. -/
def genDir (mtime : Int) (swapped : Bool) : PackDir := ⟨mtime, [(nameA, genPack swapped), (idxName nameA, genIndex swapped)]⟩

/-- The answer of `info`. -/
def genInfo (tr : List (Option PackDir × PackCall)) (dir : PackDir) (sha : Bytes) : Res (PyName × Nat) :=
  ((packRun lightZlib id tr).info lightZlib 5 id (some dir) sha).2

/-- The answer of `stream`: the name in the result, and the content. -/
def genContent (tr : List (Option PackDir × PackCall)) (dir : PackDir) (sha : Bytes) : Res (Bytes × Bytes) :=
  match ((packRun lightZlib id tr).stream 5 id (some dir) sha).2 with
  | .error e => .error e
  | .ok o =>
    match (o.stream.read lightZlib 5 (-1)).2 with
    | .error e => .error e
    | .ok d => .ok (o.sha, d)

/-- Each generation by itself is right. -/
example : ∀ s : Bool, genInfo [] (genDir 1 s) blobName = .ok (.bytes strBlobType, 1) ∧
    genInfo [] (genDir 1 s) commitName = .ok (.bytes strCommitType, 1) ∧
    genContent [] (genDir 1 s) blobName = .ok (blobName, [0x61]) ∧
    genContent [] (genDir 1 s) commitName = .ok (commitName, [0x62]) := by
  decide +kernel

/-- **C78** without that: the list of packs is read (here by `update_cache`), then both files of the pack are replaced by
others with the same objects in another order.  The old pack is read with the new index: the wrong type and the wrong
content for both names, no exception; `update_cache(force=True)` does not change this. -/
theorem C78_mixed : ∀ again ∈ [[], [((some (genDir 2 true)), PackCall.update true)]],
    genInfo ((some (genDir 1 false), .update false) :: again) (genDir 2 true) blobName = .ok (.bytes strCommitType, 1) ∧
    genContent ((some (genDir 1 false), .update false) :: again) (genDir 2 true) blobName = .ok (blobName, [0x62]) ∧
    genInfo ((some (genDir 1 false), .update false) :: again) (genDir 2 true) commitName = .ok (.bytes strBlobType, 1) ∧
    genContent ((some (genDir 1 false), .update false) :: again) (genDir 2 true) commitName = .ok (commitName, [0x61]) := by
  decide +kernel

/-- **C78** if the index was mapped before the replacement (here by a first `info`), the old generation stays in use and is right. -/
example : ∀ call ∈ [PackCall.read (.info 5 blobName), .read .size],
    genInfo [(some (genDir 1 false), call), (some (genDir 2 true), .update true)] (genDir 2 true) blobName =
      .ok (.bytes strBlobType, 1) ∧
    genContent [(some (genDir 1 false), call), (some (genDir 2 true), .update true)] (genDir 2 true) commitName =
      .ok (commitName, [0x62]) := by
  decide +kernel

/-- **C78** a listing of the directory without the pack in between makes the new files be read. -/
example : genInfo [(some (genDir 1 false), .update false), (some ⟨2, []⟩, .update false), (some (genDir 3 true), .update false)]
    (genDir 3 true) blobName = .ok (.bytes strBlobType, 1) := by
  decide +kernel

/-- The case for `C78_generations`: the pack of the first state, the index of the second. -/
example : (packRun lightZlib id [(some (genDir 1 false), .update false), (some (genDir 2 true), .read .size)]).entities =
    some [⟨2, nameA, ⟨genPack false, 2, 2⟩, some (genIndex true)⟩] := by
  decide +kernel

/-- The case for `C78_write_once`: a pack that is removed and comes back. -/
example : (∀ d ∈ [(genDir 1 false), ⟨2, []⟩, genDir 3 false], ∀ name c, d.get name = some c →
      (if name = nameA then genPack false else genIndex false) = c) ∧
    genContent [(some (genDir 1 false), .update false), (some ⟨2, []⟩, .update false), (some (genDir 3 false), .update false)]
      (genDir 3 false) blobName = .ok (blobName, [0x61]) := by
  refine ⟨?_, by decide +kernel⟩
  have key : ∀ (m : Int) name c, (genDir m false).get name = some c → (if name = nameA then genPack false else genIndex false) = c := by
    intro m name c h
    simp only [PackDir.get, genDir, List.find?_cons, List.find?_nil] at h
    by_cases hn : name = nameA
    · subst hn
      simpa using h
    · rw [if_neg hn]
      have : (nameA == name) = false := by simpa using fun e => hn e.symm
      rw [this] at h
      simp only at h
      split at h
      · exact Option.some.inj h
      · cases h
  intro d hd name c hc
  simp only [List.mem_cons, List.not_mem_nil, or_false] at hd
  rcases hd with rfl | rfl | rfl
  · exact key _ name c hc
  · cases hc
  · exact key _ name c hc

end GitDB.Props
