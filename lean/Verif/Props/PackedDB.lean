import Verif.Spec.PackedDB
import Verif.Proofs.PackedDB
import Verif.Props.Pack
/-!
# C42, C43: the pack database
-/
set_option autoImplicit false

namespace GitDB.Props
open GitDB Spec

theorem isIndex_load {c : Bytes} {names : List Bytes} (h : IsIndex c names) :
    ∃ x, IndexFile.load c = .ok x ∧ IndexOf x names := by
  obtain ⟨ha, es, p, i, rfl, ⟨hv, rfl⟩ | ⟨hv, h0, rfl⟩⟩ := h
  · exact ⟨_, v2_load es p i hv, v2_indexOf es p i hv ha⟩
  · exact ⟨_, v1_load es p i hv h0, v1_indexOf es p i hv ha⟩

theorem isPackName_iff (name : Bytes) : isPackName name = true ↔ IsPackName name := by
  unfold isPackName IsPackName
  rw [Bool.and_eq_true, List.isPrefixOf_iff_prefix, List.isSuffixOf_iff_suffix]
  constructor
  · rintro ⟨⟨t, rfl⟩, ⟨m, hm⟩⟩
    refine ⟨m, ?_⟩
    have : (packPrefix ++ t).drop 5 = t := by rw [List.drop_append_of_le_length (by decide)]; rfl
    rw [this] at hm
    rw [← hm, List.append_assoc]; rfl
  · rintro ⟨m, rfl⟩
    refine ⟨⟨m ++ packSuffix, by rw [List.append_assoc]; rfl⟩, ⟨m, ?_⟩⟩
    rw [List.append_assoc, List.drop_append_of_le_length (by decide)]
    rfl

theorem mem_packs (d : PackDir) (p : Bytes) : p ∈ d.packs ↔ p ∈ d.files.map Prod.fst ∧ IsPackName p := by
  unfold PackDir.packs
  rw [List.mem_filter, isPackName_iff]

/-! ## C42 -/

/-- Reading operations. -/
inductive PackOp where
  | has (sha : Bytes)
  | info (fuel : Nat) (sha : Bytes)
  | stream (fuel : Nat) (sha : Bytes)
  | size
  | iter
  | complete (part : Bytes) (n : Nat)

/-- What is left of the database after an operation, whether it raised an exception or not. -/
def packStep (zl : Zlib) (order : List Bytes → List Bytes) (dir : Option PackDir) (db : PackedDB) : PackOp → PackedDB
  | .has sha => (db.hasObject order dir sha).1
  | .info fuel sha => (db.info zl fuel order dir sha).1
  | .stream fuel sha => (db.stream fuel order dir sha).1
  | .size => (db.size order dir).1
  | .iter => (db.shaIter order dir).1
  | .complete part n => (db.partialToComplete order dir part n).1

theorem hasObject_fst (order : List Bytes → List Bytes) (dir : Option PackDir) (db : PackedDB) (sha : Bytes) :
    (db.hasObject order dir sha).1 = (db.packInfo order dir sha).1 := by
  unfold PackedDB.hasObject
  rcases db.packInfo order dir sha with ⟨d, e | r⟩
  · cases e <;> rfl
  · rfl

theorem info_fst (zl : Zlib) (fuel : Nat) (order : List Bytes → List Bytes) (dir : Option PackDir) (db : PackedDB) (sha : Bytes) :
    (db.info zl fuel order dir sha).1 = (db.packInfo order dir sha).1 := by
  unfold PackedDB.info
  rcases db.packInfo order dir sha with ⟨d, e | r⟩
  · rfl
  · simp only
    split <;> rfl

theorem stream_fst (fuel : Nat) (order : List Bytes → List Bytes) (dir : Option PackDir) (db : PackedDB) (sha : Bytes) :
    (db.stream fuel order dir sha).1 = (db.packInfo order dir sha).1 := by
  unfold PackedDB.stream
  rcases db.packInfo order dir sha with ⟨d, e | r⟩
  · rfl
  · simp only
    split <;> rfl

theorem packInfo_keeps {order : List Bytes → List Bytes} {dir : Option PackDir} {db : PackedDB} {l : List PackItem}
    {pre0 suf0 : List (Bytes × PackFile × Option Bytes)} (hl : db.entities = some l)
    (h : PInv (dirFiles dir) pre0 suf0 l) (sha : Bytes) :
    ∃ l', (db.packInfo order dir sha).1.entities = some l' ∧ PInv (dirFiles dir) pre0 suf0 l' := by
  by_cases hs : sha = []
  · subst hs; exact (packInfo_empty hl h).1
  · exact (packInfo_inv hl h hs).1

theorem packStep_keeps {zl : Zlib} {order : List Bytes → List Bytes} {dir : Option PackDir} {db : PackedDB} {l : List PackItem}
    {pre0 suf0 : List (Bytes × PackFile × Option Bytes)} (hl : db.entities = some l)
    (h : PInv (dirFiles dir) pre0 suf0 l) (op : PackOp) :
    ∃ l', (packStep zl order dir db op).entities = some l' ∧ PInv (dirFiles dir) pre0 suf0 l' := by
  have hload : db.load order dir = (db, .ok l) := by unfold PackedDB.load; rw [hl]
  cases op with
  | has sha => simp only [packStep, hasObject_fst]; exact packInfo_keeps hl h sha
  | info fuel sha => simp only [packStep, info_fst]; exact packInfo_keeps hl h sha
  | stream fuel sha => simp only [packStep, stream_fst]; exact packInfo_keeps hl h sha
  | size =>
    have hs := pinv_same h (loadIndices_same (dirFiles dir) l)
    simp only [packStep, PackedDB.size, hload]
    rcases hi : loadIndices (dirFiles dir) l with ⟨l', e | xs⟩ <;> (rw [hi] at hs; exact ⟨l', rfl, hs⟩)
  | iter =>
    have hs := pinv_same h (loadIndices_same (dirFiles dir) l)
    simp only [packStep, PackedDB.shaIter, hload]
    rcases hi : loadIndices (dirFiles dir) l with ⟨l', e | xs⟩ <;> (rw [hi] at hs; exact ⟨l', rfl, hs⟩)
  | complete part n =>
    have hs := pinv_same h (completeLoop_same (dirFiles dir) part n l none)
    simp only [packStep, PackedDB.partialToComplete, hload]
    rcases hi : completeLoop (dirFiles dir) part n l none with ⟨l', e | o⟩
    · rw [hi] at hs; exact ⟨l', rfl, hs⟩
    · rw [hi] at hs
      rcases o with _ | (_ | _) <;> exact ⟨l', rfl, hs⟩

theorem history_keeps {zl : Zlib} {order : List Bytes → List Bytes} {dir : Option PackDir}
    {pre0 suf0 : List (Bytes × PackFile × Option Bytes)} : ∀ (ops : List PackOp) {db : PackedDB} {l : List PackItem},
    db.entities = some l → PInv (dirFiles dir) pre0 suf0 l →
    ∃ l', (ops.foldl (packStep zl order dir) db).entities = some l' ∧ PInv (dirFiles dir) pre0 suf0 l'
  | [], _, l, hl, h => ⟨l, hl, h⟩
  | op :: ops, db, l, hl, h => by
    obtain ⟨l1, h1, h2⟩ := packStep_keeps (zl := zl) (order := order) hl h op
    exact history_keeps ops h1 h2

/-- **C42** With the packs sorted (as `update_cache` leaves them) and the directory unchanged, any sequence of reading
operations - which move packs around, count hits, map indices, and may raise exceptions - leaves every answer of
`has_object` as it was (also an exception stays the same exception).  There are no assumptions on the pack and index files:
they may be missing or damaged. -/
theorem C42_history (zl : Zlib) (order : List Bytes → List Bytes) (dir : Option PackDir) (db : PackedDB) (l : List PackItem)
    (hl : db.entities = some l) (hs : MostHitsFirst l) (ops : List PackOp) (sha : Bytes) :
    ((ops.foldl (packStep zl order dir) db).hasObject order dir sha).2 = (db.hasObject order dir sha).2 := by
  obtain ⟨pre, suf, -, h⟩ := pinv_init (dirFiles dir) hs
  obtain ⟨l', h1, h2⟩ := history_keeps (zl := zl) (order := order) ops hl h
  by_cases hsha : sha = []
  · subst hsha
    rw [(packInfo_empty h1 h2).2, (packInfo_empty hl h).2]
  · rw [(packInfo_inv h1 h2 hsha).2.1, (packInfo_inv hl h hsha).2.1]

/-- The index of this item lists these names. -/
def Lists (dir : PackDir) (it : PackItem) (names : List Bytes) : Prop :=
  ∃ c, it.content dir = some c ∧ IsIndex c names

theorem keyHas_iff {dir : PackDir} {it : PackItem} {names : List Bytes} (h : Lists dir it names) {sha : Bytes} (hs : sha ≠ []) :
    keyHas sha (it.key dir) = true ↔ sha ∈ names := by
  obtain ⟨c, hc, hi⟩ := h
  obtain ⟨x, hx, ho⟩ := isIndex_load hi
  have : indexOf (it.key dir).2.2 = .ok x := by unfold PackItem.key; rw [hc]; exact hx
  unfold keyHas
  rw [this]
  simp only
  rcases shaToIndex_spec ho sha hs with ⟨i, e1, e2⟩ | ⟨e1, e2⟩
  · rw [e1]; simp [List.mem_of_getElem? e2]
  · rw [e1]; simp [e2]

/-- **C42** With well-formed indices: after any history of reading operations, `has_object` is true exactly for the names
in one of the indices. -/
theorem C42_member (zl : Zlib) (order : List Bytes → List Bytes) (dir : Option PackDir) (db : PackedDB) (l : List PackItem)
    (hl : db.entities = some l) (hs : MostHitsFirst l) (names : PackItem → List Bytes)
    (hx : ∀ it ∈ l, Lists (dirFiles dir) it (names it)) (ops : List PackOp) (sha : Bytes) (hsha : sha ≠ []) :
    ∃ b, ((ops.foldl (packStep zl order dir) db).hasObject order dir sha).2 = .ok b ∧
      (b = true ↔ ∃ it ∈ l, sha ∈ names it) := by
  rw [C42_history zl order dir db l hl hs ops sha]
  have hp : PInv (dirFiles dir) (l.map (PackItem.key (dirFiles dir))) [] l := by
    refine ⟨?_, by simp, l, [], by simp, List.Perm.refl _, rfl, List.Pairwise.nil, by simp⟩
    intro k hk
    obtain ⟨it, hit, rfl⟩ := List.mem_map.mp hk
    obtain ⟨c, hc, hi⟩ := hx it hit
    obtain ⟨x, hx, -⟩ := isIndex_load hi
    exact ⟨x, by unfold PackItem.key; rw [hc]; exact hx⟩
  rw [(packInfo_inv hl hp hsha).2.1]
  have : (l.map (PackItem.key (dirFiles dir))).any (keyHas sha) = true ↔ ∃ it ∈ l, sha ∈ names it := by
    rw [List.any_eq_true]
    constructor
    · rintro ⟨k, hk, h⟩
      obtain ⟨it, hit, rfl⟩ := List.mem_map.mp hk
      exact ⟨it, hit, (keyHas_iff (hx it hit) hsha).mp h⟩
    · rintro ⟨it, hit, h⟩
      exact ⟨_, List.mem_map_of_mem hit, (keyHas_iff (hx it hit) hsha).mpr h⟩
  unfold answer
  by_cases h : (l.map (PackItem.key (dirFiles dir))).any (keyHas sha) = true
  · rw [if_pos h]; exact ⟨true, rfl, by simp [this.mp h]⟩
  · rw [if_neg h]
    refine ⟨false, rfl, by simpa using fun it hit hm => h (this.mpr ⟨it, hit, hm⟩)⟩

theorem loadIndices_lists {dir : PackDir} (names : PackItem → List Bytes) : ∀ {l : List PackItem},
    (∀ it ∈ l, Lists dir it (names it)) → ∃ l' xs, loadIndices dir l = (l', .ok xs) ∧
      (xs.map IndexFile.size).foldl (· + ·) 0 = (l.flatMap names).length ∧
      (xs.flatMap fun x => (List.range x.size).map x.sha) = l.flatMap names
  | [], _ => ⟨[], [], rfl, rfl, rfl⟩
  | it :: l, h => by
    obtain ⟨c, hc, hi⟩ := h it (by simp)
    obtain ⟨x, hx, ho⟩ := isIndex_load hi
    obtain ⟨l', xs, e, h1, h2⟩ := loadIndices_lists names (l := l) (fun a ha => h a (by simp [ha]))
    have hix : (it.index dir).2 = .ok x := by rw [index_snd, hc]; exact hx
    rcases hit : it.index dir with ⟨it', r⟩
    rw [hit] at hix
    subst hix
    refine ⟨it' :: l', x :: xs, ?_, ?_, ?_⟩
    · simp only [loadIndices, hit, e]
    · have hf : ∀ (m : List Nat) (a : Nat), m.foldl (· + ·) a = a + m.foldl (· + ·) 0 := by
        intro m
        induction m with
        | nil => simp
        | cons y m ih => intro a; simp only [List.foldl_cons]; rw [ih (a + y), ih (0 + y)]; omega
      rw [List.map_cons, List.foldl_cons, hf, h1, ho.size, List.flatMap_cons, List.length_append]
      omega
    · rw [List.flatMap_cons, List.flatMap_cons, h2]
      congr 1
      apply List.ext_getElem
      · simp [ho.size]
      · intro i h3 h4
        simp [ho.sha i h4]

/-- **C42** With well-formed indices: after any history of reading operations, `sha_iter` yields every name in every index
as often as it is there (and nothing else), and `size` is how many these are. -/
theorem C42_lists (zl : Zlib) (order : List Bytes → List Bytes) (dir : Option PackDir) (db : PackedDB) (l : List PackItem)
    (hl : db.entities = some l) (hs : MostHitsFirst l) (names : Bytes → List Bytes)
    (hx : ∀ it ∈ l, Lists (dirFiles dir) it (names it.path)) (ops : List PackOp) :
    ∃ out, ((ops.foldl (packStep zl order dir) db).shaIter order dir).2 = .ok out ∧
      out.Perm (l.flatMap fun it => names it.path) ∧
      ((ops.foldl (packStep zl order dir) db).size order dir).2 = .ok (l.flatMap fun it => names it.path).length := by
  have hp : PInv (dirFiles dir) (l.map (PackItem.key (dirFiles dir))) [] l := by
    refine ⟨?_, by simp, l, [], by simp, List.Perm.refl _, rfl, List.Pairwise.nil, by simp⟩
    intro k hk
    obtain ⟨it, hit, rfl⟩ := List.mem_map.mp hk
    obtain ⟨c, hc, hi⟩ := hx it hit
    obtain ⟨x, hx, -⟩ := isIndex_load hi
    exact ⟨x, by unfold PackItem.key; rw [hc]; exact hx⟩
  obtain ⟨l', h1, h2⟩ := history_keeps (zl := zl) (order := order) ops hl hp
  obtain ⟨pre, suf, rfl, hperm, hsuf, -, -⟩ := h2.ex
  have hsuf : suf = [] := by cases suf with
    | nil => rfl
    | cons => simp at hsuf
  subst hsuf
  rw [List.append_nil] at h1
  have hmem : ∀ it ∈ pre, Lists (dirFiles dir) it (names it.path) := by
    intro it hit
    obtain ⟨it0, h3, h4⟩ := List.mem_map.mp (hperm.mem_iff.mp (List.mem_map_of_mem hit))
    obtain ⟨c, hc, hi⟩ := hx it0 h3
    have hc' : it0.content (dirFiles dir) = it.content (dirFiles dir) := congrArg (fun k => k.2.2) h4
    have hp' : it0.path = it.path := congrArg (fun k => k.1) h4
    exact ⟨c, by rw [← hc', hc], by rw [← hp']; exact hi⟩
  have hpn : (pre.flatMap fun it => names it.path).Perm (l.flatMap fun it => names it.path) := by
    have := hperm.flatMap_right (fun k => names k.1)
    rw [List.flatMap_map, List.flatMap_map] at this
    exact this
  obtain ⟨l1, xs, e, s1, s2⟩ := loadIndices_lists (fun it => names it.path) hmem
  have hload : ∀ d : PackedDB, d.entities = some pre → d.load order dir = (d, .ok pre) := by
    intro d hd; unfold PackedDB.load; rw [hd]
  refine ⟨pre.flatMap fun it => names it.path, ?_, hpn, ?_⟩
  · simp only [PackedDB.shaIter, hload _ h1, e, s2]
  · simp only [PackedDB.size, hload _ h1, e, s1, hpn.length_eq]

/-- What one pack answers to an abbreviation: the first of its names, in order, that begins with the digits. -/
theorem complete_find {dir : PackDir} {it : PackItem} {names : List Bytes} (h : Lists dir it names) (hd : names.Nodup)
    (part : Bytes) (digits : List Nat) (hp : IsAbbrev part digits) (h3 : 3 ≤ digits.length) (h40 : digits.length ≤ 40) :
    (it.complete dir part digits.length).2 = .ok (names.find? fun n => decide (HasDigits digits n)) := by
  obtain ⟨c, hc, hi⟩ := h
  obtain ⟨x, hx, ho⟩ := isIndex_load hi
  have hix : (it.index dir).2 = .ok x := by rw [index_snd, hc]; exact hx
  have hlen := hp.length
  unfold PackItem.complete
  rw [if_neg (by omega)]
  rcases hit : it.index dir with ⟨it', r⟩
  rw [hit] at hix
  subst hix
  simp only
  rcases partial_first ho hd part digits hp h3 h40 with ⟨i, hi, e, h1, h2⟩ | ⟨e, h1⟩
  · simp only [e]
    rw [ho.sha i hi]
    congr 1
    symm
    rw [List.find?_eq_some_iff_getElem]
    exact ⟨by simpa using h1, i, hi, rfl, fun j hj => by simpa using h2 j hj⟩
  · simp only [e]
    congr 1
    symm
    rw [List.find?_eq_none]
    simpa using h1

/-- The first matches of the packs. -/
def firstMatches (names : PackItem → List Bytes) (digits : List Nat) (l : List PackItem) : List Bytes :=
  l.filterMap fun it => (names it).find? fun n => decide (HasDigits digits n)

theorem completeLoop_spec {dir : PackDir} (names : PackItem → List Bytes)
    (part : Bytes) (digits : List Nat) (hp : IsAbbrev part digits) (h3 : 3 ≤ digits.length) (h40 : digits.length ≤ 40) :
    ∀ (l : List PackItem) (cand : Option Bytes), (∀ it ∈ l, Lists dir it (names it)) → (∀ it ∈ l, (names it).Nodup) →
      (∀ it ∈ l, [] ∉ names it) → cand ≠ some [] →
      ((∃ a ∈ cand.toList ++ firstMatches names digits l, ∃ b ∈ cand.toList ++ firstMatches names digits l, a ≠ b) ∧
        (completeLoop dir part digits.length l cand).2 = .error .ambiguousObjectName) ∨
      ((∀ a ∈ cand.toList ++ firstMatches names digits l, ∀ b ∈ cand.toList ++ firstMatches names digits l, a = b) ∧
        (completeLoop dir part digits.length l cand).2 = .ok (cand.toList ++ firstMatches names digits l).head?) := by
  intro l
  induction l with
  | nil =>
    intro cand _ _ _ _
    right
    refine ⟨?_, ?_⟩
    · cases cand <;> simp [firstMatches]
    · cases cand <;> rfl
  | cons it l ih =>
    intro cand hl hn he hc
    have hf := complete_find (hl it (by simp)) (hn it (by simp)) part digits hp h3 h40
    have hl' : ∀ it ∈ l, Lists dir it (names it) := fun a ha => hl a (by simp [ha])
    have hn' : ∀ it ∈ l, (names it).Nodup := fun a ha => hn a (by simp [ha])
    have he' : ∀ it ∈ l, [] ∉ names it := fun a ha => he a (by simp [ha])
    unfold completeLoop
    rcases hq : it.complete dir part digits.length with ⟨it', r⟩
    rw [hq] at hf
    subst hf
    rcases hm : (names it).find? (fun n => decide (HasDigits digits n)) with _ | a
    · have hfs : firstMatches names digits (it :: l) = firstMatches names digits l := by simp [firstMatches, hm]
      rw [hfs]
      exact ih cand hl' hn' he' hc
    · have hfs : firstMatches names digits (it :: l) = a :: firstMatches names digits l := by simp [firstMatches, hm]
      rw [hfs]
      have ha : a ≠ [] := by
        rintro rfl
        exact he it (by simp) (List.mem_of_find?_eq_some hm)
      have hrec := ih (some a) hl' hn' he' (by simpa using ha)
      simp only [Option.toList_some, List.singleton_append] at hrec
      cases cand with
      | none =>
        simp only [Option.any_none, Option.toList_none, List.nil_append]
        exact hrec
      | some c =>
        by_cases hca : c = a
        · subst hca
          have : (some c).any (fun d => decide (d ≠ [] ∧ d ≠ c)) = false := by simp
          simp only [this, Option.toList_some, List.singleton_append]
          rcases hrec with ⟨⟨x, hx, y, hy, hxy⟩, e⟩ | ⟨h1, e⟩
          · left
            exact ⟨⟨x, by simpa using hx, y, by simpa using hy, hxy⟩, e⟩
          · right
            refine ⟨?_, by simpa using e⟩
            intro x hx y hy
            exact h1 x (by simpa using hx) y (by simpa using hy)
        · left
          have : (some c).any (fun d => decide (d ≠ [] ∧ d ≠ a)) = true := by
            simp only [Option.any_some, decide_eq_true_eq]
            exact ⟨fun h => hc (by rw [h]), hca⟩
          simp only [this, if_true]
          exact ⟨⟨c, by simp, a, by simp, hca⟩, by trivial⟩

/-- **C21** An abbreviation in several packs: `BadObject` if no pack has a name that begins with the digits; otherwise the first matching
name of each pack counts (`C21_never_ambiguous`: a pack does not report that it has several), and the answer is this name if it is
the same in all of them, and `AmbiguousObjectName` if not. -/
theorem C21_packs (order : List Bytes → List Bytes) (dir : Option PackDir) (db : PackedDB) (l : List PackItem)
    (hl : db.entities = some l) (names : PackItem → List Bytes) (hx : ∀ it ∈ l, Lists (dirFiles dir) it (names it))
    (hn : ∀ it ∈ l, (names it).Nodup) (part : Bytes) (digits : List Nat) (hp : IsAbbrev part digits)
    (h3 : 3 ≤ digits.length) (h40 : digits.length ≤ 40) :
    ((∀ it ∈ l, ∀ n ∈ names it, ¬ HasDigits digits n) ∧
      (db.partialToComplete order dir part digits.length).2 = .error .badObject) ∨
    (∃ a ∈ firstMatches names digits l, (∀ b ∈ firstMatches names digits l, b = a) ∧
      (db.partialToComplete order dir part digits.length).2 = .ok a) ∨
    (∃ a ∈ firstMatches names digits l, ∃ b ∈ firstMatches names digits l, a ≠ b ∧
      (db.partialToComplete order dir part digits.length).2 = .error .ambiguousObjectName) := by
  have hload : db.load order dir = (db, .ok l) := by unfold PackedDB.load; rw [hl]
  have he : ∀ it ∈ l, [] ∉ names it := by
    intro it hit h0
    obtain ⟨c, hc, hi⟩ := hx it hit
    obtain ⟨x, -, ho⟩ := isIndex_load hi
    have := ho.len _ h0
    simp at this
  have hspec := completeLoop_spec names part digits hp h3 h40 l none hx hn he (by simp)
  simp only [Option.toList_none, List.nil_append] at hspec
  unfold PackedDB.partialToComplete
  simp only [hload]
  rcases hq : completeLoop (dirFiles dir) part digits.length l none with ⟨l', r⟩
  rw [hq] at hspec
  rcases hspec with ⟨⟨a, ha, b, hb, hab⟩, e⟩ | ⟨h1, e⟩
  · simp only at e
    subst e
    exact Or.inr (Or.inr ⟨a, ha, b, hb, hab, rfl⟩)
  · simp only at e
    subst e
    rcases hf : firstMatches names digits l with _ | ⟨a, fs⟩
    · left
      refine ⟨?_, rfl⟩
      intro it hit n hnm hd
      unfold firstMatches at hf
      rw [List.filterMap_eq_nil_iff] at hf
      have := hf it hit
      rw [List.find?_eq_none] at this
      exact this n hnm (by simpa using hd)
    · right; left
      refine ⟨a, by simp, ?_, ?_⟩
      · intro b hb
        exact h1 b (by rw [hf]; exact hb) a (by rw [hf]; simp)
      · have ha : a ≠ [] := by
          rintro rfl
          have : ([] : Bytes) ∈ firstMatches names digits l := by rw [hf]; simp
          unfold firstMatches at this
          obtain ⟨it, hit, hm⟩ := List.mem_filterMap.mp this
          exact he it hit (List.mem_of_find?_eq_some hm)
        rcases a with _ | ⟨x, a⟩
        · exact absurd rfl ha
        · rfl

theorem index_of_key {dir : PackDir} {it : PackItem} {x : IndexFile} (h : indexOf (it.content dir) = .ok x) :
    it.entity dir = .ok ⟨x, it.pack⟩ := by
  unfold PackItem.entity
  rw [index_snd, h]

/-- **C42** What is found is served from a pack that contains it: in whatever order the packs are, `stream` and `info` return
what the pack itself returns for that name. -/
theorem C42_served (zl : Zlib) (fuel : Nat) (order : List Bytes → List Bytes) (dir : Option PackDir) (db : PackedDB)
    (l : List PackItem) (hl : db.entities = some l) (names : PackItem → List Bytes)
    (hx : ∀ it ∈ l, Lists (dirFiles dir) it (names it)) (sha : Bytes) (hsha : sha ≠ []) :
    ((∀ it ∈ l, sha ∉ names it) ∧ (db.stream fuel order dir sha).2 = .error .badObject ∧
      (db.info zl fuel order dir sha).2 = .error .badObject) ∨
    ∃ it ∈ l, sha ∈ names it ∧ ∃ c x, it.content (dirFiles dir) = some c ∧ IndexFile.load c = .ok x ∧
      (db.stream fuel order dir sha).2 = PackEntity.stream ⟨x, it.pack⟩ fuel sha ∧
      (db.info zl fuel order dir sha).2 = PackEntity.info zl ⟨x, it.pack⟩ fuel sha := by
  have hload : db.load order dir = (db, .ok l) := by unfold PackedDB.load; rw [hl]
  obtain ⟨l1, hl1, hperm⟩ : ∃ l1, (if db.hitCount % sortInterval = 0 then sortItems l else l) = l1 ∧ l1.Perm l :=
    ⟨_, rfl, by
      split
      · exact sortItems_perm l
      · exact List.Perm.refl _⟩
  have hp : PInv (dirFiles dir) (l1.map (PackItem.key (dirFiles dir))) [] l1 := by
    refine ⟨?_, by simp, l1, [], by simp, List.Perm.refl _, rfl, List.Pairwise.nil, by simp⟩
    intro k hk
    obtain ⟨it, hit, rfl⟩ := List.mem_map.mp hk
    obtain ⟨c, hc, hi⟩ := hx it (hperm.mem_iff.mp hit)
    obtain ⟨x, hx, -⟩ := isIndex_load hi
    exact ⟨x, by unfold PackItem.key; rw [hc]; exact hx⟩
  have hout := (pinv_scan hp hsha).2
  rcases hsc : scanItems (dirFiles dir) sha l1 with ⟨l2, e | o⟩
  · rw [hsc] at hout
    simp only [answer, outcome] at hout
    split at hout <;> simp at hout
  · cases o with
    | none =>
      refine Or.inl ⟨?_, ?_, ?_⟩
      · rw [hsc] at hout
        simp only [answer, outcome] at hout
        split at hout
        · simp at hout
        · rename_i hno
          intro it hit hm
          exact hno (List.any_eq_true.mpr ⟨_, List.mem_map_of_mem (hperm.mem_iff.mpr hit),
            (keyHas_iff (hx it hit) hsha).mpr hm⟩)
      · simp [PackedDB.stream, PackedDB.packInfo, hload, hl1, hsc]
      · simp [PackedDB.info, PackedDB.packInfo, hload, hl1, hsc]
    | some r =>
      obtain ⟨it, i⟩ := r
      obtain ⟨it0, x, k1, k2, k3, k4, -⟩ := scan_found (dirFiles dir) hsha l1 l2 it i hsc
      have hit0 := hperm.mem_iff.mp k1
      obtain ⟨c, hc, hi⟩ := hx it0 hit0
      obtain ⟨x', hx', ho⟩ := isIndex_load hi
      have hxx : x' = x := by
        rw [hc] at k3
        have : IndexFile.load c = .ok x := k3
        rw [hx'] at this
        exact Except.ok.inj this
      subst hxx
      simp only [PackItem.key, Prod.mk.injEq] at k2
      obtain ⟨kp, kq, kc⟩ := k2
      have hent : it.entity (dirFiles dir) = .ok ⟨x', it0.pack⟩ := by
        rw [index_of_key (x := x') (by rw [kc]; exact k3), kq]
      have hname : (names it0)[i]? = some sha := by
        rcases shaToIndex_spec ho sha hsha with ⟨j, e1, e2⟩ | ⟨e1, -⟩
        · rw [k4] at e1
          simp only [Except.ok.injEq, Option.some.injEq] at e1
          rw [e1]; exact e2
        · rw [k4] at e1; simp at e1
      have hsh : x'.sha i = sha := by
        obtain ⟨hlt, he⟩ := List.getElem?_eq_some_iff.mp hname
        rw [ho.sha i hlt, he]
      refine Or.inr ⟨it0, hit0, List.mem_of_getElem? hname, c, x', hc, hx', ?_, ?_⟩
      · simp [PackedDB.stream, PackedDB.packInfo, hload, hl1, hsc, hent, PackEntity.stream, PackEntity.shaToIndex, k4, hsh]
      · simp [PackedDB.info, PackedDB.packInfo, hload, hl1, hsc, hent, PackEntity.info, PackEntity.shaToIndex, k4]

/-! ## C43 -/

/-- Anything that can be done to a pack database. -/
inductive PackCall where
  | update (force : Bool)
  | read (op : PackOp)

/-- The database after a call with the directory in this state. -/
def packCall (zl : Zlib) (order : List Bytes → List Bytes) (db : PackedDB) (x : Option PackDir × PackCall) : PackedDB :=
  match x.2 with
  | .update force => (db.updateCache order x.1 force).1
  | .read op => packStep zl order x.1 db op

/-- A new database after a series of calls, the directory changing between them. -/
def packRun (zl : Zlib) (order : List Bytes → List Bytes) (tr : List (Option PackDir × PackCall)) : PackedDB :=
  tr.foldl (packCall zl order) {}

theorem load_entities (order : List Bytes → List Bytes) (dir : Option PackDir) (db : PackedDB) :
    ∃ l, (db.load order dir).1.entities = some l ∧ ∀ l', (db.load order dir).2 = .ok l' → l' = l := by
  unfold PackedDB.load
  rcases hl : db.entities with _ | l
  · simp only
    rcases dir with _ | dir
    · exact ⟨[], rfl, by simp⟩
    · simp only
      rcases refreshItems order dir [] with ⟨l, e | u⟩
      · exact ⟨l, rfl, by simp⟩
      · exact ⟨l, rfl, by simp⟩
  · exact ⟨l, hl, by simp⟩

theorem same_paths {dir : PackDir} {l l' : List PackItem} (h : l'.map (PackItem.key dir) = l.map (PackItem.key dir)) :
    l'.map PackItem.path = l.map PackItem.path := by
  have := congrArg (List.map Prod.fst) h
  simpa [PackItem.key, Function.comp_def] using this

theorem scan_paths (dir : PackDir) (sha : Bytes) : ∀ l : List PackItem,
    (scanItems dir sha l).1.map PackItem.path = l.map PackItem.path
  | [] => rfl
  | a :: l => by
    have h2 := congrArg Prod.fst (find_fst dir a sha).1
    simp only [PackItem.key] at h2
    unfold scanItems
    rcases hf : a.find dir sha with ⟨a1, e | o⟩
    · rw [hf] at h2
      simp only at h2
      simp [h2]
    · rw [hf] at h2
      simp only at h2
      cases o with
      | none => simp [h2, scan_paths dir sha l]
      | some i => simp [h2]

/-- A reading operation loads the packs if that has not been done, and keeps them. -/
theorem step_paths (zl : Zlib) (order : List Bytes → List Bytes) (dir : Option PackDir) (db : PackedDB) (op : PackOp) :
    ∃ l l', (db.load order dir).1.entities = some l ∧ (packStep zl order dir db op).entities = some l' ∧
      (l'.map PackItem.path).Perm (l.map PackItem.path) ∧
      (packStep zl order dir db op).mtime = (db.load order dir).1.mtime := by
  obtain ⟨l, h1, h2⟩ := load_entities order dir db
  have hp : ∀ sha, ∃ l', (db.packInfo order dir sha).1.entities = some l' ∧
      (l'.map PackItem.path).Perm (l.map PackItem.path) ∧
      (db.packInfo order dir sha).1.mtime = (db.load order dir).1.mtime := by
    intro sha
    unfold PackedDB.packInfo
    rcases hd : db.load order dir with ⟨db1, e | l1⟩
    · rw [hd] at h1
      exact ⟨l, h1, List.Perm.refl _, rfl⟩
    · rw [hd] at h2
      obtain rfl := h2 l1 rfl
      have hs : ((if db1.hitCount % sortInterval = 0 then sortItems l1 else l1).map PackItem.path).Perm
          (l1.map PackItem.path) := by
        split
        · exact (sortItems_perm _).map _
        · exact List.Perm.refl _
      have hsc := scan_paths (dirFiles dir) sha (if db1.hitCount % sortInterval = 0 then sortItems l1 else l1)
      simp only
      rcases hq : scanItems (dirFiles dir) sha (if db1.hitCount % sortInterval = 0 then sortItems l1 else l1) with ⟨l2, e | o⟩
      · rw [hq] at hsc
        exact ⟨l2, rfl, by rw [show l2.map PackItem.path = _ from hsc]; exact hs, rfl⟩
      · rw [hq] at hsc
        cases o <;> exact ⟨l2, rfl, by rw [show l2.map PackItem.path = _ from hsc]; exact hs, rfl⟩
  have hli : ∀ l1, (loadIndices (dirFiles dir) l1).1.map PackItem.path = l1.map PackItem.path :=
    fun l1 => same_paths (loadIndices_same (dirFiles dir) l1).1
  cases op with
  | has sha => obtain ⟨l', a, b, c⟩ := hp sha; exact ⟨l, l', h1, by rw [packStep, hasObject_fst]; exact a, b, by rw [packStep, hasObject_fst]; exact c⟩
  | info fuel sha => obtain ⟨l', a, b, c⟩ := hp sha; exact ⟨l, l', h1, by rw [packStep, info_fst]; exact a, b, by rw [packStep, info_fst]; exact c⟩
  | stream fuel sha => obtain ⟨l', a, b, c⟩ := hp sha; exact ⟨l, l', h1, by rw [packStep, stream_fst]; exact a, b, by rw [packStep, stream_fst]; exact c⟩
  | size =>
    unfold packStep PackedDB.size
    rcases hd : db.load order dir with ⟨db1, e | l1⟩
    · rw [hd] at h1
      exact ⟨l, l, h1, h1, List.Perm.refl _, rfl⟩
    · rw [hd] at h1 h2
      obtain rfl := h2 l1 rfl
      have := hli l1
      simp only
      rcases hq : loadIndices (dirFiles dir) l1 with ⟨l2, e | xs⟩ <;>
        (rw [hq] at this; exact ⟨l1, l2, h1, rfl, by rw [show l2.map PackItem.path = _ from this], rfl⟩)
  | iter =>
    unfold packStep PackedDB.shaIter
    rcases hd : db.load order dir with ⟨db1, e | l1⟩
    · rw [hd] at h1
      exact ⟨l, l, h1, h1, List.Perm.refl _, rfl⟩
    · rw [hd] at h1 h2
      obtain rfl := h2 l1 rfl
      have := hli l1
      simp only
      rcases hq : loadIndices (dirFiles dir) l1 with ⟨l2, e | xs⟩ <;>
        (rw [hq] at this; exact ⟨l1, l2, h1, rfl, by rw [show l2.map PackItem.path = _ from this], rfl⟩)
  | complete part n =>
    unfold packStep PackedDB.partialToComplete
    rcases hd : db.load order dir with ⟨db1, e | l1⟩
    · rw [hd] at h1
      exact ⟨l, l, h1, h1, List.Perm.refl _, rfl⟩
    · rw [hd] at h1 h2
      obtain rfl := h2 l1 rfl
      have := same_paths (completeLoop_same (dirFiles dir) part n l1 none).1
      simp only
      rcases hq : completeLoop (dirFiles dir) part n l1 none with ⟨l2, e | o⟩
      · rw [hq] at this
        exact ⟨l1, l2, h1, rfl, by rw [show l2.map PackItem.path = _ from this], rfl⟩
      · rw [hq] at this
        rcases o with _ | (_ | _) <;> exact ⟨l1, l2, h1, rfl, by rw [show l2.map PackItem.path = _ from this], rfl⟩

/-- Each pack once. -/
def PathsOnce (db : PackedDB) : Prop := ∀ l, db.entities = some l → (l.map PackItem.path).Nodup

theorem load_once {order : List Bytes → List Bytes} (ho : ∀ l, (order l).Perm l) {dir : Option PackDir}
    (hd : ∀ d, dir = some d → d.Wf) {db : PackedDB} (h : PathsOnce db) : PathsOnce (db.load order dir).1 := by
  unfold PackedDB.load
  rcases hl : db.entities with _ | l
  · simp only
    rcases dir with _ | dir
    · intro l hl; simp only [Option.some.injEq] at hl; subst hl; simp
    · simp only
      have := (refresh_spec ho (hd dir rfl) (items := []) (by simp)).1
      rcases hr : refreshItems order dir [] with ⟨l, e | u⟩ <;>
      · rw [hr] at this
        intro l' hl'
        simp only [Option.some.injEq] at hl'
        subst hl'
        exact this
  · exact h

theorem update_once {order : List Bytes → List Bytes} (ho : ∀ l, (order l).Perm l) {dir : Option PackDir}
    (hd : ∀ d, dir = some d → d.Wf) {db : PackedDB} (h : PathsOnce db) (force : Bool) :
    PathsOnce (db.updateCache order dir force).1 := by
  unfold PackedDB.updateCache
  rcases dir with _ | d
  · exact h
  · simp only
    split
    · exact h
    · have h1 := load_once ho hd (db := { db with mtime := d.mtime }) h
      obtain ⟨l, e1, e2⟩ := load_entities order (some d) { db with mtime := d.mtime }
      rcases hq : PackedDB.load order (some d) { db with mtime := d.mtime } with ⟨db1, e | l1⟩
      · rw [hq] at h1; exact h1
      · rw [hq] at h1 e1 e2
        obtain rfl := e2 l1 rfl
        have := (refresh_spec ho (hd d rfl) (h1 l1 e1)).1
        simp only
        rcases hr : refreshItems order d l1 with ⟨l2, e | u⟩ <;>
        · rw [hr] at this
          intro l' hl'
          simp only [Option.some.injEq] at hl'
          subst hl'
          exact this

theorem run_once (zl : Zlib) {order : List Bytes → List Bytes} (ho : ∀ l, (order l).Perm l)
    (tr : List (Option PackDir × PackCall)) (hd : ∀ x ∈ tr, ∀ d, x.1 = some d → d.Wf) : PathsOnce (packRun zl order tr) := by
  unfold packRun
  have : ∀ (tr : List (Option PackDir × PackCall)) (db : PackedDB), (∀ x ∈ tr, ∀ d, x.1 = some d → d.Wf) →
      PathsOnce db → PathsOnce (tr.foldl (packCall zl order) db) := by
    intro tr
    induction tr with
    | nil => intro db _ h; exact h
    | cons x tr ih =>
      intro db hd h
      refine ih _ (fun y hy => hd y (by simp [hy])) ?_
      obtain ⟨dir, call⟩ := x
      have hd' := hd _ (by simp : (dir, call) ∈ (dir, call) :: tr)
      cases call with
      | update force => exact update_once ho hd' h force
      | read op =>
        obtain ⟨l, l', k1, k2, k3, -⟩ := step_paths zl order dir db op
        intro l1 hl1
        simp only [packCall] at hl1
        rw [k2] at hl1
        simp only [Option.some.injEq] at hl1
        subst hl1
        exact k3.nodup_iff.mpr (load_once ho hd' h l k1)
  exact this tr {} hd (by intro l hl; simp at hl)

/-- **C43** Whatever happened before, with the directory changing in any way and exceptions of any kind:

* if `update_cache` returns True then the database uses exactly the files `pack-*.pack` of the directory, each once; packs it
  knew and that are still there keep their entity (with hits and mapped index); the others are new; they are sorted by hits;
* if it returns False then nothing changed in the database, it was not forced, and the modification time of the directory is
  not newer than the one seen last;
* if the pack files can be read it does not raise an exception. -/
theorem C43_refresh (zl : Zlib) (order : List Bytes → List Bytes) (ho : ∀ l, (order l).Perm l)
    (tr : List (Option PackDir × PackCall)) (hw : ∀ x ∈ tr, ∀ d, x.1 = some d → d.Wf) (d : PackDir) (hd : d.Wf) (force : Bool) :
    let db := packRun zl order tr
    let r := db.updateCache order (some d) force
    (r.2 = .ok true → ∃ l', r.1.entities = some l' ∧ (l'.map PackItem.path).Nodup ∧
      (∀ p, p ∈ l'.map PackItem.path ↔ p ∈ d.files.map Prod.fst ∧ IsPackName p) ∧
      (∀ l, db.entities = some l → ∀ it ∈ l, it.path ∈ l'.map PackItem.path → it ∈ l') ∧
      (∀ it ∈ l', (∃ l, db.entities = some l ∧ it ∈ l) ∨ FreshItem d it) ∧ MostHitsFirst l' ∧
      r.1.hitCount = db.hitCount ∧ r.1.mtime = d.mtime) ∧
    (r.2 = .ok false → r.1 = db ∧ force = false ∧ d.mtime ≤ db.mtime) ∧
    ((∀ p ∈ d.files.map Prod.fst, IsPackName p → ∃ c pk, d.get p = some c ∧ PackFile.load c = .ok pk) →
      ∃ b, r.2 = .ok b ∧ (b = true ↔ force = true ∨ db.mtime < d.mtime)) := by
  have hon := run_once zl ho tr hw
  intro db r
  change PathsOnce db at hon
  by_cases hskip : force = false ∧ d.mtime ≤ db.mtime
  · have hr : r = (db, .ok false) := by
      show db.updateCache order (some d) force = _
      unfold PackedDB.updateCache
      simp only
      rw [if_pos hskip]
    rw [hr]
    refine ⟨by simp, fun _ => ⟨rfl, hskip⟩, fun _ => ⟨false, rfl, ?_⟩⟩
    simp only [Bool.false_eq_true, false_iff, hskip.1, false_or]
    omega
  · have hcond : force = true ∨ db.mtime < d.mtime := by
      cases force with
      | true => exact Or.inl rfl
      | false =>
        right
        have : ¬ d.mtime ≤ db.mtime := fun h => hskip ⟨rfl, h⟩
        omega
    have hr : r = match PackedDB.load order (some d) { db with mtime := d.mtime } with
      | (db, .error e) => (db, .error e)
      | (db, .ok l) =>
        match refreshItems order d l with
        | (l, .error e) => ({ db with entities := some l }, .error e)
        | (l, .ok ()) => ({ db with entities := some l }, .ok true) := by
      show db.updateCache order (some d) force = _
      unfold PackedDB.updateCache
      simp only
      rw [if_neg hskip]
      rfl
    rcases hl : db.entities with _ | l
    · -- not loaded before
      have hs0 := refresh_spec ho hd (items := []) (by simp)
      rcases hq : refreshItems order d [] with ⟨l1, e | u⟩
      · have hload : PackedDB.load order (some d) { db with mtime := d.mtime } =
            ({ db with entities := some l1, mtime := d.mtime }, .error e) := by
          unfold PackedDB.load; simp [hl, hq]
        rw [hload] at hr
        simp only at hr
        rw [hr]
        refine ⟨by simp, by simp, fun hgood => ?_⟩
        have := refresh_succeeds ho (dir := d) (items := []) (fun p hp => hgood p ((mem_packs d p).mp hp).1 ((mem_packs d p).mp hp).2)
        rw [hq] at this; simp at this
      · have hload : PackedDB.load order (some d) { db with mtime := d.mtime } =
            ({ db with entities := some l1, mtime := d.mtime }, .ok l1) := by
          unfold PackedDB.load; simp [hl, hq]
        rw [hload] at hr
        simp only at hr
        rw [hq] at hs0
        obtain ⟨a1, a2, a3⟩ := hs0
        have a3 := a3 rfl
        have hs1 := refresh_spec ho hd (items := l1) a1
        rcases hq1 : refreshItems order d l1 with ⟨l2, e | u⟩
        · rw [hq1] at hr
          simp only at hr
          rw [hr]
          refine ⟨by simp, by simp, fun hgood => ?_⟩
          have := refresh_succeeds ho (dir := d) (items := l1) (fun p hp => hgood p ((mem_packs d p).mp hp).1 ((mem_packs d p).mp hp).2)
          rw [hq1] at this; simp at this
        · rw [hq1] at hr hs1
          simp only at hr
          rw [hr]
          obtain ⟨b1, b2, b3⟩ := hs1
          obtain ⟨b3, b4, b5⟩ := b3 rfl
          refine ⟨fun _ => ⟨l2, rfl, b1, ?_, by simp, ?_, b5, rfl, rfl⟩, by simp, fun _ => ⟨true, rfl, by simp [hcond]⟩⟩
          · intro p; rw [← mem_packs]; exact b3 p
          · intro it hit
            right
            rcases b2 it hit with h | h
            · rcases a2 it h with h | h
              · simp at h
              · exact h.2.2
            · exact h.2.2
    · have hload : PackedDB.load order (some d) { db with mtime := d.mtime } =
          ({ db with mtime := d.mtime }, .ok l) := by
        unfold PackedDB.load; simp [hl]
      rw [hload] at hr
      simp only at hr
      have hs1 := refresh_spec ho hd (items := l) (hon l hl)
      rcases hq1 : refreshItems order d l with ⟨l2, e | u⟩
      · rw [hq1] at hr
        simp only at hr
        rw [hr]
        refine ⟨by simp, by simp, fun hgood => ?_⟩
        have := refresh_succeeds ho (dir := d) (items := l) (fun p hp => hgood p ((mem_packs d p).mp hp).1 ((mem_packs d p).mp hp).2)
        rw [hq1] at this; simp at this
      · rw [hq1] at hr hs1
        simp only at hr
        rw [hr]
        obtain ⟨b1, b2, b3⟩ := hs1
        obtain ⟨b3, b4, b5⟩ := b3 rfl
        refine ⟨fun _ => ⟨l2, rfl, b1, ?_, ?_, ?_, b5, rfl, rfl⟩, by simp, fun _ => ⟨true, rfl, by simp [hcond]⟩⟩
        · intro p; rw [← mem_packs]; exact b3 p
        · intro l0 hl0 it hit hp
          simp only [Option.some.injEq] at hl0
          subst hl0
          exact b4 it hit ((b3 _).mp hp)
        · intro it hit
          rcases b2 it hit with h | h
          · exact Or.inl ⟨l, rfl, h⟩
          · exact Or.inr h.2.2

/-- A directory whose packs can be used. -/
def Usable (d : PackDir) : Prop :=
  d.Wf ∧ ∀ p ∈ d.files.map Prod.fst, IsPackName p → ∃ c pk, d.get p = some c ∧ PackFile.load c = .ok pk

/-- The directory only changes (as far as packs come and go) when its modification time grows. -/
def Clock (ds : List PackDir) : Prop :=
  ds.Pairwise fun a b => b.mtime ≤ a.mtime → ∀ p, p ∈ b.packs ↔ p ∈ a.packs

/-- Exactly the packs of this directory, each once. -/
def Reflects (db : PackedDB) (d : PackDir) : Prop :=
  ∀ l, db.entities = some l → (l.map PackItem.path).Nodup ∧
    ∀ p, p ∈ l.map PackItem.path ↔ p ∈ d.files.map Prod.fst ∧ IsPackName p

/-- The state after calls with usable directories. -/
def Tracks (past : List PackDir) (db : PackedDB) : Prop :=
  ∀ l, db.entities = some l → ∃ d ∈ past, db.mtime = d.mtime ∧ (l.map PackItem.path).Nodup ∧
    ∀ p, p ∈ l.map PackItem.path ↔ p ∈ d.packs

theorem load_tracks {order : List Bytes → List Bytes} (ho : ∀ l, (order l).Perm l) {past : List PackDir} {db : PackedDB}
    (h : Tracks past db) {d : PackDir} (hu : Usable d) :
    Tracks (past ++ [d]) (db.load order (some d)).1 ∧ ∃ l, (db.load order (some d)).2 = .ok l := by
  have hs := refresh_spec ho hu.1 (items := []) (by simp)
  have hok := refresh_succeeds ho (dir := d) (items := []) (fun p hp => hu.2 p ((mem_packs d p).mp hp).1 ((mem_packs d p).mp hp).2)
  unfold PackedDB.load
  rcases hl : db.entities with _ | l
  · simp only
    rcases hq : refreshItems order d [] with ⟨l1, e | u⟩
    · rw [hq] at hok; simp at hok
    · rw [hq] at hs
      refine ⟨?_, l1, rfl⟩
      intro l' hl'
      simp only [Option.some.injEq] at hl'
      subst hl'
      exact ⟨d, by simp, rfl, hs.1, (hs.2.2 rfl).1⟩
  · refine ⟨?_, l, rfl⟩
    intro l' hl'
    obtain ⟨d0, h1, h2, h3⟩ := h l' (by simpa using hl')
    exact ⟨d0, by simp [h1], h2, h3⟩

theorem update_tracks {order : List Bytes → List Bytes} (ho : ∀ l, (order l).Perm l) {past : List PackDir} {db : PackedDB}
    (h : Tracks past db) {d : PackDir} (hu : Usable d) (force : Bool)
    (hc : ∀ a ∈ past, d.mtime ≤ a.mtime → ∀ p, p ∈ d.packs ↔ p ∈ a.packs) :
    Tracks (past ++ [d]) (db.updateCache order (some d) force).1 ∧
    Reflects (db.updateCache order (some d) force).1 d ∧ ∃ b, (db.updateCache order (some d) force).2 = .ok b := by
  unfold PackedDB.updateCache
  simp only
  by_cases hskip : force = false ∧ d.mtime ≤ db.mtime
  · rw [if_pos hskip]
    refine ⟨?_, ?_, false, rfl⟩
    · intro l hl
      obtain ⟨d0, h1, h2⟩ := h l hl
      exact ⟨d0, by simp [h1], h2⟩
    · intro l hl
      obtain ⟨d0, h1, h2, h3, h4⟩ := h l hl
      refine ⟨h3, fun p => ?_⟩
      rw [h4, ← mem_packs, hc d0 h1 (by rw [← h2]; exact hskip.2)]
  · rw [if_neg hskip]
    have hn : ∃ l, PackedDB.load order (some d) { db with mtime := d.mtime } =
        ({ db with entities := some l, mtime := d.mtime }, .ok l) ∧ (l.map PackItem.path).Nodup := by
      have hs := refresh_spec ho hu.1 (items := []) (by simp)
      have hok := refresh_succeeds ho (dir := d) (items := []) (fun p hp => hu.2 p ((mem_packs d p).mp hp).1 ((mem_packs d p).mp hp).2)
      rcases hl : db.entities with _ | l
      · rcases hq : refreshItems order d [] with ⟨l1, e | u⟩
        · rw [hq] at hok; simp at hok
        · rw [hq] at hs
          exact ⟨l1, by simp [PackedDB.load, hq], hs.1⟩
      · obtain ⟨d0, h1, h2, h3, h4⟩ := h l hl
        exact ⟨l, by simp [PackedDB.load], h3⟩
    obtain ⟨l, e1, e2⟩ := hn
    rw [e1]
    simp only
    have hs := refresh_spec ho hu.1 (items := l) e2
    have hok := refresh_succeeds ho (dir := d) (items := l) (fun p hp => hu.2 p ((mem_packs d p).mp hp).1 ((mem_packs d p).mp hp).2)
    rcases hq : refreshItems order d l with ⟨l1, e | u⟩
    · rw [hq] at hok; simp at hok
    · rw [hq] at hs
      simp only
      refine ⟨?_, ?_, true, rfl⟩
      · intro l' hl'
        simp only [Option.some.injEq] at hl'
        subst hl'
        exact ⟨d, by simp, rfl, hs.1, (hs.2.2 rfl).1⟩
      · intro l' hl'
        simp only [Option.some.injEq] at hl'
        subst hl'
        exact ⟨hs.1, fun p => by rw [← mem_packs]; exact (hs.2.2 rfl).1 p⟩

theorem run_tracks (zl : Zlib) {order : List Bytes → List Bytes} (ho : ∀ l, (order l).Perm l) :
    ∀ (tr : List (PackDir × PackCall)) (past : List PackDir) (db : PackedDB), Tracks past db → (∀ x ∈ tr, Usable x.1) →
    Clock (past ++ tr.map Prod.fst) →
    Tracks (past ++ tr.map Prod.fst) ((tr.map fun x => (some x.1, x.2)).foldl (packCall zl order) db)
  | [], past, db, h, _, _ => by simpa using h
  | (d, call) :: tr, past, db, h, hu, hc => by
    have e : past ++ ((d, call) :: tr).map Prod.fst = (past ++ [d]) ++ tr.map Prod.fst := by simp
    rw [e] at hc ⊢
    simp only [List.map_cons, List.foldl_cons]
    have hud := hu (d, call) (by simp)
    have hcd : ∀ a ∈ past, d.mtime ≤ a.mtime → ∀ p, p ∈ d.packs ↔ p ∈ a.packs := by
      unfold Clock at hc
      rw [List.pairwise_append, List.pairwise_append] at hc
      intro a ha
      exact hc.1.2.2 a ha d (by simp)
    refine run_tracks zl ho tr (past ++ [d]) _ ?_ (fun x hx => hu x (by simp [hx])) hc
    cases call with
    | update force => exact (update_tracks ho h hud force hcd).1
    | read op =>
      obtain ⟨l, l', k1, k2, k3, k4⟩ := step_paths zl order (some d) db op
      intro l1 hl1
      simp only [packCall] at hl1 ⊢
      rw [k2] at hl1
      simp only [Option.some.injEq] at hl1
      subst hl1
      obtain ⟨d0, m1, m2, m3, m4⟩ := (load_tracks ho h hud).1 l k1
      exact ⟨d0, m1, by rw [k4, m2], k3.nodup_iff.mpr m3, fun p => by rw [k3.mem_iff]; exact m4 p⟩

/-- The full statement of **C43** for usable directories: after `update_cache()` the database reflects the directory. -/
def C43_full : Prop :=
  ∀ (zl : Zlib) (order : List Bytes → List Bytes), (∀ l, (order l).Perm l) → ∀ (tr : List (PackDir × PackCall)) (d : PackDir)
    (force : Bool), (∀ x ∈ tr, Usable x.1) → Usable d →
    Reflects ((packRun zl order (tr.map fun x => (some x.1, x.2))).updateCache order (some d) force).1 d

/-- **C43** holds if packs only come and go with a growing modification time of the directory.  Missing: changes within the
resolution of the time stamps, or with a clock set back, are not seen (`C43_not_full`), nor is anything after an exception
(`C43_gap`). -/
theorem C43_refresh_partial (zl : Zlib) (order : List Bytes → List Bytes) (ho : ∀ l, (order l).Perm l)
    (tr : List (PackDir × PackCall)) (d : PackDir) (force : Bool) (hu : ∀ x ∈ tr, Usable x.1) (hd : Usable d)
    (hc : Clock (tr.map Prod.fst ++ [d])) :
    Reflects ((packRun zl order (tr.map fun x => (some x.1, x.2))).updateCache order (some d) force).1 d ∧
    ∃ b, ((packRun zl order (tr.map fun x => (some x.1, x.2))).updateCache order (some d) force).2 = .ok b := by
  unfold Clock at hc
  rw [List.pairwise_append] at hc
  have := run_tracks zl ho tr [] {} (by intro l hl; simp at hl) hu (by simpa [Clock] using hc.1)
  exact (update_tracks ho (by simpa [packRun] using this) hd force (fun a ha => hc.2.2 a ha d (by simp))).2

/-- `pack-a.pack`, `pack-b.pack`, and an empty pack. -/
def nameA : Bytes := [0x70, 0x61, 0x63, 0x6b, 0x2d, 0x61, 0x2e, 0x70, 0x61, 0x63, 0x6b]
def nameB : Bytes := [0x70, 0x61, 0x63, 0x6b, 0x2d, 0x62, 0x2e, 0x70, 0x61, 0x63, 0x6b]
def emptyPack : Bytes := [0x50, 0x41, 0x43, 0x4b, 0, 0, 0, 2, 0, 0, 0, 0] ++ List.replicate 20 0

theorem usable_of {d : PackDir} (h1 : d.Wf)
    (h2 : ∀ p ∈ d.packs, ∃ c pk, d.get p = some c ∧ PackFile.load c = .ok pk) : Usable d :=
  ⟨h1, fun p hp hn => h2 p ((mem_packs d p).mpr ⟨hp, hn⟩)⟩

/-- A pack that arrives within the same tick of the clock is not seen. -/
theorem C43_not_full : ¬ C43_full := by
  intro h
  have := h toyZlib id (fun l => List.Perm.refl _) [(⟨5, []⟩, .update false)] ⟨5, [(nameA, emptyPack)]⟩ false
    (by
      intro x hx
      rw [List.mem_singleton.mp hx]
      exact ⟨by unfold PackDir.Wf; decide, by simp⟩)
    (usable_of (by unfold PackDir.Wf; decide) (by
      intro p hp
      rw [show PackDir.packs ⟨5, [(nameA, emptyPack)]⟩ = [nameA] by decide] at hp
      rw [List.mem_singleton.mp hp]
      exact ⟨emptyPack, ⟨emptyPack, 2, 0⟩, by decide, by decide⟩))
  have := (this [] (by decide)).2 nameA
  simp only [List.map_nil, List.not_mem_nil, false_iff] at this
  exact this ⟨by decide, [0x61], rfl⟩

/-- After an exception during the first access (here: a pack file that is not one), the packs that were not reached stay
unknown, without any further exception: objects in them are reported as missing, and `update_cache()` sees no change. -/
theorem C43_gap : ∃ (d : PackDir) (order : List Bytes → List Bytes) (e : Err), (∀ l, (order l).Perm l) ∧ d.Wf ∧
    nameB ∈ d.packs ∧
    (PackedDB.hasObject order (some d) {} [1]).2 = .error e ∧
    ∀ db, db = (PackedDB.hasObject order (some d) {} [1]).1 →
      (db.updateCache order (some d) false) = (db, .ok false) ∧ db.entities = some [] ∧
      ∀ sha, (db.hasObject order (some d) sha).2 = .ok false := by
  refine ⟨⟨5, [(nameA, [1, 2, 3]), (nameB, emptyPack)]⟩, id, .structError, fun l => List.Perm.refl _,
    by unfold PackDir.Wf; decide, by decide, by decide, ?_⟩
  intro db hdb
  have : db = { entities := some [], hitCount := 0, mtime := 5 } := by rw [hdb]; decide
  rw [this]
  exact ⟨by decide, rfl, fun sha => rfl⟩

/-! ### A new database on an unchanging directory -/

theorem step_load {zl : Zlib} {order : List Bytes → List Bytes} {dir : Option PackDir} {db db1 : PackedDB} {l : List PackItem}
    (h : db.load order dir = (db1, .ok l)) (h1 : db1.load order dir = (db1, .ok l)) (op : PackOp) :
    packStep zl order dir db op = packStep zl order dir db1 op := by
  cases op <;>
    simp only [packStep, PackedDB.hasObject, PackedDB.info, PackedDB.stream, PackedDB.packInfo, PackedDB.size, PackedDB.shaIter,
      PackedDB.partialToComplete, h, h1]

/-- **C42** and **C43** together: a new pack database on a directory whose packs have well-formed indices finds exactly the
objects of these indices, whatever was read before. -/
theorem C42_directory (zl : Zlib) (order : List Bytes → List Bytes) (ho : ∀ l, (order l).Perm l) (d : PackDir) (hd : Usable d)
    (names : Bytes → List Bytes)
    (hx : ∀ p ∈ d.files.map Prod.fst, IsPackName p → ∃ c, d.get (idxName p) = some c ∧ IsIndex c (names p))
    (ops : List PackOp) (sha : Bytes) (hsha : sha ≠ []) :
    ∃ b, ((ops.foldl (packStep zl order (some d)) {}).hasObject order (some d) sha).2 = .ok b ∧
      (b = true ↔ ∃ p ∈ d.files.map Prod.fst, IsPackName p ∧ sha ∈ names p) := by
  have hs := refresh_spec ho hd.1 (items := []) (by simp)
  have hok := refresh_succeeds ho (dir := d) (items := []) (fun p hp => hd.2 p ((mem_packs d p).mp hp).1 ((mem_packs d p).mp hp).2)
  rcases hq : refreshItems order d [] with ⟨l, e | u⟩
  · rw [hq] at hok; simp at hok
  · rw [hq] at hs
    obtain ⟨a1, a2, a3⟩ := hs
    obtain ⟨a3, -, a4⟩ := a3 rfl
    obtain ⟨db1, hdb1⟩ : ∃ db1 : PackedDB, db1 = { entities := some l, mtime := d.mtime } := ⟨_, rfl⟩
    have hload : PackedDB.load order (some d) {} = (db1, .ok l) := by rw [hdb1]; simp [PackedDB.load, hq]
    have hl : db1.entities = some l := by rw [hdb1]
    have hload1 : PackedDB.load order (some d) db1 = (db1, .ok l) := by simp [PackedDB.load, hl]
    have key := C42_member zl order (some d) db1 l hl a4 (fun it => names it.path) (by
      intro it hit
      rcases a2 it hit with h | ⟨h1, -, c0, -, -, -, h5⟩
      · simp at h
      · obtain ⟨c, k1, k2⟩ := hx it.path ((mem_packs d _).mp h1).1 ((mem_packs d _).mp h1).2
        refine ⟨c, ?_, k2⟩
        unfold PackItem.content
        rw [h5]; exact k1) 
    have hend : ∀ b : Bool, (b = true ↔ ∃ it ∈ l, sha ∈ names it.path) →
        (b = true ↔ ∃ p ∈ d.files.map Prod.fst, IsPackName p ∧ sha ∈ names p) := by
      intro b hb
      rw [hb]
      constructor
      · rintro ⟨it, hit, hm⟩
        have := (mem_packs d _).mp ((a3 _).mp (List.mem_map_of_mem hit))
        exact ⟨it.path, this.1, this.2, hm⟩
      · rintro ⟨p, h1, h2, hm⟩
        obtain ⟨it, hit, rfl⟩ := List.mem_map.mp ((a3 p).mpr ((mem_packs d p).mpr ⟨h1, h2⟩))
        exact ⟨it, hit, hm⟩
    cases ops with
    | nil =>
      obtain ⟨b, h1, h2⟩ := key [] sha hsha
      refine ⟨b, ?_, hend b h2⟩
      rw [← h1]
      simp only [List.foldl_nil, PackedDB.hasObject, PackedDB.packInfo, hload, hload1]
    | cons op ops =>
      obtain ⟨b, h1, h2⟩ := key (op :: ops) sha hsha
      refine ⟨b, ?_, hend b h2⟩
      rw [← h1]
      simp only [List.foldl_cons]
      rw [step_load hload hload1 op]

/-! Instances of the hypotheses: two packs, the three objects of `exEntries` in one index, one of them in the other too. -/

/-- `pack-a.idx`, `pack-b.idx` and a file that is not a pack. -/
def twoPacks (mtime : Int) (ia ib : Bytes) : PackDir :=
  ⟨mtime, [(nameA, emptyPack), (idxName nameA, ia), ([0x74, 0x6d, 0x70], []), (idxName nameB, ib), (nameB, emptyPack)]⟩

theorem twoPacks_usable (mtime : Int) (ia ib : Bytes) : Usable (twoPacks mtime ia ib) := by
  refine usable_of ?_ ?_
  · show [nameA, idxName nameA, [0x74, 0x6d, 0x70], idxName nameB, nameB].Nodup
    decide
  · intro p hp
    rw [show (twoPacks mtime ia ib).packs = [nameA, nameB] by rfl] at hp
    simp only [List.mem_cons, List.not_mem_nil, or_false] at hp
    rcases hp with rfl | rfl <;> exact ⟨emptyPack, ⟨emptyPack, 2, 0⟩, by rfl, by decide⟩

theorem exEntries_isIndex : IsIndex (indexV2 exEntries [] []) (exEntries.map Entry.name) :=
  ⟨exEntries_asc, exEntries, [], [], rfl, .inl ⟨exEntries_valid, rfl⟩⟩

theorem exEntries1_isIndex : IsIndex (indexV1 (exEntries.take 1) [] []) ((exEntries.take 1).map Entry.name) :=
  ⟨by unfold Ascending; decide, exEntries.take 1, [], [], rfl,
    .inr ⟨⟨by decide, by decide, by decide⟩, by decide, rfl⟩⟩

example (zl : Zlib) (ops : List PackOp) := C42_directory zl List.reverse (fun l => List.reverse_perm l)
  (twoPacks 5 (indexV2 exEntries [] []) (indexV1 (exEntries.take 1) [] [])) (twoPacks_usable _ _ _)
  (fun p => if p = nameA then exEntries.map Entry.name else (exEntries.take 1).map Entry.name)
  (by
    intro p h1 h2
    have := (mem_packs _ p).mpr ⟨h1, h2⟩
    obtain ⟨ia, hia⟩ : ∃ ia, ia = indexV2 exEntries [] [] := ⟨_, rfl⟩
    obtain ⟨ib, hib⟩ : ∃ ib, ib = indexV1 (exEntries.take 1) [] [] := ⟨_, rfl⟩
    rw [← hia, ← hib] at this ⊢
    rw [show (twoPacks 5 ia ib).packs = [nameA, nameB] by rfl] at this
    simp only [List.mem_cons, List.not_mem_nil, or_false] at this
    rcases this with rfl | rfl
    · exact ⟨ia, rfl, by rw [if_pos rfl, hia]; exact exEntries_isIndex⟩
    · exact ⟨ib, rfl, by rw [if_neg (by decide), hib]; exact exEntries1_isIndex⟩)
  ops

/-- Packs appearing and disappearing with a running clock. -/
example (zl : Zlib) (ia ib : Bytes) := C43_refresh_partial zl List.reverse (fun l => List.reverse_perm l)
  [(⟨1, []⟩, .update false), (twoPacks 2 ia ib, .read (.has [1])), (twoPacks 3 ia ib, .update true)] ⟨4, [(nameB, emptyPack)]⟩ false
  (by
    intro x hx
    simp only [List.mem_cons, List.not_mem_nil, or_false] at hx
    rcases hx with rfl | rfl | rfl
    · exact ⟨by unfold PackDir.Wf; decide, by simp⟩
    · exact twoPacks_usable _ _ _
    · exact twoPacks_usable _ _ _)
  (usable_of (by unfold PackDir.Wf; decide) (by
      intro p hp
      rw [show PackDir.packs ⟨4, [(nameB, emptyPack)]⟩ = [nameB] by decide] at hp
      rw [List.mem_singleton.mp hp]
      exact ⟨emptyPack, ⟨emptyPack, 2, 0⟩, by decide, by decide⟩))
  (by unfold Clock twoPacks; simp [List.pairwise_cons])

/-- A damaged index (too short) and a missing one: `C42_history` applies to both. -/
example (zl : Zlib) := C42_history zl id (some ⟨1, [(nameA, emptyPack), (nameB, emptyPack), (idxName nameB, [1])]⟩)
  { entities := some [⟨3, nameA, ⟨emptyPack, 2, 0⟩, none⟩, ⟨1, nameB, ⟨emptyPack, 2, 0⟩, none⟩] } _ rfl (by unfold MostHitsFirst; decide)

/-- Not vacuous: the index of one pack mapped, a hit counted. -/
example (zl : Zlib) (ops : List PackOp) := C42_lists zl id none
  { entities := some [⟨3, nameA, ⟨emptyPack, 2, 0⟩, some (indexV2 exEntries [] [])⟩,
    ⟨1, nameB, ⟨emptyPack, 2, 0⟩, some (indexV1 (exEntries.take 1) [] [])⟩] } _ rfl (by unfold MostHitsFirst; decide)
  (fun p => if p = nameA then exEntries.map Entry.name else (exEntries.take 1).map Entry.name)
  (by
    intro it hit
    simp only [List.mem_cons, List.not_mem_nil, or_false] at hit
    rcases hit with rfl | rfl
    · exact ⟨_, rfl, by rw [if_pos rfl]; exact exEntries_isIndex⟩
    · exact ⟨_, rfl, by rw [if_neg (by decide)]; exact exEntries1_isIndex⟩) ops

theorem exEntries2_isIndex : IsIndex (indexV1 (exEntries.take 2 |>.drop 1) [] []) ((exEntries.take 2 |>.drop 1).map Entry.name) :=
  ⟨by unfold Ascending; decide, exEntries.take 2 |>.drop 1, [], [], rfl,
    .inr ⟨⟨by decide, by decide, by decide⟩, by decide, rfl⟩⟩

/-- Two packs that begin with `c00`: the first has `c000…` and `c001…`, the second `c000…` only.  The answer is `c000…`. -/
example := C21_packs id none
  { entities := some [⟨3, nameA, ⟨emptyPack, 2, 0⟩, some (indexV2 exEntries [] [])⟩,
    ⟨1, nameB, ⟨emptyPack, 2, 0⟩, some (indexV1 (exEntries.take 2 |>.drop 1) [] [])⟩] } _ rfl
  (fun it => if it.path = nameA then exEntries.map Entry.name else (exEntries.take 2 |>.drop 1).map Entry.name)
  (by
    intro it hit
    simp only [List.mem_cons, List.not_mem_nil, or_false] at hit
    rcases hit with rfl | rfl
    · exact ⟨_, rfl, by rw [if_pos rfl]; exact exEntries_isIndex⟩
    · exact ⟨_, rfl, by rw [if_neg (by decide)]; exact exEntries2_isIndex⟩)
  (by intro it _; split <;> decide) [0xc0, 0x00] [0xc, 0, 0] (by decide) (by decide) (by decide)

end GitDB.Props
