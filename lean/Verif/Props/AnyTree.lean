import Verif.Props.Edges
/-!
# C104: abbreviations in loose databases with any directory tree, and what stores leave

`partial_to_complete_sha_hex` of a `LooseObjectDB` relies on "it can't ever find the same object twice" (`gitdb/db/loose.py` 116).  What
it finds are files: those with names of 38 characters in directories with names of two, at any depth, in capital or small letters.
-/
set_option autoImplicit false

namespace GitDB.Props
open GitDB Spec

/-! ## Specification -/

/-- The name of a directory, given by its path below a root with the name `base`. -/
def dirName (base : Bytes) (q : Path) : Bytes := q.getLast?.getD base

/-- The file `f` in the directory `q` looks like an object: 2 and 38 characters. -/
def LooksLike (base : Bytes) (fs : Fs) (q : Path) (f : Bytes) : Prop :=
  (q = [] ∨ fs q = some .dir) ∧ IsFile fs (q ++ [f]) ∧ (dirName base q).length = 2 ∧ f.length = 38

/-- Directory and file spell the name of an object, in small or capital letters. -/
def NameOf (base : Bytes) (q : Path) (f name : Bytes) : Prop := IsHexOf ((dirName base q ++ f).map lowerDigit) name

/-- A file that is taken for an object with a name beginning with the abbreviation. -/
def Matches (base : Bytes) (fs : Fs) (part : Bytes) (q : Path) (f name : Bytes) : Prop :=
  LooksLike base fs q f ∧ NameOf base q f name ∧ Abbreviates part name

/-- Every file that looks like an object spells a name. -/
def AllSpell (base : Bytes) (fs : Fs) : Prop := ∀ q f, LooksLike base fs q f → ∃ name, NameOf base q f name

/-- Everything is in a directory. -/
def InDirs (fs : Fs) : Prop := ∀ q f, fs (q ++ [f]) ≠ none → q = [] ∨ fs q = some .dir

/-- The system calls of some store, of any source, with any failures. -/
def AnyStore (evs : List Ev) : Prop :=
  ∃ (σ : Type) (H : Hash) (zl : Zlib) (fuel : Nat) (env : StoreEnv) (read : σ → Int → σ × Res Bytes) (i : IStream σ),
    evs = (looseStore H zl fuel env read i).1

/-! ## What a walk sees -/

/-- Every file, with its directory. -/
def filePairs (walk : List (Path × List Bytes)) : List (Path × Bytes) := walk.flatMap fun w => w.2.map fun f => (w.1, f)

/-- Those that look like objects. -/
def objPairs (base : Bytes) (walk : List (Path × List Bytes)) : List (Path × Bytes) :=
  (filePairs walk).filter fun x => decide ((dirName base x.1).length = 2) && decide (x.2.length = 38)

theorem shaIter_pairs (base : Bytes) : ∀ walk : List (Path × List Bytes),
    shaIter (seen base walk) = (objPairs base walk).map fun x => hexToBin (dirName base x.1 ++ x.2)
  | [] => rfl
  | w :: walk => by
    have ih := shaIter_pairs base walk
    unfold objPairs filePairs at ih ⊢
    rw [List.flatMap_cons, List.filter_append, List.map_append, ← ih]
    unfold shaIter seen
    rw [List.map_cons, List.flatMap_cons]
    congr 1
    change (if (dirName base w.1).length ≠ 2 then [] else shaIterFiles (dirName base w.1) w.2) = _
    by_cases h2 : (dirName base w.1).length = 2
    · rw [if_neg (by omega)]
      induction w.2 with
      | nil => rfl
      | cons f fs ih =>
        unfold shaIterFiles
        by_cases hf : f.length = 38
        · simp [hf, h2, ih]
        · simp [hf, ih]
    · rw [if_pos h2]
      induction w.2 with
      | nil => rfl
      | cons f fs ih => simp only [List.map_cons, List.filter_cons, h2, decide_false, Bool.false_and]; exact ih

theorem filePairs_nodup {fs : Fs} {walk : List (Path × List Bytes)} (hw : IsWalk fs walk) : (filePairs walk).Nodup := by
  have h1 := hw.once
  have h2 := hw.files_once
  clear hw
  induction walk with
  | nil => exact List.nodup_nil
  | cons w walk ih =>
    simp only [List.map_cons, List.nodup_cons] at h1
    unfold filePairs at ih ⊢
    rw [List.flatMap_cons, List.nodup_append]
    refine ⟨?_, ih h1.2 fun v hv => h2 v (List.mem_cons_of_mem _ hv), ?_⟩
    · unfold List.Nodup
      rw [List.pairwise_map]
      exact (h2 w List.mem_cons_self).imp fun hne e => hne (congrArg Prod.snd e)
    · intro a ha b hb e
      subst e
      obtain ⟨f, _, rfl⟩ := List.mem_map.mp ha
      obtain ⟨v, hv, hb⟩ := List.mem_flatMap.mp hb
      obtain ⟨g, _, e⟩ := List.mem_map.mp hb
      exact h1.1 (List.mem_map.mpr ⟨v, hv, (Prod.mk.inj e).1⟩)

theorem mem_objPairs {base : Bytes} {fs : Fs} {walk : List (Path × List Bytes)} (hw : IsWalk fs walk) (x : Path × Bytes) :
    x ∈ objPairs base walk ↔ LooksLike base fs x.1 x.2 := by
  unfold objPairs filePairs LooksLike
  simp only [List.mem_filter, List.mem_flatMap, List.mem_map, Bool.and_eq_true, decide_eq_true_eq]
  constructor
  · rintro ⟨⟨w, hm, f, hf, rfl⟩, h1, h2⟩
    exact ⟨(hw.dirs w.1).mp (List.mem_map.mpr ⟨w, hm, rfl⟩), (hw.files w hm f).mp hf, h1, h2⟩
  · rintro ⟨h1, h2, h3, h4⟩
    obtain ⟨w, hm, e⟩ := List.mem_map.mp ((hw.dirs x.1).mpr h1)
    exact ⟨⟨w, hm, x.2, (hw.files w hm x.2).mpr (by rw [e]; exact h2), by rw [e]⟩, h3, h4⟩

/-! ## The loop -/

section
variable {ι : Type} (part : Bytes) (g : ι → Res Bytes)

/-- An element with a name that begins with the abbreviation. -/
def Hit (x : ι) (n : Bytes) : Prop := g x = .ok n ∧ part.isPrefixOf (binToHex n) = true

theorem loop_some : ∀ (l : List ι) (c : Bytes), (∀ x ∈ l, ∀ e, g x = .error e → e = .binasciiError) →
    (∃ n, partialLoop part (some c) (l.map g) = .ok n ∧ n = c ∧ (∀ x ∈ l, ∃ n, g x = .ok n) ∧ ∀ x ∈ l, ∀ n, ¬ Hit part g x n) ∨
    (partialLoop part (some c) (l.map g) = .error .ambiguousObjectName ∧ ∃ x ∈ l, ∃ n, Hit part g x n) ∨
    (partialLoop part (some c) (l.map g) = .error .binasciiError ∧ ∃ x ∈ l, g x = .error .binasciiError)
  | [], c, _ => .inl ⟨c, rfl, rfl, nofun, nofun⟩
  | a :: l, c, he => by
    rw [List.map_cons]
    rcases hg : g a with e | b
    · have := he a List.mem_cons_self e hg
      subst this
      exact .inr (.inr ⟨rfl, a, List.mem_cons_self, hg⟩)
    · by_cases hp : part.isPrefixOf (binToHex b) = true
      · exact .inr (.inl ⟨if_pos hp, a, List.mem_cons_self, b, hg, hp⟩)
      · have e1 : partialLoop part (some c) (.ok b :: l.map g) = partialLoop part (some c) (l.map g) := if_neg hp
        rw [e1]
        rcases loop_some l c (fun x hx => he x (List.mem_cons_of_mem _ hx)) with ⟨n, h1, h2, h3, h4⟩ | ⟨h1, x, hx, h2⟩ | ⟨h1, x, hx, h2⟩
        · refine .inl ⟨n, h1, h2, fun x hx => ?_, fun x hx m hm => ?_⟩
          · rcases List.mem_cons.mp hx with rfl | hx
            · exact ⟨b, hg⟩
            · exact h3 x hx
          · rcases List.mem_cons.mp hx with rfl | hx
            · rw [Hit, hg] at hm
              obtain ⟨hm1, hm2⟩ := hm
              cases hm1
              exact hp hm2
            · exact h4 x hx m hm
        · exact .inr (.inl ⟨h1, x, List.mem_cons_of_mem _ hx, h2⟩)
        · exact .inr (.inr ⟨h1, x, List.mem_cons_of_mem _ hx, h2⟩)

theorem loop_none : ∀ (l : List ι), l.Nodup → (∀ x ∈ l, ∀ e, g x = .error e → e = .binasciiError) →
    (∃ n, partialLoop part none (l.map g) = .ok n ∧ (∀ x ∈ l, ∃ n, g x = .ok n) ∧
      ∃ x ∈ l, Hit part g x n ∧ ∀ y ∈ l, ∀ m, Hit part g y m → y = x) ∨
    (partialLoop part none (l.map g) = .error .badObject ∧ (∀ x ∈ l, ∃ n, g x = .ok n) ∧ ∀ x ∈ l, ∀ n, ¬ Hit part g x n) ∨
    (partialLoop part none (l.map g) = .error .ambiguousObjectName ∧
      ∃ x ∈ l, ∃ y ∈ l, x ≠ y ∧ (∃ n, Hit part g x n) ∧ ∃ n, Hit part g y n) ∨
    (partialLoop part none (l.map g) = .error .binasciiError ∧ ∃ x ∈ l, g x = .error .binasciiError)
  | [], _, _ => .inr (.inl ⟨rfl, nofun, nofun⟩)
  | a :: l, hn, he => by
    obtain ⟨hn1, hn2⟩ := List.nodup_cons.mp hn
    have he' : ∀ x ∈ l, ∀ e, g x = .error e → e = .binasciiError := fun x hx => he x (List.mem_cons_of_mem _ hx)
    rw [List.map_cons]
    rcases hg : g a with e | b
    · have := he a List.mem_cons_self e hg
      subst this
      exact .inr (.inr (.inr ⟨rfl, a, List.mem_cons_self, hg⟩))
    · have all : (∀ x ∈ l, ∃ n, g x = .ok n) → ∀ x ∈ a :: l, ∃ n, g x = .ok n := by
        intro h x hx
        rcases List.mem_cons.mp hx with rfl | hx
        · exact ⟨b, hg⟩
        · exact h x hx
      by_cases hp : part.isPrefixOf (binToHex b) = true
      · have e1 : partialLoop part none (.ok b :: l.map g) = partialLoop part (some b) (l.map g) := if_pos hp
        rw [e1]
        rcases loop_some part g l b he' with ⟨n, h1, h2, h3, h4⟩ | ⟨h1, x, hx, h2⟩ | ⟨h1, x, hx, h2⟩
        · subst h2
          refine .inl ⟨n, h1, all h3, a, List.mem_cons_self, ⟨hg, hp⟩, fun y hy m hm => ?_⟩
          rcases List.mem_cons.mp hy with rfl | hy
          · rfl
          · exact absurd hm (h4 y hy m)
        · exact .inr (.inr (.inl ⟨h1, a, List.mem_cons_self, x, List.mem_cons_of_mem _ hx, fun e => hn1 (e ▸ hx), ⟨b, hg, hp⟩, h2⟩))
        · exact .inr (.inr (.inr ⟨h1, x, List.mem_cons_of_mem _ hx, h2⟩))
      · have e1 : partialLoop part none (.ok b :: l.map g) = partialLoop part none (l.map g) := if_neg hp
        have no : ∀ m, ¬ Hit part g a m := by
          rintro m ⟨h1, h2⟩
          rw [hg] at h1
          cases h1
          exact hp h2
        rw [e1]
        rcases loop_none l hn2 he' with ⟨n, h1, h2, x, hx, h3, h4⟩ | ⟨h1, h2, h3⟩ | ⟨h1, x, hx, y, hy, h2⟩ | ⟨h1, x, hx, h2⟩
        · refine .inl ⟨n, h1, all h2, x, List.mem_cons_of_mem _ hx, h3, fun y hy m hm => ?_⟩
          rcases List.mem_cons.mp hy with rfl | hy
          · exact absurd hm (no m)
          · exact h4 y hy m hm
        · refine .inr (.inl ⟨h1, all h2, fun x hx m hm => ?_⟩)
          rcases List.mem_cons.mp hx with rfl | hx
          · exact no m hm
          · exact h3 x hx m hm
        · exact .inr (.inr (.inl ⟨h1, x, List.mem_cons_of_mem _ hx, y, List.mem_cons_of_mem _ hy, h2⟩))
        · exact .inr (.inr (.inr ⟨h1, x, List.mem_cons_of_mem _ hx, h2⟩))

end

theorem abbreviates_iff (part n : Bytes) : Abbreviates part n ↔ part.isPrefixOf (binToHex n) = true := by
  rw [List.isPrefixOf_iff_prefix]
  constructor
  · rintro ⟨h, hh, hp⟩
    rwa [← isHexOf_unique hh (binToHex_isHexOf n)]
  · intro h
    exact ⟨_, binToHex_isHexOf n, h⟩

/-! ## C104 -/

/-- **C104** `partial_to_complete_sha_hex` of a loose database with any directory tree: the name of the only *file* taken for an object
that matches, if every file that looks like an object spells a name; `BadObject` if there is no such file; `AmbiguousObjectName` only if
there are two such files; `binascii.Error` only if a file that looks like an object does not spell a name.  Nothing else. -/
theorem C104_any_tree (base : Bytes) (fs : Fs) (walk : List (Path × List Bytes)) (hw : IsWalk fs walk) (part : Bytes) :
    (∃ name, loosePartial (seen base walk) part = .ok name ∧ AllSpell base fs ∧
      ∃ q f, Matches base fs part q f name ∧ ∀ q' f' n', Matches base fs part q' f' n' → q' = q ∧ f' = f) ∨
    (loosePartial (seen base walk) part = .error .badObject ∧ AllSpell base fs ∧ ∀ q f n, ¬ Matches base fs part q f n) ∨
    (loosePartial (seen base walk) part = .error .ambiguousObjectName ∧ ∃ q f q' f', ¬ (q = q' ∧ f = f') ∧
      (∃ n, Matches base fs part q f n) ∧ ∃ n, Matches base fs part q' f' n) ∨
    (loosePartial (seen base walk) part = .error .binasciiError ∧ ¬ AllSpell base fs) := by
  have hm := mem_objPairs (base := base) hw
  have hsp : ∀ (q : Path) (f n : Bytes), hexToBin (dirName base q ++ f) = .ok n ↔ NameOf base q f n := fun q f n => (C05_decodes _ n).1
  have hit : ∀ (x : Path × Bytes) (n : Bytes), x ∈ objPairs base walk →
      (Hit part (fun x : Path × Bytes => hexToBin (dirName base x.1 ++ x.2)) x n ↔ Matches base fs part x.1 x.2 n) := by
    intro x n hx
    unfold Hit Matches
    rw [hsp, abbreviates_iff]
    exact ⟨fun h => ⟨(hm x).mp hx, h⟩, fun h => h.2⟩
  have all : (∀ x ∈ objPairs base walk, ∃ n, hexToBin (dirName base x.1 ++ x.2) = .ok n) ↔ AllSpell base fs := by
    constructor
    · intro h q f hl
      obtain ⟨n, hn⟩ := h (q, f) ((hm _).mpr hl)
      exact ⟨n, (hsp q f n).mp hn⟩
    · intro h x hx
      obtain ⟨n, hn⟩ := h x.1 x.2 ((hm x).mp hx)
      exact ⟨n, (hsp _ _ n).mpr hn⟩
  have errs : ∀ x ∈ objPairs base walk, ∀ e, hexToBin (dirName base x.1 ++ x.2) = .error e → e = .binasciiError := by
    intro x _ e h
    rcases (C05_decodes (dirName base x.1 ++ x.2) []).2 with ⟨b, hb⟩ | hb
    · rw [h] at hb; cases hb
    · rw [h] at hb; exact Except.error.inj hb
  unfold loosePartial
  rw [shaIter_pairs]
  rcases loop_none part (fun x : Path × Bytes => hexToBin (dirName base x.1 ++ x.2)) (objPairs base walk)
      ((filePairs_nodup hw).filter _) errs with
    ⟨n, h1, h2, x, hx, h3, h4⟩ | ⟨h1, h2, h3⟩ | ⟨h1, x, hx, y, hy, hne, ⟨n, h2⟩, m, h3⟩ | ⟨h1, x, hx, h2⟩
  · refine .inl ⟨n, h1, all.mp h2, x.1, x.2, (hit x n hx).mp h3, fun q' f' n' h => ?_⟩
    have hy := (hm (q', f')).mpr h.1
    have := h4 (q', f') hy n' ((hit _ _ hy).mpr h)
    rw [← this]
    exact ⟨rfl, rfl⟩
  · refine .inr (.inl ⟨h1, all.mp h2, fun q f n h => ?_⟩)
    have hy := (hm (q, f)).mpr h.1
    exact h3 (q, f) hy n ((hit _ _ hy).mpr h)
  · refine .inr (.inr (.inl ⟨h1, x.1, x.2, y.1, y.2, fun e => hne (Prod.ext e.1 e.2), ⟨n, (hit x n hx).mp h2⟩, m, (hit y m hy).mp h3⟩))
  · refine .inr (.inr (.inr ⟨h1, fun h => ?_⟩))
    obtain ⟨n, hn⟩ := all.mpr h x hx
    rw [hn] at h2
    cases h2

/-- **C104** every object in the database is among the files taken for objects. -/
theorem C104_contained (base : Bytes) (fs : Fs) (name : Bytes) (hlen : name.length = 20) (h : Contains fs name) :
    ∃ q f, LooksLike base fs q f ∧ NameOf base q f name := by
  obtain ⟨p, hp, hf, hd⟩ := h
  obtain ⟨hx, hh, rfl⟩ := hp
  have hlenx : hx.length = 40 := by rw [isHexOf_unique hh (binToHex_isHexOf name), binToHex_length]; omega
  refine ⟨[hx.take 2], hx.drop 2, ⟨.inr hd, hf, ?_, ?_⟩, ?_⟩
  · show (hx.take 2).length = 2
    rw [List.length_take]; omega
  · rw [List.length_drop]; omega
  · unfold NameOf
    show IsHexOf ((hx.take 2 ++ hx.drop 2).map lowerDigit) name
    rw [List.take_append_drop]
    exact (C05_decodes hx name).1.mp (by rw [isHexOf_unique hh (binToHex_isHexOf name)]; exact hexToBin_binToHex name)

/-! ### What stores do to the tree -/

/-- A call that keeps the layout. -/
def KeepsLayout : Ev → Prop
  | .create p => ∃ t, p = [t]
  | .mkdir p => ∃ d, p = [d]
  | .rename _ b => ∃ name, b = objectPath (binToHex name)
  | _ => True

theorem chmodLoop_keeps (p : Path) : ∀ (n : Nat) (cs : List ChmodOutcome), ∀ e ∈ (chmodLoop p n cs).1, KeepsLayout e
  | 0, _ => nofun
  | _ + 1, [] => fun e he => by rw [List.mem_singleton.mp he]; trivial
  | _ + 1, .ok :: _ => fun e he => by rw [List.mem_singleton.mp he]; trivial
  | _ + 1, .fail :: _ => nofun
  | n + 1, .denied :: cs => chmodLoop_keeps p n cs

theorem publish_keeps (env : StoreEnv) (tmp : Path) (name : Bytes) : ∀ e ∈ (publish env tmp (objectPath (binToHex name))).1, KeepsLayout e := by
  have pre : ∀ e ∈ [Ev.mkdir (objectPath (binToHex name)).dropLast, .isfile (objectPath (binToHex name)) env.isfile], KeepsLayout e := by
    intro e he
    rcases List.mem_cons.mp he with rfl | he
    · exact ⟨_, rfl⟩
    · rw [List.mem_singleton.mp he]; trivial
  intro e he
  unfold publish at he
  split at he
  · cases he
  · dsimp only at he
    split at he
    · exact pre e he
    · rcases List.mem_append.mp he with he | he
      · exact pre e he
      · rcases List.mem_cons.mp he with rfl | he
        · split
          · trivial
          · exact ⟨name, rfl⟩
        · exact chmodLoop_keeps _ _ _ e he

theorem anyStore_keeps {evs : List Ev} (h : AnyStore evs) : ∀ e ∈ evs, KeepsLayout e := by
  obtain ⟨σ, H, zl, fuel, env, read, i, rfl⟩ := h
  rcases ht : env.tmp with _ | rnd
  · intro e he
    unfold looseStore at he
    rw [ht] at he
    cases he
  · rw [looseStore_eq H zl fuel env read i rnd ht]
    have hev : ∀ e ∈ Ev.create (tmpPath rnd) :: (looseWrite H zl fuel env read i).1.map (.append (tmpPath rnd)), KeepsLayout e := by
      intro e he
      rcases List.mem_cons.mp he with rfl | he
      · exact ⟨_, rfl⟩
      · obtain ⟨d, _, rfl⟩ := List.mem_map.mp he
        trivial
    dsimp only
    split
    · split
      · intro e he
        rcases List.mem_append.mp he with he | he
        · exact hev e he
        · rw [List.mem_singleton.mp he]; trivial
      · exact hev
    · split
      · exact hev
      · rename_i hex hn
        obtain ⟨b, rfl⟩ := looseWrite_name hn
        have hpub : ∀ e ∈ Ev.create (tmpPath rnd) :: (looseWrite H zl fuel env read i).1.map (.append (tmpPath rnd)) ++
            (publish env (tmpPath rnd) (objectPath (binToHex b))).1, KeepsLayout e := by
          intro e he
          rcases List.mem_append.mp he with he | he
          · exact hev e he
          · exact publish_keeps _ _ _ e he
        split
        · exact hpub
        · split
          · exact hpub
          · exact hpub

/-- Directories stay as they are, and a file may be new at `x` only. -/
theorem kept_files {base : Bytes} {fs fs' : Fs} {x : Path} (hd : ∀ p, fs' p = some .dir ↔ fs p = some .dir)
    (hn : ∀ p, fs' p ≠ none → fs p ≠ none ∨ p = x) (hf : ∀ p, IsFile fs' p → IsFile fs p ∨ p = x)
    (hx : ∀ q f, x = q ++ [f] → q = [] ∨ fs q = some .dir) (hex : ∀ d f, x = [d, f] → LowerHex (d ++ f) ∨ IsFile fs x)
    (h1 : InDirs fs) (h2 : ObjectLayout base fs) : InDirs fs' ∧ ObjectLayout base fs' := by
  refine ⟨fun q f h => ?_, h2.root, fun p d h => h2.depth p d ((hd _).mp h), fun d f k1 k2 k3 k4 => ?_⟩
  · rw [hd]
    rcases hn _ h with h | h
    · exact h1 q f h
    · exact hx q f h.symm
  · have k1 := (hd _).mp k1
    rcases hf _ k3 with k3 | k3
    · exact h2.hex d f k1 k2 k3 k4
    · rcases hex d f k3.symm with h | h
      · exact h
      · exact h2.hex d f k1 k2 (k3 ▸ h) k4

theorem dir_of_set {fs : Fs} {x : Path} {n : Option Node} (h1 : n ≠ some .dir) (h2 : fs x ≠ some .dir) (p : Path) :
    fs.set x n p = some .dir ↔ fs p = some .dir := by
  unfold Fs.set
  split
  · rename_i e
    rw [e]
    exact ⟨fun h => absurd h h1, fun h => absurd h h2⟩
  · exact Iff.rfl

theorem step_keeps {base : Bytes} {fs fs' : Fs} {e : Ev} (he : KeepsLayout e) (hs : fs.step e = some fs') (h1 : InDirs fs)
    (h2 : ObjectLayout base fs) : InDirs fs' ∧ ObjectLayout base fs' := by
  have same : ∀ (x : Path) (n : Option Node), n ≠ some .dir → IsFile fs x → fs' = fs.set x n → InDirs fs' ∧ ObjectLayout base fs' := by
    intro x n hn hx e
    obtain ⟨c, m, hx⟩ := hx
    subst e
    refine kept_files (x := x) (dir_of_set hn (by rw [hx]; nofun)) (fun p h => ?_) (fun p h => ?_) (fun q f e => ?_)
      (fun d f _ => .inr ⟨c, m, hx⟩) h1 h2
    · by_cases e : p = x
      · exact .inr e
      · rw [Fs.set_other _ _ e] at h; exact .inl h
    · by_cases e : p = x
      · exact .inr e
      · unfold IsFile at h; rw [Fs.set_other _ _ e] at h; exact .inl h
    · exact h1 q f (by rw [← e, hx]; nofun)
  cases e with
  | create p =>
    obtain ⟨t, rfl⟩ := he
    unfold Fs.step at hs
    rcases hp : fs [t] with _ | n
    · simp only [hp, Option.some.injEq] at hs
      subst hs
      refine kept_files (x := [t]) (dir_of_set nofun (by rw [hp]; nofun)) (fun p h => ?_) (fun p h => ?_) (fun q f e => ?_)
        (fun d f e => by cases e) h1 h2
      · by_cases e : p = [t]
        · exact .inr e
        · rw [Fs.set_other _ _ e] at h; exact .inl h
      · by_cases e : p = [t]
        · exact .inr e
        · unfold IsFile at h; rw [Fs.set_other _ _ e] at h; exact .inl h
      · have := congrArg List.length e
        simp at this
        exact .inl this
    · simp only [hp] at hs
      cases hs
  | append p d =>
    unfold Fs.step at hs
    rcases hp : fs p with _ | ⟨_ | ⟨c, m⟩⟩
    · simp only [hp] at hs; cases hs
    · simp only [hp] at hs; cases hs
    · simp only [hp, Option.some.injEq] at hs
      exact same p (some (.file (c ++ d) m)) nofun ⟨c, m, hp⟩ hs.symm
  | mkdir p =>
    obtain ⟨d, rfl⟩ := he
    unfold Fs.step at hs
    rcases hp : fs [d] with _ | ⟨_ | ⟨c, m⟩⟩
    · simp only [hp, Option.some.injEq] at hs
      subst hs
      refine ⟨fun q f h => ?_, h2.root, fun p x h hx => ?_, fun a f k1 k2 k3 k4 => ?_⟩
      · by_cases e : q ++ [f] = [d]
        · have := congrArg List.length e
          simp at this
          exact .inl this
        · rw [Fs.set_other _ _ e] at h
          rcases h1 q f h with h | h
          · exact .inl h
          · refine .inr ?_
            by_cases e : q = [d]
            · rw [e, Fs.set_same]
            · rw [Fs.set_other _ _ e]; exact h
      · by_cases e : p ++ [x] = [d]
        · have := congrArg List.length e
          simp at this
          exact this
        · rw [Fs.set_other _ _ e] at h
          exact h2.depth p x h hx
      · unfold IsFile at k3
        rw [Fs.set_other _ _ (by simp)] at k3
        by_cases e : a = d
        · subst e
          obtain ⟨c, m, k3⟩ := k3
          rcases h1 [a] f (by rw [show ([a] ++ [f] : Path) = [a, f] from rfl, k3]; nofun) with h | h
          · cases h
          · rw [hp] at h; cases h
        · rw [Fs.set_other _ _ (by simpa using e)] at k1
          exact h2.hex a f k1 k2 k3 k4
    · simp only [hp, Option.some.injEq] at hs
      subst hs
      exact ⟨h1, h2⟩
    · simp only [hp] at hs; cases hs
  | isfile p b =>
    have : fs' = fs := by
      simp only [Fs.step] at hs
      split at hs
      · exact (Option.some.inj hs).symm
      · exact (Option.some.inj hs).symm
      · cases hs
    rw [this]
    exact ⟨h1, h2⟩
  | rename a b =>
    obtain ⟨name, rfl⟩ := he
    generalize hb : objectPath (binToHex name) = b at hs
    unfold Fs.step at hs
    rcases ha : fs a with _ | ⟨_ | ⟨c, m⟩⟩
    · simp only [ha] at hs; cases hs
    · simp only [ha] at hs; cases hs
    · have key : (b.length ≤ 1 ∨ fs b.dropLast = some .dir) ∧ fs b ≠ some .dir ∧ fs' = (fs.set a none).set b (some (.file c m)) := by
        rcases hfb : fs b with _ | ⟨_ | ⟨c', m'⟩⟩
        · simp only [ha, hfb] at hs
          split at hs
          · rename_i h; exact ⟨h, nofun, (Option.some.inj hs).symm⟩
          · cases hs
        · simp only [ha, hfb] at hs; cases hs
        · simp only [ha, hfb] at hs
          split at hs
          · rename_i h; exact ⟨h, nofun, (Option.some.inj hs).symm⟩
          · cases hs
      obtain ⟨k1, k2, rfl⟩ := key
      have hd : fs b.dropLast = some .dir := by
        rcases k1 with k1 | k1
        · rw [← hb] at k1; simp [objectPath] at k1
        · exact k1
      have h3 : ∀ p, fs.set a none p = some .dir ↔ fs p = some .dir := dir_of_set nofun (by rw [ha]; nofun)
      refine kept_files (x := b) (fun p => ?_) (fun p h => ?_) (fun p h => ?_) (fun q f e => ?_) (fun d f e => .inl ?_) h1 h2
      · rw [← h3 p]
        exact dir_of_set (n := some (.file c m)) nofun (fun h => k2 ((h3 b).mp h)) p
      · by_cases e : p = b
        · exact .inr e
        · rw [Fs.set_other _ _ e] at h
          by_cases e' : p = a
          · rw [e', Fs.set_same] at h; exact absurd rfl h
          · rw [Fs.set_other _ _ e'] at h; exact .inl h
      · by_cases e : p = b
        · exact .inr e
        · unfold IsFile at h
          rw [Fs.set_other _ _ e] at h
          by_cases e' : p = a
          · rw [e', Fs.set_same] at h
            obtain ⟨_, _, h⟩ := h
            cases h
          · rw [Fs.set_other _ _ e'] at h; exact .inl h
      · rw [e, List.dropLast_concat] at hd
        exact .inr hd
      · rw [← hb] at e
        simp only [objectPath, List.cons.injEq, and_true] at e
        rw [← e.1, ← e.2, List.take_append_drop]
        exact (C05_codec_inverse name).2.1
  | remove p =>
    unfold Fs.step at hs
    rcases hp : fs p with _ | ⟨_ | ⟨c, m⟩⟩
    · simp only [hp] at hs; cases hs
    · simp only [hp] at hs; cases hs
    · simp only [hp, Option.some.injEq] at hs
      exact same p none nofun ⟨c, m, hp⟩ hs.symm
  | chmod p n =>
    unfold Fs.step at hs
    rcases hp : fs p with _ | ⟨_ | ⟨c, m⟩⟩
    · simp only [hp] at hs; cases hs
    · simp only [hp] at hs; cases hs
    · simp only [hp, Option.some.injEq] at hs
      exact same p (some (.file c n)) nofun ⟨c, m, hp⟩ hs.symm

/-- **C104** any number of processes store anything, with any failures, at the same time, and may be stopped at any point: a directory
with the usual layout keeps it at every moment.  So as long as only stores write to it, the comment is right. -/
theorem C104_stores {ι : Type} [DecidableEq ι] (base : Bytes) (s t : Sys ι) (hs : ∀ i, AnyStore (s.todo i)) (h1 : InDirs s.fs)
    (h2 : ObjectLayout base s.fs) (hr : Sys.Reach s t) : InDirs t.fs ∧ ObjectLayout base t.fs := by
  have hk : ∀ i, ∀ e ∈ s.todo i, KeepsLayout e := fun i => anyStore_keeps (hs i)
  clear hs
  suffices (∀ i, ∀ e ∈ t.todo i, KeepsLayout e) ∧ InDirs t.fs ∧ ObjectLayout base t.fs from this.2
  induction hr with
  | refl => exact ⟨hk, h1, h2⟩
  | step _ h ih =>
    obtain ⟨k1, k2, k3⟩ := ih
    cases h with
    | call i e es fs hi hs =>
      refine ⟨fun j x hx => ?_, step_keeps (k1 i e (by rw [hi]; exact List.mem_cons_self)) hs k2 k3⟩
      simp only at hx
      split at hx
      · exact k1 i x (by rw [hi]; exact List.mem_cons_of_mem _ hx)
      · exact k1 j x hx

/-! ### Examples -/

/-- A tree given by its directories and files. -/
def treeFs (dirs files : List Path) : Fs := fun p =>
  if p ∈ dirs then some .dir else if p ∈ files then some (.file [255] 0o444) else none

theorem treeFs_dir {dirs files : List Path} (p : Path) : treeFs dirs files p = some .dir ↔ p ∈ dirs := by
  unfold treeFs
  split
  · simp_all
  · split <;> simp_all

theorem treeFs_file {dirs files : List Path} (hd : ∀ p ∈ files, p ∉ dirs) (p : Path) : IsFile (treeFs dirs files) p ↔ p ∈ files := by
  unfold IsFile treeFs
  constructor
  · rintro ⟨d, m, h⟩
    split at h
    · cases h
    · split at h
      · assumption
      · cases h
  · intro h
    exact ⟨[255], 0o444, by rw [if_neg (hd p h), if_pos h]⟩

/-- The object `abcd00...` at its place and once more further down, in a directory `o/ab`. -/
def againFs : Fs := treeFs [[[97, 98]], [[111]], [[111], [97, 98]]] [[[97, 98], oneFile], [[111], [97, 98], oneFile]]
def againWalk : List (Path × List Bytes) := [([], []), ([[97, 98]], [oneFile]), ([[111]], []), ([[111], [97, 98]], [oneFile])]
def oneObject : Bytes := [0xab, 0xcd] ++ List.replicate 18 0

theorem againFs_file (p : Path) : IsFile againFs p ↔ p ∈ [[[97, 98], oneFile], [[111], [97, 98], oneFile]] :=
  treeFs_file (by decide) p

theorem againWalk_isWalk : IsWalk againFs againWalk where
  once := by decide
  dirs p := by rw [againFs, treeFs_dir]; simp [againWalk]
  files_once := by decide
  files w hw f := by
    rw [againFs_file]
    simp only [againWalk, List.mem_cons, List.not_mem_nil, or_false] at hw
    rcases hw with rfl | rfl | rfl | rfl <;> simp

theorem againFs_looks (q : Path) (f : Bytes) (h : LooksLike [111] againFs q f) : (q = [[97, 98]] ∨ q = [[111], [97, 98]]) ∧ f = oneFile := by
  have := (againFs_file _).mp h.2.1
  simp only [List.mem_cons, List.not_mem_nil, or_false] at this
  rcases this with e | e
  · rw [show ([[97, 98], oneFile] : Path) = [[97, 98]] ++ [oneFile] from rfl] at e
    have := List.append_inj' e rfl
    exact ⟨.inl this.1, by simpa using this.2⟩
  · rw [show ([[111], [97, 98], oneFile] : Path) = [[111], [97, 98]] ++ [oneFile] from rfl] at e
    have := List.append_inj' e rfl
    exact ⟨.inr this.1, by simpa using this.2⟩

theorem again_spells (q : Path) (h : q = [[97, 98]] ∨ q = [[111], [97, 98]]) (n : Bytes) : NameOf [111] q oneFile n ↔ n = oneObject := by
  have h0 : hexToBin ([97, 98] ++ oneFile) = .ok oneObject := by decide +kernel
  have : dirName [111] q = [97, 98] := by rcases h with rfl | rfl <;> rfl
  unfold NameOf
  rw [this, ← (C05_decodes _ n).1, h0, Except.ok.injEq]
  exact eq_comm

/-- **C104** the comment does not hold of every directory: here is one object, which is at its place, and no other object or file
that looks like one, and its abbreviation is said to be ambiguous. -/
theorem C104_comment_not_full : ∃ (base : Bytes) (fs : Fs) (walk : List (Path × List Bytes)) (part name : Bytes),
    IsWalk fs walk ∧ AllSpell base fs ∧ name.length = 20 ∧ Contains fs name ∧ Abbreviates part name ∧
    (∀ q f n, LooksLike base fs q f → NameOf base q f n → n = name) ∧
    loosePartial (seen base walk) part = .error .ambiguousObjectName := by
  refine ⟨[111], againFs, againWalk, [97, 98, 99], oneObject, againWalk_isWalk, fun q f h => ?_, by decide, ?_, ?_, ?_,
    by decide +kernel⟩
  · obtain ⟨hq, rfl⟩ := againFs_looks q f h
    exact ⟨oneObject, (again_spells q hq _).mpr rfl⟩
  · exact ⟨[[97, 98], oneFile], ⟨[97, 98] ++ oneFile, by unfold IsHexOf; decide +kernel, rfl⟩, (againFs_file _).mpr (by decide), by decide⟩
  · rw [abbreviates_iff]; decide +kernel
  · intro q f n hl hs
    obtain ⟨hq, rfl⟩ := againFs_looks q f hl
    exact (again_spells q hq n).mp hs

/-- The object `abcd00...` with its directory in capital letters. -/
def capsFs : Fs := treeFs [[[65, 66]]] [[[65, 66], oneFile]]
def capsWalk : List (Path × List Bytes) := [([], []), ([[65, 66]], [oneFile])]

theorem capsFs_file (p : Path) : IsFile capsFs p ↔ p ∈ [[[65, 66], oneFile]] := treeFs_file (by decide) p

theorem capsWalk_isWalk : IsWalk capsFs capsWalk where
  once := by decide
  dirs p := by rw [capsFs, treeFs_dir]; simp [capsWalk]
  files_once := by decide
  files w hw f := by
    rw [capsFs_file]
    simp only [capsWalk, List.mem_cons, List.not_mem_nil, or_false] at hw
    rcases hw with rfl | rfl <;> simp

/-- **C104** and an abbreviation can be completed to a name that `has_object` of the same database, new, denies. -/
theorem C104_completed_but_denied : ∃ (base : Bytes) (fs : Fs) (walk : List (Path × List Bytes)) (part name : Bytes),
    IsWalk fs walk ∧ loosePartial (seen base walk) part = .ok name ∧ (LooseDB.hasObject fs {} name).2 = false :=
  ⟨[111], capsFs, capsWalk, [97, 98, 99], oneObject, capsWalk_isWalk, by decide +kernel, by decide +kernel⟩

/-- The four cases of `C104_any_tree` occur. -/
example : loosePartial (seen [111] oneWalk) [97, 98, 99] = .ok oneObject ∧
    loosePartial (seen [111] oneWalk) [97, 98, 100] = .error .badObject ∧
    loosePartial (seen [111] againWalk) [97, 98, 99] = .error .ambiguousObjectName ∧
    loosePartial (seen [111] [([], []), ([[97, 98]], [List.replicate 38 120])]) [97] = .error .binasciiError := by decide +kernel

/-- Two processes store into the directory of one object; the hypotheses of `C104_stores` are met. -/
example : AnyStore (looseStore exHash lightZlib 10 { tmp := some [1], isfile := false } bytesIORead smallStream).1 ∧
    InDirs oneFs ∧ ObjectLayout [111] oneFs :=
  ⟨⟨_, _, _, _, _, _, _, rfl⟩, fun q f h => by
    have : q ++ [f] = [[97, 98]] ∨ q ++ [f] = [[97, 98], oneFile] := by
      unfold oneFs at h
      split at h
      · exact .inl ‹_›
      · split at h
        · exact .inr ‹_›
        · exact absurd rfl h
    rcases this with e | e
    · have := congrArg List.length e
      simp at this
      exact .inl this
    · have := (List.append_inj' (e.trans (show ([[97, 98], oneFile] : Path) = [[97, 98]] ++ [oneFile] from rfl)) rfl).1
      rw [this]
      exact .inr rfl, oneFs_layout⟩

end GitDB.Props
