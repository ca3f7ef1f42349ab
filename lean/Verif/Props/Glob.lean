import Verif.Proofs.Glob
/-!
# C77: which packs a database lists, if its path has special characters
-/
set_option autoImplicit false

namespace GitDB.Props
open GitDB Spec

variable (range : Text → Char → Bool) (t : Tree)

/-- **C77** the packs listed are those of all directories that the path, read as a pattern, stands for. -/
theorem C77_listed (ht : TreeOk t) (root path : List Text) :
    path ∈ globPacks range t root ↔
      ∃ n d, path = n :: d ∧ PackName n ∧ n ∈ t.names d ∧ All2 (Like range) root d := by
  unfold globPacks
  rw [List.mem_flatMap]
  constructor
  · rintro ⟨d, hd, h⟩
    obtain ⟨n, hn, rfl⟩ := List.mem_map.1 h
    obtain ⟨h1, _, _, h4⟩ := (mem_glob1 range t d packPattern false n).1 hn
    exact ⟨n, d, rfl, (fits_pack n).1 h4, h1, globDirs_like range t root d hd⟩
  · rintro ⟨n, d, rfl, hp, hn, hl⟩
    refine ⟨d, globDirs_all range t ht root d hl ?_, List.mem_map.2 ⟨n, ?_, rfl⟩⟩
    · cases d with
      | nil => exact .inl rfl
      | cons c d => exact .inr (ht.dir c d (List.ne_nil_of_mem hn))
    · refine (mem_glob1 range t d packPattern false n).2 ⟨hn, fun h => (nomatch h), fun h => ?_, (fits_pack n).2 hp⟩
      obtain ⟨mid, rfl⟩ := hp
      exact absurd h (by simp)

/-- **C77** a path without `*`, `?` and `[`: the packs in this directory, each as often and in the order in which the system lists it. -/
theorem C77_plain (root : List Text) (h : ∀ c ∈ root, '*' ∉ c ∧ '?' ∉ c ∧ '[' ∉ c) :
    ∃ l : List Text, globPacks range t root = l.map (· :: root) ∧ l.Sublist (t.names root) ∧
      ∀ n, n ∈ l ↔ PackName n ∧ n ∈ t.names root := by
  refine ⟨glob1 range t root packPattern false, ?_, List.filter_sublist, fun n => ?_⟩
  · unfold globPacks
    rw [globDirs_plain range t root fun c hc => ?_]
    · simp
    · cases hm : hasMagic c with
      | false => rfl
      | true =>
        obtain ⟨h1, h2, h3⟩ := h c hc
        rcases (hasMagic_iff c).1 hm with hm | hm | hm
        · exact absurd hm h1
        · exact absurd hm h2
        · exact absurd hm h3
  · rw [mem_glob1, fits_pack]
    constructor
    · rintro ⟨h1, _, _, h4⟩; exact ⟨h4, h1⟩
    · rintro ⟨hp, hn⟩
      refine ⟨hn, fun h => (nomatch h), fun h => ?_, hp⟩
      obtain ⟨mid, rfl⟩ := hp
      exact absurd h (by simp)

/-- **C77** if one of the directories above has a name such as `x[1]`, none of the packs of the database is listed. -/
theorem C77_bracket (root : List Text) (a body b : Text) (hc : a ++ '[' :: (body ++ ']' :: b) ∈ root)
    (ha : ∀ c ∈ a, c ≠ '*' ∧ c ≠ '?' ∧ c ≠ '[') (hb : ∀ c ∈ b, c ≠ '*' ∧ c ≠ '?' ∧ c ≠ '[') (hs : IsSet body) (n : Text) :
    n :: root ∉ globPacks range t root := by
  intro h
  unfold globPacks at h
  obtain ⟨d, hd, h⟩ := List.mem_flatMap.1 h
  obtain ⟨m, _, e⟩ := List.mem_map.1 h
  obtain ⟨rfl, rfl⟩ := List.cons.inj e
  have hself : ∀ l m : List Text, All2 (Like range) l m → l = m → ∀ x ∈ l, Like range x x := by
    intro l m h
    induction h with
    | nil => intro _ x hx; cases hx
    | cons h _ ih =>
      intro e x hx
      obtain ⟨rfl, rfl⟩ := List.cons.inj e
      rcases List.mem_cons.1 hx with rfl | hx
      · exact h
      · exact ih rfl x hx
  have hl := hself _ _ (globDirs_like range t _ _ hd) rfl _ hc
  rw [like_magic ((hasMagic_iff _).2 (.inr (.inr (by simp))))] at hl
  obtain ⟨u, e1, h1⟩ := (fits_literals a _ _ ha).1 hl.1
  obtain ⟨c, v, rfl, _, h2⟩ := (fits_set body b u hs).1 h1
  rw [(fits_plain b v hb).1 h2] at e1
  have := congrArg List.length (List.append_cancel_left e1)
  simp at this
  omega

/-- Names with `*` and `?` only are among those that they stand for. -/
theorem like_self (p : Text) (h : '[' ∉ p) : Like range p p := by
  unfold Like
  split
  · refine ⟨?_, fun h => h⟩
    induction p with
    | nil => exact .nil
    | cons c p ih =>
      have hp : ShellFits range p p := by
        have hn : '[' ∉ p := fun hm => h (List.mem_cons_of_mem _ hm)
        by_cases hm : '*' ∈ p ∨ '?' ∈ p ∨ '[' ∈ p
        · exact ih hn hm
        · refine (fits_plain p p fun c hc => ⟨?_, ?_, ?_⟩).2 rfl
          · rintro rfl; exact hm (.inl hc)
          · rintro rfl; exact hm (.inr (.inl hc))
          · rintro rfl; exact hn hc
      by_cases h1 : c = '*'
      · subst h1; exact .star ['*'] hp
      by_cases h2 : c = '?'
      · subst h2; exact .any '?' hp
      · exact .lit c h1 h2 (fun e => h (by simp [e])) hp
  · rfl

/-- **C77** with `*` and `?` its own packs are listed, with those of other directories. -/
theorem C77_own (ht : TreeOk t) (root : List Text) (h : ∀ c ∈ root, '[' ∉ c) (n : Text) (hp : PackName n)
    (hn : n ∈ t.names root) : n :: root ∈ globPacks range t root := by
  refine (C77_listed range t ht root _).2 ⟨n, root, rfl, hp, hn, ?_⟩
  clear hn
  induction root with
  | nil => exact .nil
  | cons c r ih => exact .cons (like_self range c (h c (by simp))) (ih fun x hx => h x (List.mem_cons_of_mem _ hx))

/-- **C77** a bracket that is not closed does no harm. -/
theorem C77_open (ht : TreeOk t) (root : List Text) (h : ∀ c ∈ root, '*' ∉ c ∧ '?' ∉ c ∧ ']' ∉ c) (path : List Text) :
    path ∈ globPacks range t root ↔ ∃ n, path = n :: root ∧ PackName n ∧ n ∈ t.names root := by
  have lit : ∀ p s : Text, '*' ∉ p → '?' ∉ p → ']' ∉ p → (ShellFits range p s ↔ s = p) := by
    intro p
    induction p with
    | nil => intro s _ _ _; exact fits_nil s
    | cons c p ih =>
      intro s h1 h2 h3
      simp only [List.mem_cons, not_or] at h1 h2 h3
      have ih := fun s => ih s h1.2 h2.2 h3.2
      have hno : ∀ body q, IsSet body → p ≠ body ++ ']' :: q := fun body q _ e => h3.2 (by rw [e]; simp)
      constructor
      · intro hf
        generalize hp : c :: p = pat at hf
        cases hf with
        | nil => cases hp
        | star => cases hp; exact absurd rfl h1.1
        | any => cases hp; exact absurd rfl h2.1
        | set _ _ hb => exact absurd (List.cons.inj hp).2 (hno _ _ hb)
        | open_ _ hf => cases hp; rw [(ih _).1 hf]
        | lit _ _ _ _ hf => cases hp; rw [(ih _).1 hf]
      · rintro rfl
        by_cases hb : c = '['
        · subst hb; exact .open_ hno ((ih p).2 rfl)
        · exact .lit c (Ne.symm h1.1) (Ne.symm h2.1) hb ((ih p).2 rfl)
  have like : ∀ c ∈ root, ∀ n, Like range c n ↔ n = c := by
    intro c hc n
    obtain ⟨h1, h2, h3⟩ := h c hc
    unfold Like
    split
    · rw [lit c n h1 h2 h3]
      exact ⟨fun h => h.1, fun h => ⟨h, by rw [h]; exact id⟩⟩
    · exact Iff.rfl
  have all : ∀ r d : List Text, (∀ c ∈ r, ∀ n, Like range c n ↔ n = c) → (All2 (Like range) r d ↔ d = r) := by
    intro r
    induction r with
    | nil => intro d _; exact ⟨fun h => by cases h; rfl, fun h => by subst h; exact .nil⟩
    | cons c r ih =>
      intro d hr
      have ih := fun d => ih d fun x hx => hr x (List.mem_cons_of_mem _ hx)
      constructor
      · intro h
        cases h with
        | cons h1 h2 => rw [(hr c (by simp) _).1 h1, (ih _).1 h2]
      · rintro rfl
        exact .cons ((hr c (by simp) c).2 rfl) ((ih r).2 rfl)
  rw [C77_listed range t ht root path]
  constructor
  · rintro ⟨n, d, rfl, h1, h2, h3⟩
    rw [(all root d like).1 h3] at h2 ⊢
    exact ⟨n, rfl, h1, h2⟩
  · rintro ⟨n, rfl, h1, h2⟩
    exact ⟨n, root, rfl, h1, h2, (all root root like).2 rfl⟩

/-! ### concrete cases -/

/-- A tree given by its directories and what they contain. -/
def treeOf (l : List (List Text × List Text)) : Tree where
  names d := ((l.find? fun e => e.1 == d).map Prod.snd).getD []
  isDir d := l.any fun e => e.1 == d
  lexists p := match p with
    | [] => true
    | c :: d => (((l.find? fun e => e.1 == d).map Prod.snd).getD []).contains c

/-- `/x[1]`, `/x1` and `/x?`, with a pack each; paths have their last component first. -/
def threeDirs : Tree := treeOf
  [([], ["x[1]".toList, "x1".toList, "x?".toList]), (["x[1]".toList], ["pack-a.pack".toList, "pack-a.idx".toList]),
   (["x1".toList], ["pack-b.pack".toList, ".pack-b.pack".toList]), (["x?".toList], ["pack-c.pack".toList])]

def noRange : Text → Char → Bool := fun _ _ => false

theorem threeDirs_ok : TreeOk threeDirs where
  dir c d h := by
    unfold threeDirs treeOf at h ⊢
    simp only at h ⊢
    rw [List.any_eq_true]
    cases hf : List.find? (fun e : List Text × List Text => e.1 == c :: d) [([], ["x[1]".toList, "x1".toList, "x?".toList]),
        (["x[1]".toList], ["pack-a.pack".toList, "pack-a.idx".toList]),
        (["x1".toList], ["pack-b.pack".toList, ".pack-b.pack".toList]), (["x?".toList], ["pack-c.pack".toList])] with
    | none => rw [hf] at h; exact absurd rfl h
    | some e => exact ⟨e, List.mem_of_find?_eq_some hf, by simpa using List.find?_some hf⟩
  listed c d h := by
    unfold threeDirs treeOf at h
    simp only [List.any_cons, List.any_nil, Bool.or_false, Bool.or_eq_true, beq_iff_eq] at h
    rcases h with h | h | h | h
    · cases h
    all_goals
      obtain ⟨rfl, rfl⟩ := List.cons.inj h
      decide +kernel
  exist c d := by unfold threeDirs treeOf; exact List.contains_iff_mem

/-- The database `/x[1]` has the pack of `/x1`, and not its own. -/
example : globPacks noRange threeDirs ["x[1]".toList] = [["pack-b.pack".toList, "x1".toList]] := by decide +kernel
example : ["pack-a.pack".toList, "x[1]".toList] ∉ globPacks noRange threeDirs ["x[1]".toList] :=
  C77_bracket noRange threeDirs ["x[1]".toList] "x".toList "1".toList [] (by decide +kernel) (by decide +kernel) (by simp)
    (.inl (by decide +kernel)) _
/-- The database `/x?` has its own pack and that of `/x1`. -/
example : globPacks noRange threeDirs ["x?".toList] =
    [["pack-b.pack".toList, "x1".toList], ["pack-c.pack".toList, "x?".toList]] := by decide +kernel
example := C77_own noRange threeDirs threeDirs_ok ["x?".toList] (by decide +kernel) "pack-c.pack".toList ⟨"c".toList, by decide +kernel⟩
  (by decide +kernel)
example : globPacks noRange threeDirs ["x1".toList] = [["pack-b.pack".toList, "x1".toList]] := by decide +kernel
example := C77_plain noRange threeDirs ["x1".toList] (by decide +kernel)
example := C77_open noRange threeDirs threeDirs_ok ["x[".toList] (by decide +kernel)
example := C77_listed noRange threeDirs threeDirs_ok ["x[1]".toList]

end GitDB.Props
