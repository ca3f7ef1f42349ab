import Verif.Model.Paths
import Verif.Model.Loose
import Verif.Proofs.Names
/-!
# Lemmas about path strings
-/
set_option autoImplicit false

namespace GitDB

theorem splitSlash_ne_nil (s : Bytes) : splitSlash s ≠ [] := by
  cases s with
  | nil => simp [splitSlash]
  | cons c t =>
    simp only [splitSlash]
    split
    · simp
    · split <;> simp

/-- No slash: one component. -/
theorem splitSlash_plain {s : Bytes} (h : 0x2f ∉ s) : splitSlash s = [s] := by
  induction s with
  | nil => rfl
  | cons c t ih =>
    have h1 : c ≠ 0x2f := fun e => h (by simp [e])
    have h2 : (0x2f : UInt8) ∉ t := fun e => h (by simp [e])
    simp only [splitSlash, if_neg h1, ih h2]

theorem splitSlash_append (a b : Bytes) : splitSlash (a ++ 0x2f :: b) = splitSlash a ++ splitSlash b := by
  induction a with
  | nil => simp [splitSlash]
  | cons c t ih =>
    simp only [List.cons_append, splitSlash]
    split
    · simp [ih]
    · rw [ih]
      rcases hs : splitSlash t with _ | ⟨p, ps⟩
      · exact absurd hs (splitSlash_ne_nil t)
      · rfl

theorem walk_append (fs : Fs) (a b : List Bytes) : ∀ cur, b ≠ [] →
    walk fs cur (a ++ b) = (walk fs cur a).bind fun p => walk fs p b := by
  induction a with
  | nil =>
    intro cur hb
    rcases b with _ | ⟨c, cs⟩
    · exact absurd rfl hb
    · simp only [List.nil_append, walk]
      cases h : fs cur with
      | none => simp
      | some n => cases n <;> simp [h]
  | cons c a ih =>
    intro cur hb
    simp only [List.cons_append, walk]
    split
    · exact ih _ hb
    · rfl

theorem hexDigit_plain (n : Nat) (h : n < 16) : hexDigit n ≠ 0x2f ∧ hexDigit n ≠ 0x2e := by
  have : ∀ n, n < 16 → hexDigit n ≠ 0x2f ∧ hexDigit n ≠ 0x2e := by decide
  exact this n h

theorem binToHex_plain (b : Bytes) : ∀ c ∈ binToHex b, c ≠ 0x2f ∧ c ≠ 0x2e := by
  induction b with
  | nil => simp [binToHex]
  | cons x xs ih =>
    intro c hc
    have := x.toNat_lt
    simp only [binToHex, List.mem_cons] at hc
    rcases hc with rfl | rfl | hc
    · exact hexDigit_plain _ (by omega)
    · exact hexDigit_plain _ (by omega)
    · exact ih c hc

theorem binToHex_noSlash (b : Bytes) : (0x2f : UInt8) ∉ binToHex b := fun h => (binToHex_plain b _ h).1 rfl

theorem binToHex_noDot (b : Bytes) : ∀ c ∈ binToHex b, c ≠ 0x2e := fun c h => (binToHex_plain b c h).2

theorem splitSlash_getLast (s : Bytes) (h : s.getLast? = some 0x2f) :
    ∃ a, s = a ++ [0x2f] ∧ splitSlash s = splitSlash a ++ [[]] := by
  obtain ⟨a, rfl⟩ := List.getLast?_eq_some_iff.1 h
  exact ⟨a, rfl, splitSlash_append a []⟩

/-- Walking on from a directory, whatever the first steps were. -/
theorem walk_split_join (fs : Fs) (cur : Path) (root rela : Bytes) (hr : root ≠ []) (hs : rela.head? ≠ some 0x2f) :
    walk fs cur (splitSlash (pathJoin root rela)) =
      (walk fs cur (splitSlash root)).bind fun r => walk fs r (splitSlash rela) := by
  unfold pathJoin
  rw [if_neg hs]
  by_cases hl : root.getLast? = some 0x2f
  · rw [if_pos (.inr hl)]
    obtain ⟨a, rfl, h⟩ := splitSlash_getLast root hl
    rw [h, List.append_assoc, List.singleton_append, splitSlash_append, walk_append _ _ _ _ (splitSlash_ne_nil _),
      walk_append _ _ _ _ (by simp)]
    cases walk fs cur (splitSlash a) with
    | none => rfl
    | some q =>
      simp only [Option.bind_some, walk, true_or, if_true]
      by_cases hq : fs q = some .dir
      · simp [hq]
      · rw [if_neg hq]
        rcases hsr : splitSlash rela with _ | ⟨c, cs⟩
        · exact absurd hsr (splitSlash_ne_nil _)
        · simp [walk, hq]
  · rw [if_neg (by simp [hr, hl]), List.append_assoc, List.singleton_append, splitSlash_append,
      walk_append _ _ _ _ (splitSlash_ne_nil _)]

theorem pathJoin_head (root rela : Bytes) (hr : root ≠ []) (hs : rela.head? ≠ some 0x2f) :
    (pathJoin root rela).head? = root.head? ∧ pathJoin root rela ≠ [] := by
  unfold pathJoin
  rw [if_neg hs]
  cases root with
  | nil => exact absurd rfl hr
  | cons c t => split <;> simp

/-- A relative path is looked up from where the root path leads. -/
theorem lookupPath_join (fs : Fs) (cwd : Path) (root rela : Bytes) (hr : root ≠ []) (hs : rela.head? ≠ some 0x2f) :
    lookupPath fs cwd (pathJoin root rela) =
      (lookupPath fs cwd root).bind fun r => walk fs r (splitSlash rela) := by
  obtain ⟨h1, h2⟩ := pathJoin_head root rela hr hs
  unfold lookupPath
  rw [if_neg h2, if_neg hr, h1]
  split <;> exact walk_split_join _ _ _ _ hr hs

theorem hex_head (b : Bytes) (n : Nat) : ((binToHex b).drop n).head? ≠ some 0x2f := by
  intro h
  exact binToHex_noSlash b (List.mem_of_mem_drop (List.mem_of_head? h))

/-- The relative path of an object. -/
theorem objectPathStr_hex (b : Bytes) (h : b ≠ []) :
    objectPathStr (binToHex b) = (binToHex b).take 2 ++ 0x2f :: (binToHex b).drop 2 := by
  have hn : (binToHex b).take 2 ≠ [] := by
    intro e
    have h1 := congrArg List.length e
    have h2 : 0 < b.length := List.length_pos_iff.2 h
    rw [List.length_take, binToHex_length, List.length_nil] at h1
    omega
  have hl : ((binToHex b).take 2).getLast? ≠ some 0x2f := by
    intro e
    exact binToHex_noSlash b (List.mem_of_mem_take (List.mem_of_getLast? e))
  unfold objectPathStr pathJoin
  rw [if_neg (hex_head b 2), if_neg (by simp only [not_or]; exact ⟨hn, hl⟩)]
  simp

theorem objectPathStr_head (b : Bytes) : (objectPathStr (binToHex b)).head? ≠ some 0x2f := by
  by_cases h : b = []
  · subst h; decide
  · rw [objectPathStr_hex b h]
    cases b with
    | nil => exact absurd rfl h
    | cons x xs =>
      simp only [binToHex, List.take_succ_cons, List.cons_append, List.head?_cons]
      intro e
      injection e with e
      exact (binToHex_plain (x :: xs) _ (by simp [binToHex])).1 e

theorem splitSlash_objectPath (b : Bytes) (h : b ≠ []) :
    splitSlash (objectPathStr (binToHex b)) = objectPath (binToHex b) := by
  rw [objectPathStr_hex b h, splitSlash_append,
    splitSlash_plain (fun e => binToHex_noSlash b (List.mem_of_mem_take e)),
    splitSlash_plain (fun e => binToHex_noSlash b (List.mem_of_mem_drop e))]
  rfl

/-- Without dots there is no way up. -/
theorem walk_below (fs : Fs) (cs : List Bytes) (h : ∀ c ∈ cs, ∀ x ∈ c, x ≠ 0x2e) : ∀ cur p,
    walk fs cur cs = some p → cur <+: p := by
  induction cs with
  | nil =>
    intro cur p hp
    simp only [walk] at hp
    split at hp
    · injection hp with hp; rw [hp]; exact List.prefix_refl _
    · cases hp
  | cons c cs ih =>
    intro cur p hp
    have h4 : c ≠ [0x2e, 0x2e] := by rintro rfl; exact h [0x2e, 0x2e] (by simp) 0x2e (by simp) rfl
    simp only [walk, if_neg h4] at hp
    split at hp
    · have hx := ih (fun c hc => h c (by simp [hc])) _ _ hp
      refine List.IsPrefix.trans ?_ hx
      split
      · exact List.prefix_refl _
      · exact List.prefix_append _ _
    · cases hp

theorem walk_dir (fs : Fs) (c : Bytes) (cs : List Bytes) (cur p : Path) (h : walk fs cur (c :: cs) = some p) :
    fs cur = some .dir := by
  simp only [walk] at h
  split at h
  · assumption
  · cases h

theorem splitSlash_sub (s : Bytes) : ∀ c ∈ splitSlash s, ∀ x ∈ c, x ∈ s := by
  induction s with
  | nil => simp [splitSlash]
  | cons a t ih =>
    intro c hc x hx
    simp only [splitSlash] at hc
    split at hc
    · rcases List.mem_cons.1 hc with rfl | hc
      · cases hx
      · exact List.mem_cons_of_mem _ (ih c hc x hx)
    · split at hc
      · rw [List.mem_singleton.1 hc] at hx
        rw [List.mem_singleton.1 hx]; simp
      · rename_i q qs e
        rcases List.mem_cons.1 hc with rfl | hc
        · rcases List.mem_cons.1 hx with rfl | hx
          · simp
          · exact List.mem_cons_of_mem _ (ih q (by rw [e]; simp) x hx)
        · exact List.mem_cons_of_mem _ (ih c (by rw [e]; simp [hc]) x hx)

theorem objectPathStr_noDot (b : Bytes) : ∀ x ∈ objectPathStr (binToHex b), x ≠ 0x2e := by
  intro x hx
  by_cases h : b = []
  · subst h; simp [objectPathStr, pathJoin, binToHex] at hx
  · rw [objectPathStr_hex b h] at hx
    rcases List.mem_append.1 hx with hx | hx
    · exact binToHex_noDot b x (List.mem_of_mem_take hx)
    · rcases List.mem_cons.1 hx with rfl | hx
      · decide
      · exact binToHex_noDot b x (List.mem_of_mem_drop hx)

/-- Two plain components below a directory. -/
theorem walk_two (fs : Fs) (cur : Path) (a b : Bytes) (ha : a ≠ []) (hb : b ≠ []) (ha' : ∀ c ∈ a, c ≠ 0x2e)
    (hb' : ∀ c ∈ b, c ≠ 0x2e) :
    walk fs cur [a, b] = if fs cur = some .dir ∧ fs (cur ++ [a]) = some .dir ∧ (fs (cur ++ [a, b])).isSome
      then some (cur ++ [a, b]) else none := by
  have hp : ∀ s : Bytes, s ≠ [] → (∀ c ∈ s, c ≠ 0x2e) →
      (if s = [] ∨ s = [0x2e] then cur else if s = [0x2e, 0x2e] then cur.dropLast else cur ++ [s]) = cur ++ [s] ∧
      ∀ q : Path, (if s = [] ∨ s = [0x2e] then q else if s = [0x2e, 0x2e] then q.dropLast else q ++ [s]) = q ++ [s] := by
    intro s h1 h2
    have h3 : s ≠ [0x2e] := by rintro rfl; exact h2 0x2e (by simp) rfl
    have h4 : s ≠ [0x2e, 0x2e] := by rintro rfl; exact h2 0x2e (by simp) rfl
    simp [h1, h3, h4]
  simp only [walk, (hp a ha ha').2, (hp b hb hb').2]
  rw [List.append_assoc]
  simp only [List.cons_append, List.nil_append]
  by_cases h1 : fs cur = some .dir
  · by_cases h2 : fs (cur ++ [a]) = some .dir
    · by_cases h3 : (fs (cur ++ [a, b])).isSome = true <;> simp [h1, h2, h3]
    · simp [h1, h2]
  · simp [h1]

theorem hasObjectStr_eq (fs : Fs) (cwd : Path) (root sha : Bytes) :
    hasObjectStr fs cwd root sha = (lookupPath fs cwd (dbPathStr root (objectPathStr (binToHex sha)))).isSome := by
  unfold hasObjectStr readablePathStr pathExists
  simp only
  cases lookupPath fs cwd (dbPathStr root (objectPathStr (binToHex sha))) <;> rfl

theorem hasObject_fresh (fs : Fs) (sha : Bytes) :
    (LooseDB.hasObject fs {} sha).2 = (fs (objectPath (binToHex sha))).isSome := by
  unfold LooseDB.hasObject LooseDB.readablePath
  rw [if_neg (by simp)]
  by_cases h : (fs (objectPath (binToHex sha))).isSome = true
  · rw [if_pos h, h]
  · rw [if_neg h]
    simp only [Bool.not_eq_true] at h
    exact h.symm

end GitDB
