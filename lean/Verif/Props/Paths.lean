import Verif.Proofs.Paths
/-!
# C56: the paths of loose objects

`gitdb/db/base.py` 128-132, `gitdb/db/loose.py` 86-106, 169-175.
-/
set_option autoImplicit false

namespace GitDB.Props
open GitDB

/-- **C56** the path string of an object: root, first two digits, the others, separated by slashes. -/
theorem C56_path (root sha : Bytes) (hr : root ≠ []) (hl : root.getLast? ≠ some 0x2f) (hs : sha ≠ []) :
    dbPathStr root (objectPathStr (binToHex sha)) =
      root ++ [0x2f] ++ (binToHex sha).take 2 ++ [0x2f] ++ (binToHex sha).drop 2 := by
  unfold dbPathStr
  conv => lhs; unfold pathJoin
  rw [if_neg (objectPathStr_head sha), if_neg (by simp [hr, hl]), objectPathStr_hex sha hs]
  simp

/-- **C56** different names have different paths (names of any length). -/
theorem C56_injective (root a b : Bytes)
    (h : dbPathStr root (objectPathStr (binToHex a)) = dbPathStr root (objectPathStr (binToHex b))) : a = b := by
  have h1 : objectPathStr (binToHex a) = objectPathStr (binToHex b) := by
    unfold dbPathStr at h
    unfold pathJoin at h
    rw [if_neg (objectPathStr_head a), if_neg (objectPathStr_head b)] at h
    split at h
    · exact List.append_cancel_left h
    · exact List.append_cancel_left h
  have h2 : binToHex a = binToHex b := by
    by_cases ha : a = []
    · by_cases hb : b = []
      · rw [ha, hb]
      · rw [ha, objectPathStr_hex b hb] at h1
        have := congrArg List.length h1
        simp [objectPathStr, pathJoin, binToHex] at this
    · by_cases hb : b = []
      · rw [hb, objectPathStr_hex a ha] at h1
        have := congrArg List.length h1
        simp [objectPathStr, pathJoin, binToHex] at this
      · have := splitSlash_objectPath a ha
        rw [h1, splitSlash_objectPath b hb] at this
        simp only [objectPath, List.cons.injEq, and_true] at this
        rw [← List.take_append_drop 2 (binToHex a), ← List.take_append_drop 2 (binToHex b), this.1, this.2]
  have h3 := hexToBin_binToHex a
  rw [h2, hexToBin_binToHex b] at h3
  injection h3 with h3
  exact h3.symm

/-- **C56** whatever bytes are looked up, nothing outside the directory of the database is touched: what is
found is the root directory or something below it. -/
theorem C56_inside (fs : Fs) (cwd : Path) (root sha : Bytes) (hr : root ≠ []) (p : Path)
    (h : lookupPath fs cwd (dbPathStr root (objectPathStr (binToHex sha))) = some p) :
    ∃ r, lookupPath fs cwd root = some r ∧ r <+: p ∧ fs r = some .dir := by
  unfold dbPathStr at h
  rw [lookupPath_join _ _ _ _ hr (objectPathStr_head sha)] at h
  rcases hl : lookupPath fs cwd root with _ | r
  · rw [hl] at h; cases h
  rw [hl] at h
  simp only [Option.bind_some] at h
  refine ⟨r, rfl, walk_below fs _ (fun c hc x hx => ?_) _ _ h, ?_⟩
  · exact objectPathStr_noDot sha x (splitSlash_sub _ c hc x hx)
  · rcases hsp : splitSlash (objectPathStr (binToHex sha)) with _ | ⟨c, cs⟩
    · exact absurd hsp (splitSlash_ne_nil _)
    · rw [hsp] at h
      exact walk_dir fs c cs r p h

/-- **C56** `has_object` for names of at least two bytes: is there something at `root/xx/yyyy`? -/
theorem C56_has (fs : Fs) (cwd : Path) (root sha : Bytes) (hr : root ≠ []) (hs : 2 ≤ sha.length) :
    hasObjectStr fs cwd root sha = true ↔
      ∃ r, lookupPath fs cwd root = some r ∧ fs r = some .dir ∧ fs (r ++ [(binToHex sha).take 2]) = some .dir ∧
        (fs (r ++ [(binToHex sha).take 2, (binToHex sha).drop 2])).isSome := by
  have hn : sha ≠ [] := by rintro rfl; simp at hs
  have hl := binToHex_length sha
  have ht : (binToHex sha).take 2 ≠ [] := by
    intro e
    have h1 := congrArg List.length e
    rw [List.length_take, hl, List.length_nil] at h1
    omega
  have hd : (binToHex sha).drop 2 ≠ [] := by
    intro e
    have h1 := congrArg List.length e
    rw [List.length_drop, hl, List.length_nil] at h1
    omega
  have e : lookupPath fs cwd (dbPathStr root (objectPathStr (binToHex sha))) =
      (lookupPath fs cwd root).bind fun r => walk fs r [(binToHex sha).take 2, (binToHex sha).drop 2] := by
    unfold dbPathStr
    rw [lookupPath_join _ _ _ _ hr (objectPathStr_head sha), splitSlash_objectPath sha hn, objectPath]
  rw [hasObjectStr_eq, e]
  cases lookupPath fs cwd root with
  | none => simp
  | some r =>
    simp only [Option.bind_some]
    rw [walk_two _ _ _ _ ht hd (fun c hc => binToHex_noDot sha c (List.mem_of_mem_take hc))
        (fun c hc => binToHex_noDot sha c (List.mem_of_mem_drop hc))]
    by_cases hc : fs r = some .dir ∧ fs (r ++ [(binToHex sha).take 2]) = some .dir ∧
        (fs (r ++ [(binToHex sha).take 2, (binToHex sha).drop 2])).isSome
    · rw [if_pos hc]; simp [hc]
    · rw [if_neg hc]; simp only [Option.isSome_none, Bool.false_eq_true, if_false, false_iff]
      rintro ⟨r', h1, h2⟩
      injection h1 with h1
      subst h1
      exact hc h2

/-- A directory tree: everything is in a directory. -/
def IsTree (fs : Fs) : Prop := ∀ p c, (fs (p ++ [c])).isSome → fs p = some .dir

/-- **C56** the description of paths by components used for the other properties of loose databases
(`LooseDB.hasObject`, C34-C38) agrees with the path strings, wherever the root path leads. -/
theorem C56_components (fs : Fs) (hfs : IsTree fs) (cwd : Path) (root sha : Bytes) (hr : root ≠ [])
    (hs : 2 ≤ sha.length) (r : Path) (hl : lookupPath fs cwd root = some r) :
    hasObjectStr fs cwd root sha = (LooseDB.hasObject (fun p => fs (r ++ p)) {} sha).2 := by
  have h := C56_has fs cwd root sha hr hs
  have e : (LooseDB.hasObject (fun p => fs (r ++ p)) {} sha).2 =
      (fs (r ++ [(binToHex sha).take 2, (binToHex sha).drop 2])).isSome := by
    rw [hasObject_fresh, objectPath]
  rw [e, Bool.eq_iff_iff, h]
  constructor
  · rintro ⟨r', h1, _, _, h4⟩
    rw [hl] at h1
    injection h1 with h1
    subst h1
    exact h4
  · intro h4
    have h5 : fs (r ++ [(binToHex sha).take 2]) = some .dir :=
      hfs (r ++ [(binToHex sha).take 2]) ((binToHex sha).drop 2) (by rw [List.append_assoc]; exact h4)
    exact ⟨r, hl, hfs r ((binToHex sha).take 2) (by rw [h5]; rfl), h5, h4⟩

/-- **C56** names that are too short are not refused: the empty name "exists" in every database, and a
name of one byte if there is a directory with this name, although no object has such a name. -/
theorem C56_short (fs : Fs) (cwd : Path) (root : Bytes) (hr : root ≠ []) (r : Path)
    (hl : lookupPath fs cwd root = some r) :
    (hasObjectStr fs cwd root [] = true ↔ fs r = some .dir) ∧
    ∀ b, hasObjectStr fs cwd root [b] = true ↔ fs r = some .dir ∧ fs (r ++ [binToHex [b]]) = some .dir := by
  constructor
  · have e : lookupPath fs cwd (dbPathStr root (objectPathStr (binToHex []))) =
        if fs r = some .dir then some r else none := by
      unfold dbPathStr
      rw [lookupPath_join _ _ _ _ hr (objectPathStr_head []), hl]
      have : splitSlash (objectPathStr (binToHex [])) = [[]] := by decide
      rw [this]
      simp only [Option.bind_some, walk, true_or, if_true]
      by_cases h : fs r = some .dir <;> simp [h]
    rw [hasObjectStr_eq, e]
    by_cases h : fs r = some .dir <;> simp [h]
  · intro b
    have e : lookupPath fs cwd (dbPathStr root (objectPathStr (binToHex [b]))) =
        if fs r = some .dir ∧ fs (r ++ [binToHex [b]]) = some .dir then some (r ++ [binToHex [b]]) else none := by
      unfold dbPathStr
      rw [lookupPath_join _ _ _ _ hr (objectPathStr_head [b]), hl, splitSlash_objectPath [b] (by simp)]
      have h1 : (binToHex [b]).take 2 = binToHex [b] := by simp [binToHex]
      have h2 : (binToHex [b]).drop 2 = [] := by simp [binToHex]
      have h3 : binToHex [b] ≠ [] ∧ binToHex [b] ≠ [0x2e] ∧ binToHex [b] ≠ [0x2e, 0x2e] := by
        refine ⟨by simp [binToHex], by simp [binToHex], fun e => ?_⟩
        exact binToHex_noDot [b] 0x2e (by rw [e]; simp) rfl
      simp only [objectPath, h1, h2, Option.bind_some, walk, h3.1, h3.2.1, h3.2.2, or_self, if_false, true_or, if_true]
      by_cases h : fs r = some .dir
      · by_cases h' : fs (r ++ [binToHex [b]]) = some .dir <;> simp [h, h']
      · simp [h]
    rw [hasObjectStr_eq, e]
    by_cases h : fs r = some .dir ∧ fs (r ++ [binToHex [b]]) = some .dir <;> simp [h]

/-- **C56** `readable_db_object_path`, whose argument is not converted, leaves the directory: two arbitrary
characters followed by an absolute path give this path. -/
theorem C56_escape (fs : Fs) (cwd : Path) (root : Bytes) (a b : UInt8) (path : Bytes)
    (h : pathExists fs cwd (0x2f :: path) = true) :
    readablePathStr fs cwd root (a :: b :: 0x2f :: path) = .ok (0x2f :: path) := by
  have e : dbPathStr root (objectPathStr (a :: b :: 0x2f :: path)) = 0x2f :: path := by
    simp [dbPathStr, objectPathStr, pathJoin]
  simp only [readablePathStr, e, h, if_true]

/-- A small tree: `/db/ab/cdef` and `/etc`. -/
def exTree : Fs := fun p =>
  if p ∈ [[], [[0x64, 0x62]], [[0x64, 0x62], [0x61, 0x62]]] then some .dir
  else if p = [[0x64, 0x62], [0x61, 0x62], [0x63, 0x64, 0x65, 0x66]] then some (.file [1] 0o444)
  else if p = [[0x65, 0x74, 0x63]] then some (.file [2] 0o600)
  else none

/-- `/db` -/
def exRoot : Bytes := [0x2f, 0x64, 0x62]

example : lookupPath exTree [] exRoot = some [[0x64, 0x62]] := by decide
example : hasObjectStr exTree [] exRoot [0xab, 0xcd, 0xef] = true := by decide
example : hasObjectStr exTree [] (exRoot ++ [0x2f]) [0xab, 0xcd, 0xef] = true := by decide
example : hasObjectStr exTree [] exRoot [0xab, 0xcd, 0xee] = false := by decide
/-- the current directory is `/db`, the root `../db` -/
example : hasObjectStr exTree [[0x64, 0x62]] [0x2e, 0x2e, 0x2f, 0x64, 0x62] [0xab, 0xcd, 0xef] = true := by decide
example : hasObjectStr exTree [] exRoot [] = true ∧ hasObjectStr exTree [] exRoot [0xab] = true ∧
    hasObjectStr exTree [] exRoot [0xac] = false := by decide
/-- `zz/etc` -/
example : readablePathStr exTree [] exRoot [0x7a, 0x7a, 0x2f, 0x65, 0x74, 0x63] = .ok [0x2f, 0x65, 0x74, 0x63] := by decide
example : dbPathStr exRoot (objectPathStr (binToHex [0xab, 0xcd, 0xef])) =
    [0x2f, 0x64, 0x62, 0x2f, 0x61, 0x62, 0x2f, 0x63, 0x64, 0x65, 0x66] := by decide
example : IsTree exTree := by
  intro p c h
  simp only [exTree] at h
  have key : p ++ [c] = [[0x64, 0x62]] ∨ p ++ [c] = [[0x64, 0x62], [0x61, 0x62]] ∨
      p ++ [c] = [[0x64, 0x62], [0x61, 0x62], [0x63, 0x64, 0x65, 0x66]] ∨ p ++ [c] = [[0x65, 0x74, 0x63]] := by
    split at h
    · rename_i hm
      simp only [List.mem_cons, List.not_mem_nil, or_false] at hm
      rcases hm with hm | hm | hm
      · simp at hm
      · exact .inl hm
      · exact .inr (.inl hm)
    · split at h
      · rename_i hm; exact .inr (.inr (.inl hm))
      · split at h
        · rename_i hm; exact .inr (.inr (.inr hm))
        · cases h
  have hp : p = (p ++ [c]).dropLast := by simp
  rcases key with k | k | k | k <;> rw [k] at hp <;> rw [hp] <;> decide

end GitDB.Props
