import Verif.Model.Alternates
import Verif.Spec.Alternates
import Verif.Proofs.Lists
/-!
# Lemmas about alternates
-/
set_option autoImplicit false

namespace GitDB
open Spec

theorem char_eq_iff (c d : Char) : c = d ↔ c.toNat = d.toNat :=
  ⟨fun h => by rw [h], fun h => by
    have := congrArg Char.ofNat h
    rwa [Char.ofNat_toNat, Char.ofNat_toNat] at this⟩

theorem isBreak_iff (c : Char) : isBreak c = true ↔ LineEnd c := by
  unfold isBreak LineEnd
  simp only [decide_eq_true_eq, List.mem_cons, List.not_mem_nil, or_false, char_eq_iff]
  rfl

theorem isSpace_iff (c : Char) : isSpace c = true ↔ Blank c := by
  unfold isSpace
  rw [Bool.or_eq_true, Bool.or_eq_true, isBreak_iff, Bool.and_eq_true]
  unfold LineEnd Blank
  simp only [decide_eq_true_eq, List.mem_cons, List.not_mem_nil, or_false, char_eq_iff]
  rw [show (Char.ofNat 9).toNat = 9 from rfl, show (Char.ofNat 0x1f).toNat = 31 from rfl, show (' ').toNat = 32 from rfl,
    show (Char.ofNat 0xa0).toNat = 160 from rfl, show (Char.ofNat 0x1680).toNat = 5760 from rfl,
    show (Char.ofNat 0x202f).toNat = 8239 from rfl, show (Char.ofNat 0x205f).toNat = 8287 from rfl,
    show (Char.ofNat 0x3000).toNat = 12288 from rfl]
  omega

theorem splitLines_spec : ∀ (cur t : Text), (∀ c ∈ cur, ¬ LineEnd c) → IsLines (cur.reverse ++ t) (splitLines cur t) := by
  intro cur t
  induction cur, t using splitLines.induct with
  | case1 => intro _; exact .nil
  | case2 cur h =>
    intro hc
    simp only [splitLines, if_neg h, List.append_nil]
    exact .last _ (by simpa using h) (by simpa using hc)
  | case3 cur c h =>
    intro hc
    simp only [splitLines, if_pos h]
    have := IsLines.line cur.reverse c [] [] (by simpa using hc) ((isBreak_iff c).mp h) (by simp) .nil
    simpa using this
  | case4 cur c h =>
    intro hc
    simp only [splitLines, if_neg h]
    have hb : ¬ LineEnd c := fun hl => h ((isBreak_iff c).mpr hl)
    have := IsLines.last (c :: cur).reverse (by simp) (by
      intro d hd
      simp only [List.mem_reverse, List.mem_cons] at hd
      rcases hd with rfl | hd
      · exact hb
      · exact hc d hd)
    simpa using this
  | case5 cur c d r h ih =>
    intro hc
    rw [splitLines, if_pos h]
    obtain ⟨rfl, rfl⟩ := h
    have := IsLines.crlf cur.reverse r _ (by simpa using hc) (ih (by simp))
    simpa using this
  | case6 cur c d r h hb ih =>
    intro hc
    rw [splitLines, if_neg h, if_pos hb]
    have := IsLines.line cur.reverse c (d :: r) _ (by simpa using hc) ((isBreak_iff c).mp hb) (by
      rintro ⟨e1, e2⟩
      exact h ⟨e1, by simpa using e2⟩) (ih (by simp))
    simpa using this
  | case7 cur c d r h hb ih =>
    intro hc
    rw [splitLines, if_neg h, if_neg hb]
    have := ih (by
      intro e he
      simp only [List.mem_cons] at he
      rcases he with rfl | he
      · exact fun hl => hb ((isBreak_iff e).mpr hl)
      · exact hc e he)
    simpa using this

theorem dropWhile_split {γ : Type} (p : γ → Bool) (l : List γ) : ∃ a, l = a ++ l.dropWhile p ∧ (∀ c ∈ a, p c = true) ∧
    ∀ c, (l.dropWhile p).head? = some c → p c = false := by
  refine ⟨l.takeWhile p, List.takeWhile_append_dropWhile.symm, ?_, ?_⟩
  · intro c hc
    have := List.all_takeWhile (p := p) (l := l)
    rw [List.all_eq_true] at this
    exact this c hc
  · intro c hc
    have := List.head?_dropWhile_not p l
    rw [hc] at this
    simpa using this

theorem strip_spec (l : Text) : Trimmed l (strip l) := by
  obtain ⟨a, h1, h2, h3⟩ := dropWhile_split isSpace l
  obtain ⟨b, g1, g2, g3⟩ := dropWhile_split isSpace (l.dropWhile isSpace).reverse
  have hm : l.dropWhile isSpace = strip l ++ b.reverse := by
    have := congrArg List.reverse g1
    rw [List.reverse_reverse, List.reverse_append] at this
    exact this
  refine ⟨a, b.reverse, ?_, fun c hc => (isSpace_iff c).mp (h2 c hc), fun c hc => (isSpace_iff c).mp (g2 c (by simpa using hc)), ?_, ?_⟩
  · rw [List.append_assoc, ← hm]; exact h1
  · intro c hc hb
    have : (l.dropWhile isSpace).head? = some c := by
      rw [hm]
      cases hs : strip l with
      | nil => rw [hs] at hc; simp at hc
      | cons x y => rw [hs] at hc; simpa using hc
    rw [← isSpace_iff, h3 c this] at hb
    exact absurd hb (by decide)
  · intro c hc hb
    rw [show strip l = ((l.dropWhile isSpace).reverse.dropWhile isSpace).reverse from rfl, List.getLast?_reverse] at hc
    rw [← isSpace_iff, g3 c hc] at hb
    exact absurd hb (by decide)

theorem refPaths_spec (t : Text) : ∃ paths, refPaths (.ok t) = .ok paths ∧ Alternates t paths := by
  refine ⟨_, rfl, _, splitLines_spec [] t (by simp), ?_⟩
  generalize splitLines [] t = ls
  induction ls with
  | nil => exact .nil
  | cons l ls ih => exact .cons (strip_spec l) ih

/-! ### refreshing -/

variable {σ : Type}

theorem removePath_spec (path : Text) : ∀ (copy dbs0 dbs : Refs σ) (i : Nat), dbs = dbs0 ++ copy → dbs0.length = i →
    (copy.map Prod.fst).Nodup → removePath path copy i dbs = .ok (dbs0 ++ copy.filter fun d => decide (d.1 ≠ path)) := by
  intro copy
  induction copy with
  | nil => intro dbs0 dbs i h _ _; simp [removePath, h]
  | cons d copy ih =>
    intro dbs0 dbs i h hi hn
    rw [List.map_cons, List.nodup_cons] at hn
    unfold removePath
    by_cases hd : d.1 = path
    · rw [if_pos hd, if_pos (by rw [h]; simp; omega)]
      -- nothing else is removed
      have hno : ∀ e ∈ copy, e.1 ≠ path := by
        intro e he hp
        exact hn.1 (by rw [hd, ← hp]; exact List.mem_map_of_mem he)
      have hrest : ∀ (l : Refs σ) (j : Nat) (x : Refs σ), (∀ e ∈ l, e.1 ≠ path) → removePath path l j x = .ok x := by
        intro l
        induction l with
        | nil => intro j x _; rfl
        | cons e l ihl =>
          intro j x hl
          unfold removePath
          rw [if_neg (hl e (by simp))]
          exact ihl (j + 1) x fun e he => hl e (by simp [he])
      rw [hrest copy _ _ hno, h, ← hi, List.eraseIdx_append_of_length_le (by omega)]
      simp only [Nat.sub_self, List.eraseIdx_cons_zero, Except.ok.injEq, List.append_cancel_left_eq]
      rw [List.filter_cons_of_neg (by simpa using hd), List.filter_eq_self.mpr (by simpa using hno)]
    · rw [if_neg hd, ih (dbs0 ++ [d]) dbs (i + 1) (by simp [h]) (by simp [hi]) hn.2, List.filter_cons_of_pos (by simpa using hd)]
      simp

theorem removePaths_spec : ∀ (ps : List Text) (dbs : Refs σ), (dbs.map Prod.fst).Nodup →
    removePaths ps dbs = .ok (dbs.filter fun d => decide (d.1 ∉ ps))
  | [], dbs, _ => by
    rw [removePaths, List.filter_eq_self.mpr (by simp)]
  | p :: ps, dbs, h => by
    unfold removePaths
    rw [removePath_spec p dbs [] dbs 0 rfl rfl h]
    simp only [List.nil_append]
    rw [removePaths_spec ps _ ((List.filter_sublist.map Prod.fst).nodup h), List.filter_filter]
    congr 1
    refine List.filter_congr fun d _ => ?_
    by_cases h1 : d.1 = p <;> by_cases h2 : d.1 ∈ ps <;> simp [h1, h2]

theorem addRefs_spec (mk : Text → Option σ) : ∀ (ps : List Text) (dbs : Refs σ),
    addRefs mk ps dbs = dbs ++ ps.filterMap fun p => (mk p).map fun s => (p, s)
  | [], dbs => by simp [addRefs]
  | p :: ps, dbs => by
    unfold addRefs
    cases h : mk p with
    | none => simp only [addRefs_spec mk ps dbs]; simp [h]
    | some s => simp only [addRefs_spec mk ps]; simp [h]

theorem mem_firsts : ∀ (l seen : List Text) (p : Text), p ∈ firsts seen l ↔ p ∈ l ∧ p ∉ seen
  | [], seen, p => by simp [firsts]
  | q :: l, seen, p => by
    unfold firsts
    by_cases hq : q ∈ seen
    · rw [if_pos hq, mem_firsts l seen p]
      simp only [List.mem_cons]
      constructor
      · rintro ⟨h1, h2⟩; exact ⟨.inr h1, h2⟩
      · rintro ⟨rfl | h1, h2⟩
        · exact absurd hq h2
        · exact ⟨h1, h2⟩
    · rw [if_neg hq]
      simp only [List.mem_cons, mem_firsts l (q :: seen) p]
      by_cases hpq : p = q
      · subst hpq; simp [hq]
      · simp [hpq]

theorem firsts_nodup : ∀ (l seen : List Text), (firsts seen l).Nodup
  | [], _ => by simp [firsts]
  | q :: l, seen => by
    unfold firsts
    split
    · exact firsts_nodup l seen
    · rw [List.nodup_cons]
      exact ⟨by rw [mem_firsts]; simp, firsts_nodup l _⟩

/-- What is left of the old databases, and the new ones. -/
theorem updateRefs_spec {order : List Text → List Text} (ho : ∀ l, (order l).Perm l) (mk : Text → Option σ) (file : Res Text)
    (paths : List Text) (hp : refPaths file = .ok paths) (dbs : Refs σ) (hn : (dbs.map Prod.fst).Nodup) :
    updateRefs order mk file dbs =
      (dbs.filter (fun d => decide (d.1 ∈ paths)) ++
        ((firsts [] paths).filter fun p => decide (p ∉ dbs.map Prod.fst)).filterMap (fun p => (mk p).map fun s => (p, s)), .ok ()) := by
  unfold updateRefs
  rw [hp]
  simp only
  rw [removePaths_spec _ _ hn]
  simp only [addRefs_spec]
  congr 2
  refine List.filter_congr fun d hd => ?_
  have : d.1 ∈ order (firsts [] ((dbs.map Prod.fst).filter fun p => decide (p ∉ paths))) ↔ d.1 ∉ paths := by
    rw [(ho _).mem_iff, mem_firsts, List.mem_filter]
    constructor
    · rintro ⟨⟨-, h⟩, -⟩; simpa using h
    · intro h; exact ⟨⟨List.mem_map_of_mem hd, by simpa using h⟩, by simp⟩
  simp only [this]
  by_cases h : d.1 ∈ paths <;> simp [h]

theorem updateRefs_nodup {order : List Text → List Text} (ho : ∀ l, (order l).Perm l) (mk : Text → Option σ) (file : Res Text)
    (dbs : Refs σ) (hn : (dbs.map Prod.fst).Nodup) : ((updateRefs order mk file dbs).1.map Prod.fst).Nodup := by
  rcases hp : refPaths file with e | paths
  · unfold updateRefs; rw [hp]; exact hn
  · rw [updateRefs_spec ho mk file paths hp dbs hn]
    simp only [List.map_append]
    rw [List.nodup_append]
    refine ⟨(List.filter_sublist.map Prod.fst).nodup hn, ?_, ?_⟩
    · have hs : ∀ l : List Text, (l.filterMap (fun p => (mk p).map fun s => (p, s))).map Prod.fst =
          l.filter fun p => (mk p).isSome := by
        intro l
        induction l with
        | nil => rfl
        | cons p l ih => cases h : mk p <;> simp [h, ih]
      rw [hs]
      exact ((firsts_nodup paths []).filter _).filter _
    · intro p hp1 q hq1 hpq
      subst hpq
      obtain ⟨d, hd, rfl⟩ := List.mem_map.mp hp1
      obtain ⟨e, he, hed⟩ := List.mem_map.mp hq1
      obtain ⟨q, hq, hqe⟩ := List.mem_filterMap.mp he
      rw [List.mem_filter] at hd hq
      rcases hm : mk q with _ | s
      · rw [hm] at hqe; simp at hqe
      · rw [hm] at hqe
        simp only [Option.map_some, Option.some.injEq] at hqe
        rw [← hqe] at hed
        simp only at hed
        exact absurd (List.mem_map_of_mem (f := Prod.fst) hd.1) (by rw [← hed]; simpa using hq.2)

theorem splitLines_push {c : Char} (hc : ¬ LineEnd c) (cur x : Text) (hx : x ≠ []) :
    splitLines cur (c :: x) = splitLines (c :: cur) x := by
  have hb : ¬ isBreak c = true := fun hb => hc ((isBreak_iff c).mp hb)
  have hr : c ≠ Char.ofNat 13 := by
    rintro rfl
    exact hb (by decide)
  cases x with
  | nil => exact absurd rfl hx
  | cons d y => rw [splitLines, if_neg (fun hh => hr hh.1), if_neg hb]

theorem splitLines_pushes : ∀ (l cur x : Text), (∀ c ∈ l, ¬ LineEnd c) → x ≠ [] →
    splitLines cur (l ++ x) = splitLines (l.reverse ++ cur) x
  | [], _, _, _, _ => rfl
  | c :: l, cur, x, h, hx => by
    rw [List.cons_append, splitLines_push (h c (by simp)) cur (l ++ x) (by simp [hx]),
      splitLines_pushes l (c :: cur) x (fun d hd => h d (by simp [hd])) hx]
    simp

theorem splitLines_end (cur : Text) {c : Char} (hc : LineEnd c) (r : Text) (hn : ¬ (c = '\r' ∧ r.head? = some '\n')) :
    splitLines cur (c :: r) = cur.reverse :: splitLines [] r := by
  have hb := (isBreak_iff c).mpr hc
  cases r with
  | nil => simp [splitLines, hb]
  | cons d r =>
    rw [splitLines, if_neg, if_pos hb]
    rintro ⟨h1, h2⟩
    exact hn ⟨h1, by rw [h2]; rfl⟩

theorem isLines_unique {t : Text} {ls : List Text} (h : IsLines t ls) : splitLines [] t = ls := by
  induction h with
  | nil => rfl
  | last l h hl =>
    rcases List.eq_nil_or_concat l with rfl | ⟨l', c, rfl⟩
    · exact absurd rfl h
    · rw [List.concat_eq_append] at *
      rw [splitLines_pushes l' [] [c] (fun d hd => hl d (by simp [hd])) (by simp)]
      have : ¬ isBreak c = true := fun hb => hl c (by simp) ((isBreak_iff c).mp hb)
      simp [splitLines, this]
  | crlf l r ls hl _ ih =>
    rw [List.append_assoc, splitLines_pushes l [] _ hl (by simp)]
    show splitLines _ ('\r' :: '\n' :: r) = _
    rw [splitLines, if_pos ⟨rfl, rfl⟩, ih]
    simp
  | line l c r ls hl hc hn _ ih =>
    rw [List.append_assoc, splitLines_pushes l [] _ hl (by simp)]
    show splitLines _ (c :: r) = _
    rw [splitLines_end _ hc r hn, ih]
    simp

theorem trimmed_unique {l p : Text} (h : Trimmed l p) : strip l = p := by
  obtain ⟨a, b, rfl, ha, hb, h1, h2⟩ := h
  have hd : ∀ a l : Text, (∀ c ∈ a, Blank c) → (∀ c, l.head? = some c → ¬ Blank c) → (a ++ l).dropWhile isSpace = l := by
    intro a l ha hl
    rw [List.dropWhile_append_of_pos (fun c hc => (isSpace_iff c).mpr (ha c hc))]
    cases l with
    | nil => rfl
    | cons c l =>
      have : isSpace c = false := by
        rcases hs : isSpace c with _ | _
        · rfl
        · exact absurd ((isSpace_iff c).mp hs) (hl c rfl)
      rw [List.dropWhile_cons, this]
      simp
  unfold strip
  cases p with
  | nil =>
    rw [List.append_nil]
    have hab : (a ++ b).dropWhile isSpace = [] := by
      have := hd (a ++ b) [] (by
        intro c hc
        rcases List.mem_append.mp hc with h | h
        · exact ha c h
        · exact hb c h) (by simp)
      rwa [List.append_nil] at this
    rw [hab]; rfl
  | cons x p =>
    rw [List.append_assoc, hd a ((x :: p) ++ b) ha (by simpa using h1), List.reverse_append,
      hd b.reverse (x :: p).reverse (by simpa using hb) (by rw [List.head?_reverse]; exact h2), List.reverse_reverse]

/-- The paths are those of the file. -/
theorem refPaths_iff (t : Text) (paths : List Text) : refPaths (.ok t) = .ok paths ↔ Alternates t paths := by
  constructor
  · intro h
    obtain ⟨ps, h1, h2⟩ := refPaths_spec t
    rw [h] at h1
    rw [Except.ok.inj h1]; exact h2
  · rintro ⟨ls, h1, h2⟩
    show Except.ok ((splitLines [] t).map strip) = _
    rw [isLines_unique h1]
    congr 1
    clear h1
    induction h2 with
    | nil => rfl
    | cons h _ ih => rw [List.map_cons, trimmed_unique h, ih]

end GitDB
