import Verif.Spec.Glob
/-!
# Proofs about patterns
-/
set_option autoImplicit false

namespace GitDB
open Spec

theorem upto_iff (pre rest b a : Text) :
    setUpTo pre rest = some (b, a) ↔
      ∃ m, b = pre ++ m ∧ rest = m ++ ']' :: a ∧ ']' ∉ m := by
  unfold setUpTo
  constructor
  · intro h
    split at h
    · cases h
    · rename_i x r hd
      cases h
      refine ⟨_, rfl, ?_, fun hm => ?_⟩
      · have hx : x = ']' := by
          have := List.head?_dropWhile_not (· != ']') rest
          rw [hd] at this
          simpa using this
        subst hx
        rw [← hd]
        exact (List.takeWhile_append_dropWhile).symm
      · have := List.all_takeWhile (p := (· != ']')) (l := rest)
        rw [List.all_eq_true] at this
        simpa using this _ hm
  · rintro ⟨m, rfl, rfl, hm⟩
    have hall : ∀ x ∈ m, (x != ']') = true := by
      intro x hx
      have : x ≠ ']' := fun h => hm (h ▸ hx)
      simpa using this
    rw [List.dropWhile_append_of_pos hall, List.takeWhile_append_of_pos hall]
    simp

theorem setBody_iff (p b a : Text) : setBody p = some (b, a) ↔ IsSet b ∧ p = b ++ ']' :: a := by
  unfold setBody
  split
  · rw [upto_iff]
    constructor
    · rintro ⟨m, rfl, rfl, hm⟩
      exact ⟨.inr ⟨']' :: m, rfl, by simp, by simpa using hm⟩, rfl⟩
    · rintro ⟨h0 | ⟨c, rfl, h1, h2⟩, h⟩
      · cases b with
        | nil => exact absurd rfl h0.2.1
        | cons x b => exact absurd (congrArg some (List.cons.inj h).1.symm) h0.1
      · cases c with
        | nil => exact absurd rfl h1
        | cons x c =>
          have e := List.cons.inj (List.cons.inj h).2
          exact ⟨c, by rw [← e.1]; rfl, e.2, h2⟩
  · rename_i rest hne
    rw [upto_iff]
    constructor
    · rintro ⟨m, rfl, rfl, hm⟩
      refine ⟨.inr ⟨m, rfl, ?_, fun h => hm (List.mem_of_mem_tail h)⟩, rfl⟩
      rintro rfl
      exact hne _ rfl
    · rintro ⟨h0 | ⟨c, rfl, h1, h2⟩, h⟩
      · cases b with
        | nil => exact absurd rfl h0.2.1
        | cons x b => exact absurd (congrArg some (List.cons.inj h).1.symm) h0.1
      · cases c with
        | nil => exact absurd rfl h1
        | cons x c =>
          have e := (List.cons.inj h).2
          refine ⟨x :: c, rfl, e, ?_⟩
          have hx : x ≠ ']' := by rintro rfl; exact hne _ e
          intro hm
          rcases List.mem_cons.1 hm with hm | hm
          · exact hx hm.symm
          · exact h2 hm
  · rw [upto_iff]
    constructor
    · rintro ⟨m, rfl, rfl, hm⟩
      exact ⟨.inl ⟨by simp, by simp, by simpa using hm⟩, rfl⟩
    · rintro ⟨h0 | ⟨c, rfl, h1, h2⟩, h⟩
      · cases b with
        | nil => exact absurd rfl h0.2.1
        | cons x c =>
          have e := List.cons.inj h
          exact ⟨c, by rw [← e.1]; rfl, e.2, h0.2.2⟩
      · simp at h
  · rename_i h1 h2 h3
    rw [upto_iff]
    constructor
    · rintro ⟨m, hbm, rfl, hm⟩
      rw [List.nil_append] at hbm
      subst hbm
      cases b with
      | nil => exact absurd rfl (h3 _)
      | cons x m =>
        refine ⟨.inl ⟨?_, by simp, ?_⟩, rfl⟩
        · intro h
          simp at h
          subst h
          exact h2 _ rfl
        · simp at hm ⊢; exact hm.2
    · rintro ⟨h | ⟨c, rfl, _, _⟩, rfl⟩
      · cases b with
        | nil => exact absurd rfl h.2.1
        | cons x c =>
          refine ⟨x :: c, rfl, rfl, ?_⟩
          have hx : x ≠ ']' := by rintro rfl; exact h3 _ rfl
          intro hm
          rcases List.mem_cons.1 hm with hm | hm
          · exact hx hm.symm
          · exact h.2.2 hm
      · exact absurd rfl (h2 _)

theorem inSet_iff (range : Text → Char → Bool) (body : Text) (c : Char) :
    inSet range body c = true ↔ Belongs range body c := by
  unfold inSet Belongs
  by_cases h : '-' ∈ body
  · rw [if_pos (List.contains_iff_mem.2 h)]
    exact ⟨fun hr => .inl ⟨h, hr⟩, fun hr => by
      rcases hr with hr | hr | hr
      · exact hr.2
      · exact absurd h hr.1
      · exact absurd h hr.1⟩
  · rw [if_neg fun hc => h (List.contains_iff_mem.1 hc)]
    split
    · rename_i rest
      rw [Bool.not_eq_true', ← Bool.not_eq_true, List.contains_iff_mem]
      constructor
      · intro hc; exact .inr (.inr ⟨h, rest, rfl, hc⟩)
      · rintro (hr | hr | ⟨_, b, e, hb⟩)
        · exact absurd hr.1 h
        · exact absurd rfl hr.2.1
        · cases e; exact hb
    · rename_i hne
      rw [List.contains_iff_mem]
      constructor
      · intro hc
        refine .inr (.inl ⟨h, fun hh => ?_, hc⟩)
        cases body with
        | nil => cases hh
        | cons x b => cases hh; exact hne _ rfl
      · rintro (hr | hr | ⟨_, b, e, hb⟩)
        · exact absurd hr.1 h
        · exact hr.2.2
        · exact absurd e (hne b)

theorem anyEnd_iff (f : Text → Bool) (s : Text) : anyEnd f s = true ↔ ∃ t u, s = t ++ u ∧ f u = true := by
  induction s with
  | nil =>
    rw [anyEnd]
    constructor
    · intro h; exact ⟨[], [], rfl, h⟩
    · rintro ⟨t, u, h, hu⟩
      have := List.append_eq_nil_iff.1 h.symm
      rw [this.2] at hu; exact hu
  | cons c s ih =>
    rw [anyEnd, Bool.or_eq_true, ih]
    constructor
    · rintro (h | ⟨t, u, rfl, h⟩)
      · exact ⟨[], _, rfl, h⟩
      · exact ⟨c :: t, u, rfl, h⟩
    · rintro ⟨t, u, h, hu⟩
      cases t with
      | nil => left; simp at h; rw [h]; exact hu
      | cons x t => right; simp at h; exact ⟨t, u, h.2, hu⟩

theorem fnmatch_iff (range : Text → Char → Bool) : ∀ (n : Nat) (p : Text), p.length ≤ n → ∀ s,
    matchToks range (translateN n p) s = true ↔ ShellFits range p s := by
  intro n
  induction n with
  | zero =>
    intro p hp s
    cases p with
    | nil =>
      rw [translateN, matchToks]
      cases s with
      | nil => exact ⟨fun _ => .nil, fun _ => rfl⟩
      | cons c s => exact ⟨fun h => (nomatch h), fun h => (nomatch h)⟩
    | cons c p => simp at hp
  | succ n ih =>
    intro p hp s
    cases p with
    | nil =>
      rw [translateN, matchToks]
      cases s with
      | nil => exact ⟨fun _ => .nil, fun _ => rfl⟩
      | cons c s => exact ⟨fun h => (nomatch h), fun h => (nomatch h)⟩
    | cons c p =>
      have hp' : p.length ≤ n := by simpa using hp
      rw [translateN]
      split
      · rename_i hc; subst hc
        rw [matchToks, anyEnd_iff]
        constructor
        · rintro ⟨t, u, rfl, h⟩; exact .star t ((ih p hp' u).1 h)
        · intro h
          cases h with
          | star t h => exact ⟨t, _, rfl, (ih p hp' _).2 h⟩
          | lit _ h => exact absurd rfl h
      · rename_i hstar
        split
        · rename_i hc; subst hc
          cases s with
          | nil => rw [matchToks]; exact ⟨fun h => (nomatch h), fun h => (nomatch h)⟩
          | cons x s =>
            rw [matchToks]
            constructor
            · intro h; exact .any x ((ih p hp' s).1 h)
            · intro h
              cases h with
              | any _ h => exact (ih p hp' s).2 h
              | lit _ _ h => exact absurd rfl h
        · rename_i hq
          split
          · rename_i hc; subst hc
            split
            · rename_i hnone
              have hno : ∀ body q, IsSet body → p ≠ body ++ ']' :: q := by
                intro body q hb he
                rw [(setBody_iff p body q).2 ⟨hb, he⟩] at hnone
                cases hnone
              cases s with
              | nil => rw [matchToks]; exact ⟨fun h => (nomatch h), fun h => (nomatch h)⟩
              | cons x s =>
                rw [matchToks, Bool.and_eq_true, beq_iff_eq]
                constructor
                · rintro ⟨rfl, h⟩; exact .open_ hno ((ih p hp' s).1 h)
                · intro h
                  cases h with
                  | set body _ hb => exact absurd rfl (hno _ _ hb)
                  | open_ _ h => exact ⟨rfl, (ih p hp' s).2 h⟩
                  | lit _ _ _ h => exact absurd rfl h
            · rename_i body after hsome
              obtain ⟨hb, he⟩ := (setBody_iff p body after).1 hsome
              have ha : after.length ≤ n := by have := setBody_length hsome; omega
              cases s with
              | nil => rw [matchToks]; exact ⟨fun h => (nomatch h), fun h => (nomatch h)⟩
              | cons x s =>
                rw [matchToks, Bool.and_eq_true, inSet_iff]
                constructor
                · rintro ⟨h1, h⟩; rw [he]; exact .set body x hb h1 ((ih after ha s).1 h)
                · intro h
                  generalize hpat : '[' :: p = pat at h
                  generalize hstr : x :: s = str at h
                  cases h with
                  | set body' _ hb' h1 h =>
                    have e : p = _ := (List.cons.inj hpat).2
                    have := (setBody_iff p _ _).2 ⟨hb', e⟩
                    rw [hsome] at this
                    cases this
                    cases hstr
                    exact ⟨h1, (ih _ ha s).2 h⟩
                  | nil => cases hpat
                  | star => cases hpat
                  | open_ hno h => cases hpat; exact absurd he (hno _ _ hb)
                  | lit _ _ _ h => cases hpat; exact absurd rfl h
                  | any => cases hpat
          · rename_i hb
            cases s with
            | nil => 
              rw [matchToks]
              refine ⟨fun h => (nomatch h), fun h => ?_⟩
              generalize hpat : c :: p = pat at h
              generalize hstr : ([] : Text) = str at h
              cases h with
              | nil => cases hpat
              | star => cases hpat; exact absurd rfl hstar
              | any => cases hstr
              | set => cases hstr
              | open_ => cases hstr
              | lit => cases hstr
            | cons x s =>
              rw [matchToks, Bool.and_eq_true, beq_iff_eq]
              constructor
              · rintro ⟨rfl, h⟩; exact .lit c hstar hq hb ((ih p hp' s).1 h)
              · intro h
                generalize hpat : c :: p = pat at h
                generalize hstr : x :: s = str at h
                cases h with
                | nil => cases hpat
                | lit _ _ _ _ h => cases hpat; cases hstr; exact ⟨rfl, (ih p hp' s).2 h⟩
                | star => cases hpat; exact absurd rfl hstar
                | any => cases hpat; exact absurd rfl hq
                | set => cases hpat; exact absurd rfl hb
                | open_ => cases hpat; exact absurd rfl hb

theorem fnmatch_fits (range : Text → Char → Bool) (p s : Text) :
    fnmatch range p s = true ↔ ShellFits range p s := fnmatch_iff range p.length p (Nat.le_refl _) s

theorem hasMagic_iff (p : Text) : hasMagic p = true ↔ ('*' ∈ p ∨ '?' ∈ p ∨ '[' ∈ p) := by
  unfold hasMagic
  rw [List.any_eq_true]
  constructor
  · rintro ⟨c, hc, h⟩
    simp only [Bool.or_eq_true, beq_iff_eq] at h
    rcases h with (rfl | rfl) | rfl
    · exact .inl hc
    · exact .inr (.inl hc)
    · exact .inr (.inr hc)
  · rintro (h | h | h)
    · exact ⟨_, h, rfl⟩
    · exact ⟨_, h, rfl⟩
    · exact ⟨_, h, rfl⟩

theorem like_magic {range : Text → Char → Bool} {p n : Text} (h : hasMagic p = true) :
    Like range p n ↔ ShellFits range p n ∧ (n.head? = some '.' → p.head? = some '.') := by
  unfold Like
  rw [if_pos ((hasMagic_iff p).1 h)]

theorem like_plain {range : Text → Char → Bool} {p n : Text} (h : hasMagic p = false) : Like range p n ↔ n = p := by
  unfold Like
  rw [if_neg fun hc => by rw [(hasMagic_iff p).2 hc] at h; cases h]

theorem mem_glob1 (range : Text → Char → Bool) (t : Tree) (d : List Text) (p : Text) (b : Bool) (n : Text) :
    n ∈ glob1 range t d p b ↔ n ∈ t.names d ∧ (b = true → t.isDir (n :: d) = true) ∧
      (n.head? = some '.' → p.head? = some '.') ∧ ShellFits range p n := by
  unfold glob1
  rw [List.mem_filter, Bool.and_eq_true, Bool.and_eq_true, fnmatch_fits, Bool.or_eq_true, Bool.or_eq_true]
  simp only [isHidden, Bool.not_eq_true', beq_iff_eq, beq_eq_false_iff_ne, ne_eq]
  constructor
  · rintro ⟨h, ⟨h1, h2⟩, h3⟩
    exact ⟨h, fun hb => h1.resolve_left (by rw [hb]; exact fun h => (nomatch h)), fun hn => h2.resolve_right (fun h => h hn), h3⟩
  · rintro ⟨h, h1, h2, h3⟩
    refine ⟨h, ⟨?_, ?_⟩, h3⟩
    · cases b with
      | false => exact .inl rfl
      | true => exact .inr (h1 rfl)
    · by_cases hn : n.head? = some '.'
      · exact .inl (h2 hn)
      · exact .inr hn

theorem globDirs_plain (range : Text → Char → Bool) (t : Tree) (r : List Text) (h : ∀ c ∈ r, hasMagic c = false) :
    globDirs range t r = [r] := by
  cases r with
  | nil => rfl
  | cons c up =>
    rw [globDirs]
    refine if_pos ?_
    rw [List.any_eq_false]
    intro x hx
    rw [h x hx]
    exact Bool.false_ne_true

/-- The directories found are like the pattern. -/
theorem globDirs_like (range : Text → Char → Bool) (t : Tree) : ∀ (r d : List Text), d ∈ globDirs range t r →
    All2 (Like range) r d := by
  intro r
  induction r with
  | nil => intro d h; rw [globDirs] at h; rw [List.mem_singleton.1 h]; exact .nil
  | cons c up ih =>
    intro d h
    rw [globDirs] at h
    split at h
    · rename_i hm
      rw [List.mem_singleton.1 h]
      have hself : ∀ l : List Text, (∀ x ∈ l, hasMagic x = false) → All2 (Like range) l l := by
        intro l
        induction l with
        | nil => intro _; exact .nil
        | cons x l ih =>
          intro hl
          exact .cons ((like_plain (hl x (by simp))).2 rfl) (ih fun y hy => hl y (List.mem_cons_of_mem _ hy))
      apply hself
      intro x hx
      simpa using List.any_eq_false.1 hm x hx
    · obtain ⟨u, hu, h⟩ := List.mem_flatMap.1 h
      obtain ⟨n, hn, rfl⟩ := List.mem_map.1 h
      refine .cons ?_ (ih u hu)
      split at hn
      · rename_i hc
        obtain ⟨_, _, h2, h3⟩ := (mem_glob1 range t u c true n).1 hn
        exact (like_magic hc).2 ⟨h3, h2⟩
      · rename_i hc
        unfold glob0 at hn
        split at hn
        · exact (like_plain (by simpa using hc)).2 (List.mem_singleton.1 hn)
        · cases hn

/-- All directories like the pattern are found. -/
theorem globDirs_all (range : Text → Char → Bool) (t : Tree) (ht : TreeOk t) : ∀ (r d : List Text), All2 (Like range) r d →
    (d = [] ∨ t.isDir d = true) → d ∈ globDirs range t r := by
  intro r
  induction r with
  | nil => intro d h _; cases h; simp [globDirs]
  | cons c up ih =>
    intro d h hd
    cases h with
    | @cons _ n _ u hl hu =>
      have hdir : t.isDir (n :: u) = true := hd.resolve_left (by simp)
      have hnm := ht.listed n u hdir
      have hup : u = [] ∨ t.isDir u = true := by
        cases u with
        | nil => exact .inl rfl
        | cons x u => exact .inr (ht.dir x u (List.ne_nil_of_mem hnm))
      rw [globDirs]
      split
      · rename_i hm
        have hself : ∀ (l m : List Text), All2 (Like range) l m → (∀ x ∈ l, hasMagic x = false) → m = l := by
          intro l m h
          induction h with
          | nil => intro _; rfl
          | cons h _ ih =>
            intro hl
            rw [(like_plain (hl _ (by simp))).1 h, ih fun y hy => hl y (List.mem_cons_of_mem _ hy)]
        rw [hself (c :: up) (n :: u) (.cons hl hu) fun x hx => by simpa using List.any_eq_false.1 hm x hx]
        simp
      · refine List.mem_flatMap.2 ⟨u, ih u hu hup, List.mem_map.2 ⟨n, ?_, rfl⟩⟩
        split
        · rename_i hc
          obtain ⟨h3, h2⟩ := (like_magic hc).1 hl
          exact (mem_glob1 range t u c true n).2 ⟨hnm, fun _ => hdir, h2, h3⟩
        · rename_i hc
          have e := (like_plain (by simpa using hc)).1 hl
          unfold glob0
          rw [if_pos (by rw [← e]; exact (ht.exist n u).2 hnm), e]
          simp

/-- A pattern begins with ordinary characters. -/
theorem fits_literals {range : Text → Char → Bool} : ∀ (l p s : Text), (∀ c ∈ l, c ≠ '*' ∧ c ≠ '?' ∧ c ≠ '[') →
    (ShellFits range (l ++ p) s ↔ ∃ u, s = l ++ u ∧ ShellFits range p u) := by
  intro l
  induction l with
  | nil => intro p s _; exact ⟨fun h => ⟨s, rfl, h⟩, fun ⟨u, e, h⟩ => e ▸ h⟩
  | cons c l ih =>
    intro p s hl
    have hc := hl c (by simp)
    have hl' := fun x hx => hl x (List.mem_cons_of_mem c hx)
    constructor
    · intro h
      generalize hp : c :: l ++ p = pat at h
      cases h with
      | nil => cases hp
      | star => cases hp; exact absurd rfl hc.1
      | any => cases hp; exact absurd rfl hc.2.1
      | set => exact absurd (List.cons.inj hp).1 hc.2.2
      | open_ => cases hp; exact absurd rfl hc.2.2
      | lit _ _ _ _ h =>
        cases hp
        obtain ⟨u, rfl, hu⟩ := (ih p _ hl').1 h
        exact ⟨u, rfl, hu⟩
    · rintro ⟨u, rfl, hu⟩
      exact .lit c hc.1 hc.2.1 hc.2.2 ((ih p _ hl').2 ⟨u, rfl, hu⟩)

theorem fits_nil {range : Text → Char → Bool} (s : Text) : ShellFits range [] s ↔ s = [] :=
  ⟨fun h => by cases h; rfl, fun h => by subst h; exact .nil⟩

theorem fits_plain {range : Text → Char → Bool} (l s : Text) (h : ∀ c ∈ l, c ≠ '*' ∧ c ≠ '?' ∧ c ≠ '[') :
    ShellFits range l s ↔ s = l := by
  have := fits_literals (range := range) l [] s h
  rw [List.append_nil] at this
  rw [this]
  constructor
  · rintro ⟨u, rfl, hu⟩; rw [(fits_nil u).1 hu, List.append_nil]
  · rintro rfl; exact ⟨[], by simp, .nil⟩

theorem fits_star {range : Text → Char → Bool} (p s : Text) :
    ShellFits range ('*' :: p) s ↔ ∃ t u, s = t ++ u ∧ ShellFits range p u := by
  constructor
  · intro h
    generalize hp : '*' :: p = pat at h
    cases h with
    | nil => cases hp
    | star t h => cases hp; exact ⟨t, _, rfl, h⟩
    | any => cases hp
    | set => cases hp
    | open_ => cases hp
    | lit _ h => cases hp; exact absurd rfl h
  · rintro ⟨t, u, rfl, h⟩; exact .star t h

theorem fits_pack {range : Text → Char → Bool} (n : Text) : ShellFits range packPattern n ↔ PackName n := by
  have e : packPattern = "pack-".toList ++ '*' :: ".pack".toList := by decide +kernel
  have h1 : ∀ c ∈ "pack-".toList, c ≠ '*' ∧ c ≠ '?' ∧ c ≠ '[' := by decide +kernel
  have h2 : ∀ c ∈ ".pack".toList, c ≠ '*' ∧ c ≠ '?' ∧ c ≠ '[' := by decide +kernel
  rw [e, fits_literals _ _ _ h1]
  constructor
  · rintro ⟨u, rfl, hu⟩
    obtain ⟨t, v, rfl, hv⟩ := (fits_star _ _).1 hu
    exact ⟨t, by rw [(fits_plain _ _ h2).1 hv]⟩
  · rintro ⟨mid, rfl⟩
    exact ⟨_, rfl, (fits_star _ _).2 ⟨mid, _, rfl, (fits_plain _ _ h2).2 rfl⟩⟩

/-- A set stands for exactly one character. -/
theorem fits_set {range : Text → Char → Bool} (body p s : Text) (hb : IsSet body) :
    ShellFits range ('[' :: (body ++ ']' :: p)) s ↔ ∃ c u, s = c :: u ∧ Belongs range body c ∧ ShellFits range p u := by
  constructor
  · intro h
    generalize hp : '[' :: (body ++ ']' :: p) = pat at h
    cases h with
    | nil => cases hp
    | star => cases hp
    | any => cases hp
    | set body' c hb' h1 h =>
      have e1 := (setBody_iff _ body p).2 ⟨hb, rfl⟩
      have e2 := (setBody_iff _ _ _).2 ⟨hb', (List.cons.inj hp).2⟩
      rw [e1] at e2
      cases e2
      exact ⟨c, _, rfl, h1, h⟩
    | open_ hno => cases hp; exact absurd rfl (hno _ _ hb)
    | lit _ _ _ h => cases hp; exact absurd rfl h
  · rintro ⟨c, u, rfl, h1, h⟩; exact .set body c hb h1 h

end GitDB
