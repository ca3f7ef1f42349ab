import Verif.Proofs.PackRead
import Verif.Proofs.DeltaReader
/-!
# Collecting delta chains
-/
set_option autoImplicit false

namespace GitDB
open Spec

variable {zl : Zlib}

/-- The index knows exactly these names. -/
def Finds (x : IndexFile) (find : Bytes → Option Nat) : Prop :=
  ∀ name, name.length = 20 → match find name with
    | none => x.shaToIndex name = .ok none
    | some o => o ≠ 0 ∧ ∃ j, x.shaToIndex name = .ok (some j) ∧ x.offset j = .ok o

/-- The object for a chain element. -/
def chainObj (pack : Bytes) (x : Nat × Packed) : PackObj := entryObj pack x.1 x.2

theorem chain_head {pack : Bytes} {find : Bytes → Option Nat} {off : Nat} {l : List (Nat × Packed)}
    (h : Chain zl pack find off l) : ∃ e t, l = (off, e) :: t ∧ EntryAt zl pack off e := by
  cases h with
  | whole h _ => exact ⟨_, _, rfl, h⟩
  | missing h _ _ => exact ⟨_, _, rfl, h⟩
  | ref h _ _ _ => exact ⟨_, _, rfl, h⟩
  | ofs h _ _ _ => exact ⟨_, _, rfl, h⟩

theorem kindInfo_ofs {k : Kind} (h : k.isOfs = false) : ∀ n, kindInfo k ≠ .ofs n := by
  cases k <;> simp_all [Kind.isOfs, kindInfo]

/-- The walk along the offset deltas. -/
theorem collectStreams_spec {find : Bytes → Option Nat} (p : PackFile) :
    ∀ (a : List (Nat × Packed)) (off o : Nat) (e : Packed) (t : List (Nat × Packed)) (fuel : Nat),
    Chain zl p.data find off (a ++ (o, e) :: t) → (∀ x ∈ a, x.2.kind.isOfs = true) → e.kind.isOfs = false →
    a.length < fuel →
    p.collectStreams fuel off = .ok ((a ++ [(o, e)]).map (chainObj p.data)) ∧
      Chain zl p.data find o ((o, e) :: t) := by
  intro a
  induction a with
  | nil =>
    intro off o e t fuel h _ he hf
    obtain ⟨f, rfl⟩ : ∃ f, fuel = f + 1 := ⟨fuel - 1, by omega⟩
    obtain ⟨e', t', h1, h2⟩ := chain_head h
    simp only [List.nil_append, List.cons.injEq, Prod.mk.injEq] at h1
    obtain ⟨⟨rfl, rfl⟩, rfl⟩ := h1
    refine ⟨?_, h⟩
    rw [PackFile.collectStreams, packObjectAt_spec h2]
    have := kindInfo_ofs he
    rcases hki : kindInfo e.kind with _ | n | s
    · simp [entryObj, hki, chainObj]
    · exact absurd hki (this n)
    · simp [entryObj, hki, chainObj]
  | cons x a ih =>
    intro off o e t fuel h ha he hf
    obtain ⟨f, rfl⟩ : ∃ f, fuel = f + 1 := ⟨fuel - 1, by omega⟩
    rw [List.length_cons] at hf
    have hx := ha x (by simp)
    rw [List.cons_append] at h
    generalize hl : a ++ (o, e) :: t = l at h
    cases h with
    | whole h hk => simp at hl
    | missing h hk hf' => simp at hl
    | ref h hk hf' ht =>
      simp [hk, Kind.isOfs] at hx
    | ofs h hk hb ht =>
      rename_i back e'
      subst hl
      obtain ⟨h3, h4⟩ := ih _ o e t f ht (fun x hx => ha x (by simp [hx])) he (by omega)
      refine ⟨?_, h4⟩
      rw [PackFile.collectStreams, packObjectAt_spec h]
      simp only [entryObj, hk, kindInfo]
      rw [if_neg (by omega), h3]
      simp [chainObj, entryObj, hk, kindInfo]

/-- The walk along reference deltas. -/
theorem resolveRefs_spec {find : Bytes → Option Nat} (p : PackEntity) (hfi : Finds p.index find) :
    ∀ (t : List (Nat × Packed)) (o : Nat) (e : Packed) (fuel : Nat),
    Chain zl p.pack.data find o ((o, e) :: t) → e.kind.isOfs = false → (∀ x ∈ t, x.2.kind.isOfs = false) →
    t.length < fuel →
    p.resolveRefs fuel (entryObj p.pack.data o e) = .ok (t.map (chainObj p.pack.data)) := by
  intro t
  induction t with
  | nil =>
    intro o e fuel h he _ hf
    obtain ⟨f, rfl⟩ : ∃ f, fuel = f + 1 := ⟨fuel - 1, by omega⟩
    rw [PackEntity.resolveRefs]
    cases h with
    | whole h hk => simp [entryObj, hk, kindInfo]
    | missing h hk hf' =>
      rename_i name
      have hlen : name.length = 20 := by
        have := h.1.ext
        rw [hk] at this
        exact this.1
      have := hfi name hlen
      rw [hf'] at this
      simp [entryObj, hk, kindInfo, this]
    | ref h hk hf' ht => cases ht
    | ofs h hk hb ht => cases ht
  | cons x t ih =>
    intro o e fuel h he ht hf
    obtain ⟨f, rfl⟩ : ∃ f, fuel = f + 1 := ⟨fuel - 1, by omega⟩
    rw [List.length_cons] at hf
    rw [PackEntity.resolveRefs]
    cases h with
    | ref h hk hf' htail =>
      rename_i off' name
      have hlen : name.length = 20 := by
        have := h.1.ext
        rw [hk] at this
        exact this.1
      have h1 := hfi name hlen
      rw [hf'] at h1
      obtain ⟨h0, j, h2, h3⟩ := h1
      obtain ⟨e', t', h4, h5⟩ := chain_head htail
      simp only [List.cons.injEq] at h4
      obtain ⟨rfl, rfl⟩ := h4
      have hih := ih off' e' f htail (ht (off', e') (by simp)) (fun x hx => ht x (by simp [hx])) (by omega)
      have hst : p.pack.stream off' = .ok (entryObj p.pack.data off' e') := by
        unfold PackFile.stream
        rw [if_neg h0, packObjectAt_spec h5]
      have hinfo : (entryObj p.pack.data o e).info = .ref name := by simp [entryObj, hk, kindInfo]
      simp only [hinfo, h2, h3, hst, hih]
      rfl
    | ofs h hk hb htail => simp [hk, Kind.isOfs] at he

theorem chain_last_whole {pack : Bytes} {find : Bytes → Option Nat} {off : Nat} {e : Packed}
    {t : List (Nat × Packed)} (h : Chain zl pack find off ((off, e) :: t)) (hw : e.kind.typeId ≠ 7)
    (he : e.kind.isOfs = false) : t = [] := by
  cases h with
  | whole h hk => rfl
  | missing h hk _ => rfl
  | ref h hk _ _ => simp [hk, Kind.typeId] at hw
  | ofs h hk _ _ => simp [hk, Kind.isOfs] at he

theorem chain_split {pack : Bytes} {find : Bytes → Option Nat} {off : Nat} {l : List (Nat × Packed)}
    (h : Chain zl pack find off l) (hs : Straight l) : ∃ a o e t, l = a ++ (o, e) :: t ∧
    (∀ x ∈ a, x.2.kind.isOfs = true) ∧ e.kind.isOfs = false ∧ ∀ x ∈ t, x.2.kind.isOfs = false := by
  obtain ⟨a, b, rfl, ha, hb⟩ := hs
  rcases b with _ | ⟨⟨o, e⟩, t⟩
  · exfalso
    rw [List.append_nil] at h
    clear hb
    induction a generalizing off with
    | nil => cases h
    | cons x a ih =>
      have hx := ha x (by simp)
      cases h with
      | whole h hk => simp [hk, Kind.isOfs] at hx
      | missing h hk _ => simp [hk, Kind.isOfs] at hx
      | ref h hk _ _ => simp [hk, Kind.isOfs] at hx
      | ofs h hk hb ht => exact ih (fun x hx => ha x (by simp [hx])) ht
  · exact ⟨a, o, e, t, rfl, ha, hb (o, e) (by simp), fun x hx => hb x (by simp [hx])⟩

theorem collectStreamsAtOffset_spec {find : Bytes → Option Nat} (p : PackEntity) (hfi : Finds p.index find)
    (off : Nat) (l : List (Nat × Packed)) (h : Chain zl p.pack.data find off l) (hs : Straight l) (fuel : Nat)
    (hf : l.length < fuel) :
    p.collectStreamsAtOffset fuel off = .ok (l.map (chainObj p.pack.data)) := by
  obtain ⟨a, o, e, t, rfl, ha, he, ht⟩ := chain_split h hs
  rw [List.length_append, List.length_cons] at hf
  obtain ⟨h1, h2⟩ := collectStreams_spec p.pack a off o e t fuel h ha he (by omega)
  unfold PackEntity.collectStreamsAtOffset
  rw [h1]
  have hl : ((a ++ [(o, e)]).map (chainObj p.pack.data)).getLast? = some (entryObj p.pack.data o e) := by
    rw [List.map_append, List.map_singleton, List.getLast?_concat]
    rfl
  simp only [hl]
  by_cases hr : e.kind.typeId = 7
  · rw [if_pos (show (entryObj p.pack.data o e).typeId = REF_DELTA from hr),
      resolveRefs_spec p hfi t o e fuel h2 he ht (by omega)]
    simp [chainObj]
  · rw [if_neg (show ¬ (entryObj p.pack.data o e).typeId = REF_DELTA from hr)]
    have := chain_last_whole h2 hr he
    subst this
    simp

/-! ### arbitrary packs -/

/-- What `collect_streams` does on arbitrary bytes, as a relation. -/
inductive Collected (pack : Bytes) : Nat → List PackObj → Prop
  | last {off : Nat} {o : PackObj} (h : packObjectAt pack off = .ok o) (hi : ∀ d, o.info ≠ .ofs d) :
      Collected pack off [o]
  | step {off d : Nat} {o : PackObj} {l : List PackObj} (h : packObjectAt pack off = .ok o)
      (hi : o.info = .ofs d) (hd : d ≤ off) (t : Collected pack (off - d) l) : Collected pack off (o :: l)

theorem packObjectAt_offset {pack : Bytes} {off : Nat} {o : PackObj} (h : packObjectAt pack off = .ok o) :
    o.packOffset = off := by
  unfold packObjectAt at h
  simp only at h
  repeat' split at h
  all_goals first
    | simp at h; done
    | (simp only [Except.ok.injEq] at h; subst h; rfl)

theorem collected_iff (p : PackFile) : ∀ (fuel off : Nat) (l : List PackObj),
    p.collectStreams fuel off = .ok l → Collected p.data off l := by
  intro fuel
  induction fuel with
  | zero => intro off l h; simp [PackFile.collectStreams] at h
  | succ fuel ih =>
    intro off l h
    rw [PackFile.collectStreams] at h
    rcases hp : packObjectAt p.data off with e | o
    · simp [hp] at h
    · have ho := packObjectAt_offset hp
      simp only [hp] at h
      split at h
      · rename_i d hd
        split at h
        · simp at h
        · rename_i hlt
          rcases hc : p.collectStreams fuel (o.packOffset - d) with e | l'
          · simp [hc] at h
          · simp only [hc, Except.ok.injEq] at h
            subst h
            rw [ho] at hc hlt
            exact .step hp hd (by omega) (ih _ _ hc)
      · rename_i hno
        simp only [Except.ok.injEq] at h
        subst h
        exact .last hp (fun d hd => hno d hd)

theorem headerLoop_no_diverge : ∀ (rest : Bytes) (c i size s : Nat),
    headerLoop rest c i size s ≠ .error .diverge := by
  intro rest
  induction rest with
  | nil => intro c i size s; unfold headerLoop; split <;> simp
  | cons b rest ih => intro c i size s; unfold headerLoop; split <;> simp [ih]

theorem packObjectHeaderInfo_no_diverge (d : Bytes) : packObjectHeaderInfo d ≠ .error .diverge := by
  unfold packObjectHeaderInfo
  split
  · simp
  · simp only
    split
    · simp
    · rename_i e he
      intro h
      simp only [Except.error.injEq] at h
      subst h
      exact headerLoop_no_diverge _ _ _ _ _ he

theorem ofsLoop_no_diverge : ∀ (rest : Bytes) (c i d : Nat), ofsLoop rest c i d ≠ .error .diverge := by
  intro rest
  induction rest with
  | nil => intro c i d; unfold ofsLoop; split <;> simp
  | cons b rest ih => intro c i d; unfold ofsLoop; split <;> simp [ih]

theorem ofsDecode_no_diverge (d : Bytes) (i : Nat) : ofsDecode d i ≠ .error .diverge := by
  unfold ofsDecode
  split
  · simp
  · exact ofsLoop_no_diverge _ _ _ _

theorem collectStreams_diverge (p : PackFile) : ∀ (fuel off : Nat), off < fuel →
    p.collectStreams fuel off = .error .diverge →
    ∃ off' o, off' ≤ off ∧ packObjectAt p.data off' = .ok o ∧ o.info = .ofs 0 := by
  intro fuel
  induction fuel with
  | zero => intros; omega
  | succ fuel ih =>
    intro off hf h
    rw [PackFile.collectStreams] at h
    rcases hp : packObjectAt p.data off with e | o
    · exfalso
      simp only [hp, Except.error.injEq] at h
      subst h
      -- `packObjectAt` never runs out of fuel
      unfold packObjectAt at hp
      simp only at hp
      repeat' split at hp
      all_goals first
        | (simp at hp; done)
        | skip
      · rename_i e he
        simp only [Except.error.injEq] at hp
        subst hp
        exact packObjectHeaderInfo_no_diverge _ he
      · rename_i e he
        simp only [Except.error.injEq] at hp
        subst hp
        exact ofsDecode_no_diverge _ _ he
    · have ho := packObjectAt_offset hp
      simp only [hp] at h
      split at h
      · rename_i d hd
        split at h
        · simp at h
        · rename_i hlt
          rcases hc : p.collectStreams fuel (o.packOffset - d) with e | l'
          · simp only [hc, Except.error.injEq] at h
            subst h
            rcases Nat.eq_zero_or_pos d with h0 | h0
            · subst h0; exact ⟨off, o, Nat.le_refl _, hp, hd⟩
            · rw [ho] at hc hlt
              obtain ⟨off', o', h1, h2⟩ := ih (off - d) (by omega) hc
              exact ⟨off', o', by omega, h2⟩
          · simp [hc] at h
      · simp at h

theorem collectStreams_zero (p : PackFile) (off : Nat) (o : PackObj) (h : packObjectAt p.data off = .ok o)
    (hi : o.info = .ofs 0) (fuel : Nat) : p.collectStreams fuel off = .error .diverge := by
  have ho := packObjectAt_offset h
  induction fuel with
  | zero => rfl
  | succ fuel ih =>
    rw [PackFile.collectStreams, h]
    simp only [hi]
    rw [if_neg (by omega), ho, Nat.sub_zero, ih]

theorem collected_sound {pack : Bytes} {off : Nat} {l : List PackObj} (h : Collected pack off l) :
    l ≠ [] ∧ (∀ o ∈ l, packObjectAt pack o.packOffset = .ok o) ∧ (l.map PackObj.packOffset).head? = some off ∧
    (∀ i (hi : i + 1 < l.length), ∃ d, l[i].info = .ofs d ∧ d ≤ l[i].packOffset ∧
      l[i + 1].packOffset = l[i].packOffset - d) ∧
    ∀ d, (l.getLast?.map PackObj.info) ≠ some (.ofs d) := by
  induction h with
  | last h hi =>
    have ho := packObjectAt_offset h
    refine ⟨by simp, by simpa [ho] using h, by simp [ho], fun i hi => absurd hi (by simp), fun d => ?_⟩
    simpa using hi d
  | step h hi hd t ih =>
    rename_i off d o l
    have ho := packObjectAt_offset h
    obtain ⟨i1, i2, i3, i4, i5⟩ := ih
    obtain ⟨x, l', rfl⟩ := List.exists_cons_of_ne_nil i1
    refine ⟨by simp, ?_, by simp [ho], ?_, ?_⟩
    · intro o' ho'
      rcases List.mem_cons.1 ho' with rfl | h'
      · rw [ho]; exact h
      · exact i2 o' h'
    · intro i hil
      cases i with
      | zero =>
        simp only [List.map_cons, List.head?_cons, Option.some.injEq] at i3
        exact ⟨d, hi, by rw [List.getElem_cons_zero, ho]; exact hd, by simp [ho, i3]⟩
      | succ i => exact i4 i (by simpa using hil)
    · rw [List.getLast?_cons_cons]; exact i5

/-- A reference delta against itself. -/
theorem resolveRefs_cycle {find : Bytes → Option Nat} (p : PackEntity) (hfi : Finds p.index find)
    {off : Nat} {e : Packed} (he : EntryAt zl p.pack.data off e) {name : Bytes} (hk : e.kind = .ref name)
    (hn : find name = some off) (fuel : Nat) :
    p.resolveRefs fuel (entryObj p.pack.data off e) = .error .diverge := by
  have hlen : name.length = 20 := by have := he.1.ext; rw [hk] at this; exact this.1
  have hx := hfi name hlen
  rw [hn] at hx
  obtain ⟨h0, j, h1, h2⟩ := hx
  induction fuel with
  | zero => rfl
  | succ fuel ih =>
    rw [PackEntity.resolveRefs]
    simp only [entryObj, hk, kindInfo, h1, h2]
    have hst : p.pack.stream off = .ok (entryObj p.pack.data off e) := by
      unfold PackFile.stream
      rw [if_neg h0]
      exact packObjectAt_spec he
    simp only [hst]
    rw [ih]

theorem findIdx_name (es : List Packed) (name : Bytes) (i : Nat) (h : (es.findIdx? fun e => e.name == name) = some i) :
    ∃ hi : i < es.length, es[i].name = name := by
  obtain ⟨hi, h1, _⟩ := List.findIdx?_eq_some_iff_getElem.1 h
  exact ⟨hi, by simpa using h1⟩

/-- The index of the entries of a pack finds them. -/
theorem finds_lists {x : IndexFile} {es : List Packed} (h : Lists x es) : Finds x (offsetIn es) := by
  intro name hn
  unfold offsetIn
  rcases hf : es.findIdx? (fun e => e.name == name) with _ | i
  · rw [hf]
    refine h.miss name (by intro h0; simp [h0] at hn) ?_
    intro hm
    obtain ⟨e, he, rfl⟩ := List.mem_map.1 hm
    have := List.findIdx?_eq_none_iff.1 hf e he
    simp at this
  · rw [hf]
    obtain ⟨hi, rfl⟩ := findIdx_name es name i hf
    obtain ⟨j, a, b, _⟩ := h.find i hi
    exact ⟨by unfold offsetOf; omega, j, a, b⟩

/-! ### more fuel does not change results -/

theorem resolveRefs_mono (p : PackEntity) : ∀ (f g : Nat) (o : PackObj) (l : List PackObj), f ≤ g →
    p.resolveRefs f o = .ok l → p.resolveRefs g o = .ok l := by
  intro f
  induction f with
  | zero => intro g o l _ h; simp [PackEntity.resolveRefs] at h
  | succ f ih =>
    intro g o l hg h
    obtain ⟨g, rfl⟩ : ∃ g', g = g' + 1 := ⟨g - 1, by omega⟩
    rw [PackEntity.resolveRefs] at h ⊢
    rcases hi : o.info with _ | d | sha
    · simp only [hi] at h ⊢; exact h
    · simp only [hi] at h ⊢
      rcases hs : p.pack.stream d with e | o'
      · simp [hs] at h
      · simp only [hs] at h ⊢
        rcases hr : p.resolveRefs f o' with e | l'
        · simp [hr] at h
        · rw [ih g o' l' (by omega) hr]
          simpa [hr] using h
    · simp only [hi] at h ⊢
      rcases hx : p.index.shaToIndex sha with e | _ | i
      · simp [hx] at h
      · simpa [hx] using h
      · simp only [hx] at h ⊢
        rcases ho : p.index.offset i with e | ofs
        · simp [ho] at h
        · simp only [ho] at h ⊢
          rcases hs : p.pack.stream ofs with e | o'
          · simp [hs] at h
          · simp only [hs] at h ⊢
            rcases hr : p.resolveRefs f o' with e | l'
            · simp [hr] at h
            · rw [ih g o' l' (by omega) hr]
              simpa [hr] using h

theorem collectStreams_mono (p : PackFile) : ∀ (f g off : Nat) (l : List PackObj), f ≤ g →
    p.collectStreams f off = .ok l → p.collectStreams g off = .ok l := by
  intro f
  induction f with
  | zero => intro g o l _ h; simp [PackFile.collectStreams] at h
  | succ f ih =>
    intro g off l hg h
    obtain ⟨g, rfl⟩ : ∃ g', g = g' + 1 := ⟨g - 1, by omega⟩
    rw [PackFile.collectStreams] at h ⊢
    rcases hp : packObjectAt p.data off with e | o
    · simp [hp] at h
    · simp only [hp] at h ⊢
      rcases hi : o.info with _ | d | sha
      · simpa [hi] using h
      · simp only [hi] at h ⊢
        split at h
        · simp at h
        · rename_i hd
          rw [if_neg hd]
          rcases hr : p.collectStreams f (o.packOffset - d) with e | l'
          · simp [hr] at h
          · rw [ih g _ l' (by omega) hr]
            simpa [hr] using h
      · simpa [hi] using h

theorem collectStreamsAtOffset_mono (p : PackEntity) (f g off : Nat) (l : List PackObj) (hg : f ≤ g)
    (h : p.collectStreamsAtOffset f off = .ok l) : p.collectStreamsAtOffset g off = .ok l := by
  unfold PackEntity.collectStreamsAtOffset at h ⊢
  rcases hc : p.pack.collectStreams f off with e | s
  · simp [hc] at h
  · rw [collectStreams_mono p.pack f g off s hg hc]
    simp only [hc] at h ⊢
    rcases hl : s.getLast? with _ | last
    · simp [hl] at h
    · simp only [hl] at h ⊢
      split at h
      · rename_i ht
        rw [if_pos ht]
        rcases hr : p.resolveRefs f last with e | l'
        · simp [hr] at h
        · rw [resolveRefs_mono p f g last l' hg hr]
          simpa [hr] using h
      · rename_i ht
        rw [if_neg ht]
        exact h

theorem info_mono (p : PackEntity) (f g : Nat) (sha : Bytes) (r : PyName × Nat) (hg : f ≤ g)
    (h : p.info zl f sha = .ok r) : p.info zl g sha = .ok r := by
  unfold PackEntity.info at h ⊢
  rcases hi : p.shaToIndex sha with e | i
  · simp [hi] at h
  · simp only [hi] at h ⊢
    unfold PackEntity.infoAt at h ⊢
    rcases ho : p.index.offset i with e | ofs
    · simp [ho] at h
    · simp only [ho] at h ⊢
      rcases hh : packObjectHeaderInfo (p.pack.data.drop ofs) with e | ⟨ty, sz, rest⟩
      · simp [hh] at h
      · simp only [hh] at h ⊢
        split at h
        · rename_i ht
          rw [if_pos ht]
          exact h
        · rename_i ht
          rw [if_neg ht]
          rcases hc : p.collectStreamsAtOffset f ofs with e | l
          · simp [hc] at h
          · rw [collectStreamsAtOffset_mono p f g ofs l hg hc]
            simpa only [hc] using h

end GitDB
