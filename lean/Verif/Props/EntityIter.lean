import Verif.Model.EntityIter
import Verif.Props.PackDelta
/-!
# C65: iterating over the objects of a pack by its index
-/
set_option autoImplicit false

namespace GitDB.Props
open GitDB Spec

variable {σ ω ρ ω₂ ρ₂ α : Type}

/-- An iteration over `names` where `get` answers for a single name: it yields the answers in the order of the names,
up to the first name for which `get` raises, and ends with that exception; without one it yields all. -/
def IteratesOver (get : Bytes → Res α) (names : List Bytes) (r : List α × Res Unit) : Prop :=
  ∃ k, ∃ _ : k ≤ names.length, r.1.length = k ∧
    (∀ (i : Nat) (h : i < names.length) (h' : i < r.1.length), get names[i] = .ok r.1[i]) ∧
    ((k = names.length ∧ r.2 = .ok ()) ∨
      ∃ (h : k < names.length) (e : Err), get names[k] = .error e ∧ r.2 = .error e)

theorem yieldFrom_spec (get : Nat → Res α) : ∀ (n i : Nat), 
    (yieldFrom get n i).1.length ≤ n ∧
    (∀ (j : Nat) (h : j < (yieldFrom get n i).1.length), get (i + j) = .ok (yieldFrom get n i).1[j]) ∧
    (((yieldFrom get n i).1.length = n ∧ (yieldFrom get n i).2 = .ok ()) ∨
      ((yieldFrom get n i).1.length < n ∧ ∃ e, get (i + (yieldFrom get n i).1.length) = .error e ∧
        (yieldFrom get n i).2 = .error e)) := by
  intro n
  induction n with
  | zero => intro i; simp [yieldFrom]
  | succ n ih =>
    intro i
    rcases hg : get i with e | a
    · simp [yieldFrom, hg]
    · obtain ⟨h1, h2, h3⟩ := ih (i + 1)
      have hy : yieldFrom get (n + 1) i = (a :: (yieldFrom get n (i + 1)).1, (yieldFrom get n (i + 1)).2) := by
        simp [yieldFrom, hg]
      rw [hy]
      refine ⟨by simp; exact h1, ?_, ?_⟩
      · intro j hj
        cases j with
        | zero => simp [hg]
        | succ j =>
          have := h2 j (by simpa using hj)
          rw [show i + (j + 1) = i + 1 + j by omega, this]
          simp
      · rcases h3 with ⟨h, h'⟩ | ⟨h, e, h', h''⟩
        · exact .inl ⟨by simp [h], h'⟩
        · refine .inr ⟨by simp [h], e, ?_, h''⟩
          simp only [List.length_cons]
          rw [show i + ((yieldFrom get n (i + 1)).1.length + 1) = i + 1 + (yieldFrom get n (i + 1)).1.length by omega, h']

theorem yieldFrom_over (get : Nat → Res α) (byName : Bytes → Res α) (names : List Bytes)
    (h : ∀ (i : Nat) (hi : i < names.length), get i = byName names[i]) :
    IteratesOver byName names (yieldFrom get names.length 0) := by
  obtain ⟨h1, h2, h3⟩ := yieldFrom_spec get names.length 0
  refine ⟨_, h1, rfl, ?_, ?_⟩
  · intro i hi hi'
    rw [← h i hi]
    have := h2 i hi'
    rw [Nat.zero_add] at this
    exact this
  · rcases h3 with ⟨a, b⟩ | ⟨a, e, b, c⟩
    · exact .inl ⟨a, b⟩
    · refine .inr ⟨a, e, ?_, c⟩
      rw [← h _ a]
      rw [Nat.zero_add] at b
      exact b

/-- The index lists `names`, each at its place. -/
structure Enumerates (x : IndexFile) (names : List Bytes) : Prop where
  size : x.size = names.length
  sha : ∀ (i : Nat) (h : i < names.length), x.sha i = names[i]
  find : ∀ (i : Nat) (h : i < names.length), x.shaToIndex names[i] = .ok (some i)

theorem enumerates_of {x : IndexFile} {names : List Bytes} (hio : IndexOf x names) (hd : names.Nodup)
    (hne : ∀ n ∈ names, n ≠ []) : Enumerates x names where
  size := hio.size
  sha := hio.sha
  find := by
    intro i h
    rcases shaToIndex_spec hio names[i] (hne _ (List.getElem_mem h)) with ⟨j, h1, h2⟩ | ⟨_, h2⟩
    · obtain ⟨hj, h3⟩ := List.getElem?_eq_some_iff.1 h2
      have : j = i := (List.getElem_inj (h₀ := hj) (h₁ := h) hd).1 h3
      rw [h1, this]
    · exact absurd (List.getElem_mem h) h2

theorem iterates {x : IndexFile} {names : List Bytes} (h : Enumerates x names) (zl : Zlib) (pack : PackFile) (fuel : Nat) :
    IteratesOver (PackEntity.stream ⟨x, pack⟩ fuel) names (PackEntity.streamIter ⟨x, pack⟩ fuel) ∧
    IteratesOver (fun n => (PackEntity.info zl ⟨x, pack⟩ fuel n).map fun r => (n, r)) names
      (PackEntity.infoIter zl ⟨x, pack⟩ fuel) := by
  unfold PackEntity.streamIter PackEntity.infoIter
  simp only [h.size]
  constructor
  · refine yieldFrom_over _ _ names fun i hi => ?_
    simp [PackEntity.stream, PackEntity.shaToIndex, h.find i hi, h.sha i hi]
  · refine yieldFrom_over _ _ names fun i hi => ?_
    simp [PackEntity.info, PackEntity.shaToIndex, h.find i hi, h.sha i hi]

/-- **C65** A pack with a version 2 index: `stream_iter` and `info_iter` go through the names of the index in order, each once, and
yield what `stream` and `info` return for the name; an object for which these raise ends the iteration. -/
theorem C65_iterates_v2 (es : List Entry) (packSha idxSha : Bytes) (hv : ValidV2 es) (hs : Ascending (es.map Entry.name))
    (hd : (es.map Entry.name).Nodup) : ∃ x, IndexFile.load (indexV2 es packSha idxSha) = .ok x ∧
    ∀ (zl : Zlib) (pack : PackFile) (fuel : Nat),
      IteratesOver (PackEntity.stream ⟨x, pack⟩ fuel) (es.map Entry.name) (PackEntity.streamIter ⟨x, pack⟩ fuel) ∧
      IteratesOver (fun n => (PackEntity.info zl ⟨x, pack⟩ fuel n).map fun r => (n, r)) (es.map Entry.name)
        (PackEntity.infoIter zl ⟨x, pack⟩ fuel) := by
  refine ⟨_, v2_load es packSha idxSha hv, fun zl pack fuel =>
    iterates (enumerates_of (v2_indexOf es packSha idxSha hv hs) hd ?_) zl pack fuel⟩
  intro n hn h0
  obtain ⟨e, he, rfl⟩ := List.mem_map.1 hn
  have := hv.name_len e he
  rw [h0] at this
  simp at this

example := C65_iterates_v2 exEntries [] [] exEntries_valid exEntries_asc (by decide)

/-- **C65** The same for version 1. -/
theorem C65_iterates_v1 (es : List Entry) (packSha idxSha : Bytes) (hv : ValidV1 es)
    (h0 : (es.map Entry.name).countP (firstLe 0) ≠ 0xff744f63) (hs : Ascending (es.map Entry.name))
    (hd : (es.map Entry.name).Nodup) : ∃ x, IndexFile.load (indexV1 es packSha idxSha) = .ok x ∧
    ∀ (zl : Zlib) (pack : PackFile) (fuel : Nat),
      IteratesOver (PackEntity.stream ⟨x, pack⟩ fuel) (es.map Entry.name) (PackEntity.streamIter ⟨x, pack⟩ fuel) ∧
      IteratesOver (fun n => (PackEntity.info zl ⟨x, pack⟩ fuel n).map fun r => (n, r)) (es.map Entry.name)
        (PackEntity.infoIter zl ⟨x, pack⟩ fuel) := by
  refine ⟨_, v1_load es packSha idxSha hv h0, fun zl pack fuel =>
    iterates (enumerates_of (v1_indexOf es packSha idxSha hv hs) hd ?_) zl pack fuel⟩
  intro n hn h0
  obtain ⟨e, he, rfl⟩ := List.mem_map.1 hn
  have := hv.name_len e he
  rw [h0] at this
  simp at this

example := C65_iterates_v1 exEntriesV1 [] [] ⟨by decide, by decide, by decide⟩ (by decide)
  (by unfold Ascending; decide) (by decide)

/-- If every single answer is there, an iteration yields them all. -/
theorem IteratesOver.complete {get : Bytes → Res α} {names : List Bytes} {r : List α × Res Unit}
    (h : IteratesOver get names r) (hall : ∀ n ∈ names, ∃ a, get n = .ok a) :
    r.2 = .ok () ∧ All2 (fun n a => get n = .ok a) names r.1 := by
  obtain ⟨k, hk, h1, h2, h3⟩ := h
  rcases h3 with ⟨h3, h4⟩ | ⟨h3, e, h4, _⟩
  · refine ⟨h4, ?_⟩
    have hlen : r.1.length = names.length := by rw [h1, h3]
    clear h1 h3 h4 hall hk
    generalize r.1 = as at *
    induction names generalizing as with
    | nil => cases as with
      | nil => exact .nil
      | cons => simp at hlen
    | cons n names ih =>
      cases as with
      | nil => simp at hlen
      | cons a as =>
        refine .cons (h2 0 (by simp) (by simp)) (ih as ?_ (by simpa using hlen))
        intro i hi hi'
        have := h2 (i + 1) (by simpa using hi) (by simpa using hi')
        simpa using this
  · obtain ⟨a, ha⟩ := hall _ (List.getElem_mem h3)
    rw [h4] at ha
    simp at ha

theorem All2.eq_map {β : Type} {R : α → β → Prop} (F : α → β) {as : List α} {bs : List β} (h : All2 R as bs)
    (hF : ∀ a ∈ as, ∀ b, R a b → b = F a) : bs = as.map F := by
  induction h with
  | nil => rfl
  | cons h t ih =>
    rw [List.map_cons, hF _ (by simp) _ h, ih fun a ha b hb => hF a (by simp [ha]) b hb]

section
variable {read : σ → Int → σ × Res Bytes} {write : ω → Bytes → ω × Res ρ} {iwrite : ω₂ → Bytes → ω₂ × Res ρ₂}
  {Rep : σ → Bytes → Prop} {WRep : ω → Bytes → Prop} {IRep : ω₂ → Bytes → Prop} (zl : Zlib) (L : ZlibLaws zl)
  (hr : BoundedReads read Rep) (hw : ∀ cap, Stores write WRep cap) (hi : ∀ cap, Stores iwrite IRep cap) (H : Hash)
  (fuel : Nat) (level : Int) (l : List (PackIn σ × Bytes)) (hl : Packable Rep zl level fuel l)
  (w : ω) (ho : WRep w []) (iw : ω₂) (hio : IRep iw [])
include L hr hw hi hl ho hio

/-- **C65** Both iterators of a written pack end and yield the objects that were written, each once, in ascending order of
the names, with type and size. -/
theorem C65_written : ∃ w' iw' psha isha pk ix p x infos streams,
    writePack H zl fuel read write (some iwrite) (l.map Prod.fst) none level w iw =
      (w', iw', .ok (psha, some isha)) ∧ WRep w' pk ∧ IRep iw' ix ∧
    PackFile.load pk = .ok p ∧ IndexFile.load ix = .ok x ∧
    (∀ fuel', PackEntity.infoIter zl ⟨x, p⟩ fuel' = (infos, .ok ()) ∧
      PackEntity.streamIter ⟨x, p⟩ fuel' = (streams, .ok ())) ∧
    infos.Perm (l.map fun q => (q.1.sha, .bytes ((typeName q.1.typeId).getD []), q.2.length)) ∧
    Ascending (infos.map fun r => r.1) ∧
    (streams.map fun o => (o.sha, o.type, o.size)) = infos.map fun r => (r.1, r.2.1, some r.2.2) := by
  obtain ⟨w', iw', es, isha, h1, e1, e2, h2, h3, hix, hv, hd, h32⟩ :=
    written_spec zl L hr hw hi H fuel level l hl w ho iw hio
  have hnm : ((sortObjs (idxOf 12 es)).map IdxObj.toEntry).map Entry.name = (sortObjs (idxOf 12 es)).map IdxObj.sha := by
    rw [List.map_map]; rfl
  have hperm : ((sortObjs (idxOf 12 es)).map IdxObj.sha).Perm (l.map fun q => q.1.sha) := by
    rw [← all2_names h1, ← idxOf_sha 12 es]
    exact (sortObjs_perm _).map _
  have hV := (hix.perm (sortObjs_perm _)).valid
  have hsort := sortObjs_sorted (idxOf 12 es)
  have hxio := v2_indexOf _ (H.digest (packBody es)) isha hV (by rw [hnm]; exact hsort)
  rw [hnm] at hxio
  have hx := enumerates_of hxio (hperm.nodup_iff.2 hl.distinct) (by
    intro n hn h0
    obtain ⟨q, hq, rfl⟩ := List.mem_map.1 (hperm.mem_iff.1 hn)
    have := hl.names q hq
    rw [h0] at this
    simp at this)
  generalize hxx : v2File ((sortObjs (idxOf 12 es)).map IdxObj.toEntry) (H.digest (packBody es)) isha = x at *
  generalize hpp : (⟨packFile es (H.digest (packBody es)), 2, es.length⟩ : PackFile) = p at *
  have key : ∀ q ∈ l, ∃ r, ∀ fuel', PackEntity.stream ⟨x, p⟩ fuel' q.1.sha =
        .ok ⟨q.1.sha, .bytes ((typeName q.1.typeId).getD []), some q.2.length, r⟩ ∧
      PackEntity.info zl ⟨x, p⟩ fuel' q.1.sha = .ok (.bytes ((typeName q.1.typeId).getD []), q.2.length) := by
    intro q hq
    obtain ⟨e, he, hqe⟩ := all2_mem_left h1 q hq
    obtain ⟨i, hil, rfl⟩ := List.mem_iff_getElem.1 he
    obtain ⟨a1, a2, a3, a4, a7, pieces, a5, a6⟩ := hqe
    obtain ⟨nm, hnm⟩ := Option.isSome_iff_exists.1 (hl.type q hq)
    obtain ⟨j, b1, b2, b3⟩ := (lists_written es (H.digest (packBody es)) isha hix hd).find i hil
    rw [hxx] at b1 b2
    have hat := packFile_entryAt hv (H.digest (packBody es)) i hil
    have hpos : offsetOf es i ≠ 0 := by unfold offsetOf; omega
    refine ⟨.base (entryObj p.data (offsetOf es i) es[i]).stream, fun fuel' => ?_⟩
    subst hpp
    obtain ⟨s1, s2⟩ := stream_whole (zl := zl) ⟨x, ⟨packFile es (H.digest (packBody es)), 2, es.length⟩⟩ q.1.sha (offsetOf es i)
      ⟨hpos, j, by rw [← a1]; exact b1, b2⟩ es[i] hat q.1.typeId a2 nm hnm fuel'
    rw [s1, s2, hnm, a3]
    exact ⟨rfl, rfl⟩
  let G : Bytes → OStream := fun n => match PackEntity.stream ⟨x, p⟩ 0 n with | .ok o => o | .error _ => ⟨n, .bytes [], none, .delta []⟩
  let F : Bytes → Bytes × PyName × Nat := fun n => match PackEntity.info zl ⟨x, p⟩ 0 n with | .ok r => (n, r) | .error _ => (n, .bytes [], 0)
  have hF : ∀ q ∈ l, F q.1.sha = (q.1.sha, .bytes ((typeName q.1.typeId).getD []), q.2.length) := by
    intro q hq
    obtain ⟨r, hk⟩ := key q hq
    simp [F, (hk 0).2]
  have hG : ∀ q ∈ l, ((G q.1.sha).sha, (G q.1.sha).type, (G q.1.sha).size) =
      (q.1.sha, .bytes ((typeName q.1.typeId).getD []), some q.2.length) := by
    intro q hq
    obtain ⟨r, hk⟩ := key q hq
    simp [G, (hk 0).1]
  generalize hns : (sortObjs (idxOf 12 es)).map IdxObj.sha = names at *
  have hmem : ∀ n ∈ names, ∃ q ∈ l, q.1.sha = n := fun n hn => List.mem_map.1 (hperm.mem_iff.1 hn)
  refine ⟨w', iw', _, isha, _, _, p, x, names.map F, names.map G, e1, h2, h3, ?_, ?_, ?_, ?_, ?_, ?_⟩
  · rw [← hpp]; exact packFile_load es _ h32
  · rw [← hxx]; exact v2_load _ _ _ hV
  · intro fuel'
    obtain ⟨i1, i2⟩ := iterates hx zl p fuel'
    obtain ⟨c1, c2⟩ := i1.complete (by
      intro n hn
      obtain ⟨q, hq, rfl⟩ := hmem n hn
      obtain ⟨r, hk⟩ := key q hq
      exact ⟨_, (hk fuel').1⟩)
    obtain ⟨d1, d2⟩ := i2.complete (by
      intro n hn
      obtain ⟨q, hq, rfl⟩ := hmem n hn
      obtain ⟨r, hk⟩ := key q hq
      exact ⟨_, by rw [(hk fuel').2]; rfl⟩)
    constructor
    · refine Prod.ext (All2.eq_map F d2 ?_) d1
      intro n hn b hb
      obtain ⟨q, hq, rfl⟩ := hmem n hn
      obtain ⟨r, hk⟩ := key q hq
      rw [(hk fuel').2] at hb
      rw [hF q hq]
      simp only [Except.map, Except.ok.injEq] at hb
      exact hb.symm
    · refine Prod.ext (All2.eq_map G c2 ?_) c1
      intro n hn b hb
      obtain ⟨q, hq, rfl⟩ := hmem n hn
      obtain ⟨r, hk⟩ := key q hq
      rw [(hk fuel').1] at hb
      simp only [Except.ok.injEq] at hb
      simp only [G, (hk 0).1]
      exact hb.symm
  · refine (hperm.map F).trans ?_
    rw [List.map_map]
    exact (List.map_congr_left fun q hq => hF q hq) ▸ List.Perm.refl _
  · rw [List.map_map]
    have : names.map ((fun r : Bytes × PyName × Nat => r.1) ∘ F) = names := by
      rw [List.map_congr_left (g := id), List.map_id]
      intro n hn
      obtain ⟨q, hq, rfl⟩ := hmem n hn
      simp [hF q hq]
    rw [this]
    exact hsort
  · rw [List.map_map, List.map_map]
    apply List.map_congr_left
    intro n hn
    obtain ⟨q, hq, rfl⟩ := hmem n hn
    simp only [Function.comp_apply, hG q hq, hF q hq]
end

example (n : Nat) (hn : n < 2 ^ 59) := C65_written toyZlib toyZlib_laws bytesIO_reads.toBoundedReads
  sink_stores sink_stores lenHash (n + 2) 1 (twoBlobs n) (twoBlobs_packable n hn) {} ⟨rfl, rfl⟩ {} ⟨rfl, rfl⟩

end GitDB.Props
