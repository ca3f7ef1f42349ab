import Verif.Model.Lazy
import Verif.Props.Index
/-!
# C61: repeated access to pack and index files
-/
set_option autoImplicit false

namespace GitDB.Props
open GitDB Spec

/-- What a call on a pack answers, given the content of the file and the numbers in its header. -/
def packExpected (p : PackFile) : PackCall → Res PackAnswer
  | .version => .ok (.number p.version)
  | .size => .ok (.number p.size)
  | .stream offset => (p.stream offset).map .object
  | .close => .ok .nothing

/-- What a call on an index answers. -/
def indexExpected (x : IndexFile) : IndexCall → Res IndexAnswer
  | .version => .ok (.number x.version)
  | .size => .ok (.number x.size)
  | .sha i => .ok (.name (x.sha i))
  | .close => .ok .nothing

/-- Full statement: a file which is refused on first access is refused on every access with the same exception
(as long as the object has not been closed). -/
def C61_full : Prop :=
  (∀ data e, PackFile.load data = .error e → ∀ cs, .close ∉ cs →
    ∀ r ∈ (PackAttrs.calls (some data) {} cs).2, ∃ e', r = .error e' ∧ e' = e) ∧
  (∀ map e, IndexFile.load map = .error e → ∀ cs, .close ∉ cs →
    ∀ r ∈ (IndexAttrs.calls (some map) {} cs).2, ∃ e', r = .error e' ∧ e' = e)

/-! ## packs -/

/-- The attributes set so far are those of `p`; `k`: not closed. -/
def PackInv (p : PackFile) (k : Prop) (s : PackAttrs) : Prop :=
  (s.cursor = none ∨ s.cursor = some (some p.data) ∨ (s.cursor = some none ∧ ¬ k)) ∧
  (s.version = none ∨ s.version = some p.version) ∧ (s.size = none ∨ s.size = some p.size)

theorem load_ok {data : Bytes} {p : PackFile} (h : PackFile.load data = .ok p) (s : PackAttrs) :
    p.data = data ∧
      s.setCache (some data) = (⟨some (some p.data), some p.version, some p.size⟩, .ok ()) := by
  unfold PackFile.load at h
  unfold PackAttrs.setCache
  simp only
  split at h
  · rename_i t v n e1 e2 e3
    rw [e1, e2, e3]
    simp only
    split at h
    · cases h
    · rename_i ht
      cases h
      exact ⟨rfl, by rw [if_neg ht]⟩
  · cases h

theorem packCall_good {data : Bytes} {p : PackFile} (h : PackFile.load data = .ok p) (k : Prop) (s : PackAttrs)
    (hs : PackInv p k s) (c : PackCall) (hc : k → c ≠ .close) :
    PackInv p k (s.call (some data) c).1 ∧
    ((s.call (some data) c).2 = packExpected p c ∨
      ((s.call (some data) c).2 = .error .attributeError ∧ s.cursor = some none ∧ ∃ o, c = .stream o)) := by
  obtain ⟨hcur, hver, hsz⟩ := hs
  have hl := fun s => (load_ok h s).2
  cases c with
  | version =>
    rcases hver with hv | hv
    · simp only [PackAttrs.call, lazyGet, hv, hl]
      exact ⟨⟨.inr (.inl rfl), .inr rfl, .inr rfl⟩, .inl rfl⟩
    · simp only [PackAttrs.call, lazyGet, hv]
      exact ⟨⟨hcur, .inr hv, hsz⟩, .inl rfl⟩
  | size =>
    rcases hsz with hv | hv
    · simp only [PackAttrs.call, lazyGet, hv, hl]
      exact ⟨⟨.inr (.inl rfl), .inr rfl, .inr rfl⟩, .inl rfl⟩
    · simp only [PackAttrs.call, lazyGet, hv]
      exact ⟨⟨hcur, hver, .inr hv⟩, .inl rfl⟩
  | stream o =>
    rcases hcur with hv | hv | ⟨hv, hk⟩
    · simp only [PackAttrs.call, lazyGet, hv, hl]
      exact ⟨⟨.inr (.inl rfl), .inr rfl, .inr rfl⟩, .inl rfl⟩
    · simp only [PackAttrs.call, lazyGet, hv]
      exact ⟨⟨.inr (.inl hv), hver, hsz⟩, .inl rfl⟩
    · simp only [PackAttrs.call, lazyGet, hv]
      exact ⟨⟨.inr (.inr ⟨hv, hk⟩), hver, hsz⟩, .inr ⟨by trivial, by trivial, o, rfl⟩⟩
  | close =>
    have hk : ¬ k := fun hk => hc hk rfl
    exact ⟨⟨.inr (.inr ⟨rfl, hk⟩), hver, hsz⟩, .inl rfl⟩

/-- **C61** a pack whose header is right: every call of any sequence gets the answer of a freshly opened file -
the numbers of the header, the entry at the offset.  (Without `close`; see `C61_pack_closed`.) -/
theorem C61_pack_good (data : Bytes) (p : PackFile) (h : PackFile.load data = .ok p) (cs : List PackCall)
    (hc : .close ∉ cs) : (PackAttrs.calls (some data) {} cs).2 = cs.map (packExpected p) := by
  have : ∀ s, PackInv p True s → (PackAttrs.calls (some data) s cs).2 = cs.map (packExpected p) := by
    induction cs with
    | nil => intro s _; rfl
    | cons c cs ih =>
      intro s hs
      simp only [List.mem_cons, not_or] at hc
      obtain ⟨h1, h2⟩ := packCall_good h True s hs c (fun _ e => hc.1 e.symm)
      have h3 := ih hc.2 _ h1
      simp only [PackAttrs.calls, List.map_cons, h3]
      rcases h2 with h2 | ⟨_, h2, _⟩
      · rw [h2]
      · rcases hs.1 with h4 | h4 | ⟨_, h4⟩
        · rw [h4] at h2; cases h2
        · rw [h4] at h2; cases h2
        · exact absurd trivial h4
  exact this {} ⟨.inl rfl, .inl rfl, .inl rfl⟩

/-- **C61** with `close` anywhere in the sequence: every answer is the right one, or it is `AttributeError` for
access to the data after a `close` (the file is not opened again unless a number of the header was asked for
the first time in between). -/
theorem C61_pack_closed (data : Bytes) (p : PackFile) (h : PackFile.load data = .ok p) (cs : List PackCall) (i : Nat)
    (hi : i < cs.length) :
    ∃ r, (PackAttrs.calls (some data) {} cs).2[i]? = some r ∧
      (r = packExpected p cs[i] ∨
        (r = .error .attributeError ∧ (∃ o, cs[i] = .stream o) ∧ .close ∈ cs.take i)) := by
  have : ∀ (cs : List PackCall) (pre : List PackCall) (s : PackAttrs),
      PackInv p (PackCall.close ∉ pre) s → ∀ i (hi : i < cs.length),
      ∃ r, (PackAttrs.calls (some data) s cs).2[i]? = some r ∧
        (r = packExpected p cs[i] ∨
          (r = .error .attributeError ∧ (∃ o, cs[i] = .stream o) ∧ PackCall.close ∈ pre ++ cs.take i)) := by
    intro cs
    induction cs with
    | nil => intro pre s _ i hi; simp at hi
    | cons c cs ih =>
      intro pre s hs i hi
      have hs' : PackInv p (PackCall.close ∉ pre ++ [c]) s := by
        refine ⟨?_, hs.2⟩
        rcases hs.1 with h1 | h1 | ⟨h1, h2⟩
        · exact .inl h1
        · exact .inr (.inl h1)
        · exact .inr (.inr ⟨h1, fun h3 => h2 (by simp at h3; exact h3.1)⟩)
      obtain ⟨h1, h2⟩ := packCall_good h (PackCall.close ∉ pre ++ [c]) s hs' c
        (fun hk e => hk (by simp [e]))
      cases i with
      | zero =>
        refine ⟨_, by simp only [PackAttrs.calls]; rfl, ?_⟩
        rcases h2 with h2 | ⟨h2, h3, h4⟩
        · exact .inl h2
        · refine .inr ⟨h2, h4, ?_⟩
          rcases hs.1 with h5 | h5 | ⟨_, h5⟩
          · rw [h5] at h3; cases h3
          · rw [h5] at h3; cases h3
          · simpa using Classical.not_not.mp h5
      | succ i =>
        obtain ⟨r, e1, e2⟩ := ih (pre ++ [c]) _ h1 i (by simpa using hi)
        refine ⟨r, by simp only [PackAttrs.calls, List.getElem?_cons_succ]; exact e1, ?_⟩
        simpa using e2
  have := this cs [] {} ⟨.inl rfl, .inl rfl, .inl rfl⟩ i hi
  simpa using this

/-- The header of the file has three numbers, and the first one is not the signature. -/
def WrongSignature (data : Bytes) (v n : Nat) : Prop :=
  ∃ t, unpackL data 0 = .ok t ∧ t ≠ packSignature ∧ unpackL data 4 = .ok v ∧ unpackL data 8 = .ok n

/-- **C61** finding: a file with a wrong signature is refused by the first call only; from then on, every
call of any sequence is answered as if the file were a pack. -/
theorem C61_pack_wrong_signature (data : Bytes) (v n : Nat) (h : WrongSignature data v n) (c : PackCall)
    (hc : c ≠ .close) (cs : List PackCall) (hcs : .close ∉ cs) :
    PackFile.load data = .error .parseError ∧
    (PackAttrs.calls (some data) {} (c :: cs)).2 = .error .parseError :: cs.map (packExpected ⟨data, v, n⟩) := by
  obtain ⟨t, h1, h2, h3, h4⟩ := h
  have hset : PackAttrs.setCache (some data) {} =
      ({ cursor := some (some data), version := some v, size := some n }, .error .parseError) := by
    simp [PackAttrs.setCache, h1, h3, h4, h2]
  have hcall : PackAttrs.call (some data) {} c =
      ({ cursor := some (some data), version := some v, size := some n }, .error .parseError) := by
    cases c with
    | version => simp only [PackAttrs.call, lazyGet, hset]; rfl
    | size => simp only [PackAttrs.call, lazyGet, hset]; rfl
    | stream o => simp only [PackAttrs.call, lazyGet, hset]
    | close => exact absurd rfl hc
  have rest : ∀ cs : List PackCall, PackCall.close ∉ cs → (PackAttrs.calls (some data)
      { cursor := some (some data), version := some v, size := some n } cs).2 =
      cs.map (packExpected ⟨data, v, n⟩) := by
    intro cs
    induction cs with
    | nil => intro _; rfl
    | cons c cs ih =>
      intro hcs
      simp only [List.mem_cons, not_or] at hcs
      have e : PackAttrs.call (some data) { cursor := some (some data), version := some v, size := some n } c =
          ({ cursor := some (some data), version := some v, size := some n }, packExpected ⟨data, v, n⟩ c) := by
        cases c with
        | version => rfl
        | size => rfl
        | stream o => rfl
        | close => exact absurd rfl hcs.1
      simp only [PackAttrs.calls, e, List.map_cons, ih hcs.2]
  refine ⟨by simp [PackFile.load, h1, h2, h3, h4], ?_⟩
  simp only [PackAttrs.calls, hcall, rest cs hcs]

/-- **C61** a file too short for the header: asking for the version or the number of objects is refused every
time, in whatever state the object is (short of a `close` and reopening). -/
theorem C61_pack_short (data : Bytes) (h : data.length < 12) (s : PackAttrs) (hv : s.version = none)
    (hs : s.size = none) (c : PackCall) :
    let s' := (s.call (some data) c).1
    (c = .version ∨ c = .size → (s.call (some data) c).2 = .error .structError) ∧
      s'.version = none ∧ s'.size = none := by
  have hset : ∀ s : PackAttrs, s.setCache (some data) = ({ s with cursor := some (some data) }, .error .structError) := by
    intro s
    have : unpackL data 8 = .error .structError := by
      unfold unpackL
      rw [if_neg (by omega)]
    simp only [PackAttrs.setCache, this]
    split <;> first | rfl | (rename_i h3; cases h3)
  cases c with
  | version => simp [PackAttrs.call, lazyGet, hv, hs, hset, Except.map]
  | size => simp [PackAttrs.call, lazyGet, hv, hs, hset, Except.map]
  | stream o =>
    refine ⟨fun h => (by rcases h with h | h <;> exact absurd h (by simp)), ?_⟩
    rcases hc : s.cursor with _ | _ | d <;> simp [PackAttrs.call, lazyGet, hv, hs, hset, hc]
  | close => exact ⟨fun h => (by rcases h with h | h <;> exact absurd h (by simp)), hv, hs⟩

/-- **C61** a file which cannot be opened is tried again by every call: nothing is remembered of the failure. -/
theorem C61_pack_missing (c : PackCall) (hc : c ≠ .close) :
    PackAttrs.call none {} c = ({}, .error .fileNotFound) := by
  cases c with
  | version => rfl
  | size => rfl
  | stream o => rfl
  | close => exact absurd rfl hc

/-! ## indices -/

/-- The attributes set so far are those of `x`. -/
def IndexInv (x : IndexFile) (s : IndexAttrs) : Prop :=
  (s.cursor = none ∨ s.cursor = some (some x.map)) ∧ (s.version = none ∨ s.version = some x.version) ∧
  (s.fanout = none ∨ s.fanout = some x.fanout) ∧ (s.bound = none ∨ s.bound = some x.version)

theorem indexLoad_ok {map : Bytes} {x : IndexFile} (h : IndexFile.load map = .ok x) (s : IndexAttrs)
    (hc : s.cursor = none ∨ s.cursor = some (some map)) :
    x.map = map ∧ s.setCache (some map) =
      (⟨some (some x.map), some x.version, some x.fanout, some x.version⟩, .ok ()) := by
  have hcur : s.getCursor (some map) = ({ s with cursor := some (some map) }, .ok (some map)) := by
    rcases hc with hc | hc
    · simp [IndexAttrs.getCursor, lazyGet, hc]
    · obtain ⟨c, v, f, b⟩ := s
      simp only at hc
      subst hc
      rfl
  unfold IndexFile.load at h
  unfold IndexAttrs.setCache
  rw [hcur]
  simp only at h ⊢
  by_cases h2 : map.take 4 = [0xff, 0x74, 0x4f, 0x63]
  · simp only [if_pos h2, if_true] at h ⊢
    rcases hv : unpackL map 4 with e | v
    · rw [hv] at h; simp at h
    · rw [hv] at h
      simp only at h ⊢
      by_cases hv2 : v = 2
      · simp only [if_pos hv2] at h ⊢
        rcases hf : readFanout map 8 with e | f
        · rw [hf] at h; simp at h
        · rw [hf] at h
          cases h
          exact ⟨rfl, rfl⟩
      · simp [if_neg hv2] at h
  · simp only [if_neg h2, show ¬ ((1 : Nat) = 2) by decide, if_false] at h ⊢
    rcases hf : readFanout map 0 with e | f
    · rw [hf] at h; simp at h
    · rw [hf] at h
      cases h
      exact ⟨rfl, rfl⟩

theorem indexCall_good {map : Bytes} {x : IndexFile} (h : IndexFile.load map = .ok x) (s : IndexAttrs)
    (hs : IndexInv x s) (c : IndexCall) (hc : c ≠ .close) :
    IndexInv x (s.call (some map) c).1 ∧ (s.call (some map) c).2 = indexExpected x c := by
  obtain ⟨hcur, hver, hfan, hbnd⟩ := hs
  have hm := (indexLoad_ok h {} (.inl rfl)).1
  have hl := (indexLoad_ok h s (by rwa [hm] at hcur)).2
  have all : IndexInv x ⟨some (some x.map), some x.version, some x.fanout, some x.version⟩ :=
    ⟨.inr rfl, .inr rfl, .inr rfl, .inr rfl⟩
  cases c with
  | version =>
    rcases hver with hv | hv
    · simp only [IndexAttrs.call, lazyGet, hv, hl]
      exact ⟨all, rfl⟩
    · simp only [IndexAttrs.call, lazyGet, hv]
      exact ⟨⟨hcur, .inr hv, hfan, hbnd⟩, rfl⟩
  | size =>
    rcases hfan with hv | hv
    · simp only [IndexAttrs.call, lazyGet, hv, hl]
      exact ⟨all, rfl⟩
    · simp only [IndexAttrs.call, lazyGet, hv]
      exact ⟨⟨hcur, hver, .inr hv, hbnd⟩, rfl⟩
  | sha i =>
    have hx : ∀ b : Nat, b = x.version → (Except.ok (IndexAnswer.name (if b = 2 then
        pySlice map (shaListOff + i * 20) (shaListOff + i * 20 + 20)
        else pySlice map (1024 + i * 24 + 4) (1024 + i * 24 + 4 + 20))) : Res IndexAnswer) =
        indexExpected x (.sha i) := by
      rintro b rfl
      simp only [indexExpected, IndexFile.sha, hm]
    rcases hbnd with hv | hv
    · simp only [IndexAttrs.call, lazyGet, hv, hl, IndexAttrs.getCursor]
      exact ⟨all, by rw [hm]; exact hx _ rfl⟩
    · rcases hcur with hcc | hcc
      · simp only [IndexAttrs.call, lazyGet, hv, IndexAttrs.getCursor, hcc]
        exact ⟨⟨.inr (by rw [hm]), hver, hfan, .inr rfl⟩, hx _ rfl⟩
      · simp only [IndexAttrs.call, lazyGet, hv, IndexAttrs.getCursor, hcc]
        exact ⟨⟨.inr hcc, hver, hfan, .inr hv⟩, by rw [hm]; exact hx _ rfl⟩
  | close => exact absurd rfl hc

/-- **C61** a usable index: every call of any sequence (without `close`) gets the answer of a freshly opened
file. -/
theorem C61_index_good (map : Bytes) (x : IndexFile) (h : IndexFile.load map = .ok x) (cs : List IndexCall)
    (hc : .close ∉ cs) : (IndexAttrs.calls (some map) {} cs).2 = cs.map (indexExpected x) := by
  have : ∀ s, IndexInv x s → (IndexAttrs.calls (some map) s cs).2 = cs.map (indexExpected x) := by
    induction cs with
    | nil => intro s _; rfl
    | cons c cs ih =>
      intro s hs
      simp only [List.mem_cons, not_or] at hc
      obtain ⟨h1, h2⟩ := indexCall_good h s hs c (fun e => hc.1 e.symm)
      simp only [IndexAttrs.calls, List.map_cons, ih hc.2 _ h1, h2]
  exact this {} ⟨.inl rfl, .inl rfl, .inl rfl, .inl rfl⟩

/-- After a failure: the fanout table is missing, the object is not closed. -/
def IndexBad (map : Bytes) (s : IndexAttrs) : Prop :=
  (s.cursor = none ∨ s.cursor = some (some map)) ∧ s.fanout = none

theorem indexLoad_error {map : Bytes} {e : Err} (h : IndexFile.load map = .error e) (s : IndexAttrs)
    (hs : IndexBad map s) : ∃ s', s.setCache (some map) = (s', .error e) ∧ IndexBad map s' ∧
      s'.version = some (if map.take 4 = [0xff, 0x74, 0x4f, 0x63] then 2 else 1) := by
  obtain ⟨hc, hf⟩ := hs
  have hcur : s.getCursor (some map) = ({ s with cursor := some (some map) }, .ok (some map)) := by
    rcases hc with hc | hc
    · simp [IndexAttrs.getCursor, lazyGet, hc]
    · obtain ⟨c, v, f, b⟩ := s
      simp only at hc
      subst hc
      rfl
  unfold IndexFile.load at h
  unfold IndexAttrs.setCache
  rw [hcur]
  simp only at h ⊢
  by_cases h2 : map.take 4 = [0xff, 0x74, 0x4f, 0x63]
  · simp only [if_pos h2, if_true] at h ⊢
    rcases hv : unpackL map 4 with e' | v
    · rw [hv] at h
      simp only [Except.error.injEq] at h
      subst h
      exact ⟨_, rfl, ⟨.inr rfl, hf⟩, rfl⟩
    · rw [hv] at h
      simp only at h ⊢
      by_cases hv2 : v = 2
      · simp only [if_pos hv2] at h ⊢
        rcases hff : readFanout map 8 with e' | f
        · rw [hff] at h
          simp only [Except.error.injEq] at h
          subst h
          exact ⟨_, rfl, ⟨.inr rfl, hf⟩, rfl⟩
        · rw [hff] at h; simp at h
      · simp only [if_neg hv2, Except.error.injEq] at h ⊢
        subst h
        exact ⟨_, rfl, ⟨.inr rfl, hf⟩, rfl⟩
  · simp only [if_neg h2, show ¬ ((1 : Nat) = 2) by decide, if_false] at h ⊢
    rcases hff : readFanout map 0 with e' | f
    · rw [hff] at h
      simp only [Except.error.injEq] at h
      subst h
      exact ⟨_, rfl, ⟨.inr rfl, hf⟩, rfl⟩
    · rw [hff] at h; simp at h

/-- **C61** an index which is refused on first access: the number of its objects - and with it every lookup,
which begins with the fanout table - is refused with the same exception every time, whatever calls precede.
(Missing for `C61_full`: this is false for `version()` and `sha(i)`.) -/
theorem C61_index_refused_partial (map : Bytes) (e : Err) (h : IndexFile.load map = .error e) (cs : List IndexCall)
    (hc : .close ∉ cs) (i : Nat) (hi : i < cs.length) (hsz : cs[i] = .size) :
    (IndexAttrs.calls (some map) {} cs).2[i]? = some (.error e) := by
  have step : ∀ (s : IndexAttrs), IndexBad map s → ∀ c, c ≠ IndexCall.close →
      IndexBad map (s.call (some map) c).1 ∧ (c = .size → (s.call (some map) c).2 = .error e) := by
    intro s hs c hc
    obtain ⟨s', e1, hs', _⟩ := indexLoad_error h s hs
    cases c with
    | version =>
      refine ⟨?_, fun h => (by cases h)⟩
      rcases hv : s.version with _ | v
      · simpa [IndexAttrs.call, lazyGet, hv, e1] using hs'
      · simpa [IndexAttrs.call, lazyGet, hv] using hs
    | size =>
      simp only [IndexAttrs.call, lazyGet, hs.2, e1]
      exact ⟨hs', fun _ => rfl⟩
    | sha j =>
      refine ⟨?_, fun h => (by cases h)⟩
      rcases hv : s.bound with _ | v
      · simpa [IndexAttrs.call, lazyGet, hv, e1] using hs'
      · rcases hs.1 with hcc | hcc
        · simp only [IndexAttrs.call, lazyGet, hv, IndexAttrs.getCursor, hcc]
          exact ⟨.inr rfl, hs.2⟩
        · simp only [IndexAttrs.call, lazyGet, hv, IndexAttrs.getCursor, hcc]
          exact hs
    | close => exact absurd rfl hc
  have : ∀ (cs : List IndexCall) (s : IndexAttrs), IndexBad map s → IndexCall.close ∉ cs → ∀ i (hi : i < cs.length),
      cs[i] = .size → (IndexAttrs.calls (some map) s cs).2[i]? = some (.error e) := by
    intro cs
    induction cs with
    | nil => intro s _ _ i hi; simp at hi
    | cons c cs ih =>
      intro s hs hc i hi hsz
      simp only [List.mem_cons, not_or] at hc
      obtain ⟨h1, h2⟩ := step s hs c (fun e => hc.1 e.symm)
      cases i with
      | zero =>
        simp only [List.getElem_cons_zero] at hsz
        simp only [IndexAttrs.calls, List.getElem?_cons_zero, h2 hsz]
      | succ i =>
        simp only [IndexAttrs.calls, List.getElem?_cons_succ]
        exact ih _ h1 hc.2 i (by simpa using hi) (by simpa using hsz)
  exact this cs {} ⟨.inl rfl, rfl⟩ hc i hi hsz

/-- **C61** an index file which is not there: `FileNotFoundError` for every call, and nothing is remembered - once the file
is there, the object answers like a fresh one. -/
theorem C61_index_missing (before : List IndexCall) (hb : .close ∉ before) :
    IndexAttrs.calls none {} before = ({}, before.map fun _ => .error .fileNotFound) := by
  induction before with
  | nil => rfl
  | cons c cs ih =>
    simp only [List.mem_cons, not_or] at hb
    have h1 : IndexAttrs.call none {} c = ({}, .error .fileNotFound) := by
      cases c with
      | version => rfl
      | size => rfl
      | sha i => rfl
      | close => exact absurd rfl hb.1
    simp only [IndexAttrs.calls, h1, ih hb.2, List.map_cons]

/-- What a call on a closed index answers; `used` says whether there was a call before `close()`. -/
def indexClosed (x : IndexFile) (used : Bool) : IndexCall → Res IndexAnswer
  | .version => if used then .ok (.number x.version) else .error .attributeError
  | .size => if used then .ok (.number x.size) else .error .attributeError
  | .sha _ => .error .attributeError
  | .close => .ok .nothing

/-- **C61** an index after `close()`: version and size are still answered if anything was asked before, names are not
(`AttributeError`), and the file is not opened again. -/
theorem C61_index_closed (map : Bytes) (x : IndexFile) (h : IndexFile.load map = .ok x) (before after : List IndexCall)
    (hb : .close ∉ before) :
    (IndexAttrs.calls (some map) {} (before ++ .close :: after)).2 =
      before.map (indexExpected x) ++ .ok .nothing :: after.map (indexClosed x (!before.isEmpty)) := by
  have hl := indexLoad_ok h
  have hm := (hl {} (.inl rfl)).1
  -- after `close`
  have closed : ∀ (cs : List IndexCall) (u : Bool) (s : IndexAttrs), s.cursor = some none →
      (if u then s.version = some x.version ∧ s.fanout = some x.fanout ∧ s.bound = some x.version
        else s.version = none ∧ s.fanout = none ∧ s.bound = none) →
      (IndexAttrs.calls (some map) s cs).2 = cs.map (indexClosed x u) := by
    intro cs u s hc hs
    have step : ∀ c, (s.call (some map) c) = (s, indexClosed x u c) := by
      intro c
      obtain ⟨cu, v, f, b⟩ := s
      simp only at hc
      subst hc
      cases u with
      | true =>
        simp only [if_true] at hs
        obtain ⟨rfl, rfl, rfl⟩ := hs
        cases c <;> rfl
      | false =>
        simp only [Bool.false_eq_true, if_false] at hs
        obtain ⟨rfl, rfl, rfl⟩ := hs
        cases c <;> rfl
    induction cs with
    | nil => rfl
    | cons c cs ih => simp only [IndexAttrs.calls, step c, ih, List.map_cons]
  have full : ∀ (cs : List IndexCall), .close ∉ cs → ∀ (s : IndexAttrs),
      s = ⟨some (some x.map), some x.version, some x.fanout, some x.version⟩ →
      (IndexAttrs.calls (some map) s (cs ++ .close :: after)).2 =
        cs.map (indexExpected x) ++ .ok .nothing :: after.map (indexClosed x true) := by
    intro cs
    induction cs with
    | nil =>
      rintro _ s rfl
      simp only [List.nil_append, IndexAttrs.calls, IndexAttrs.call, List.map_nil, List.cons.injEq, true_and]
      exact closed after true _ rfl (by simp)
    | cons c cs ih =>
      rintro hcs s rfl
      simp only [List.mem_cons, not_or] at hcs
      have : IndexAttrs.call (some map) ⟨some (some x.map), some x.version, some x.fanout, some x.version⟩ c =
          (⟨some (some x.map), some x.version, some x.fanout, some x.version⟩, indexExpected x c) := by
        cases c with
        | version => rfl
        | size => rfl
        | sha i => rfl
        | close => exact absurd rfl hcs.1
      simp only [List.cons_append, IndexAttrs.calls, this, ih hcs.2 _ rfl, List.map_cons]
  cases before with
  | nil =>
    simp only [List.nil_append, IndexAttrs.calls, IndexAttrs.call, List.map_nil, List.cons.injEq, true_and]
    exact closed after false _ rfl (by simp)
  | cons c cs =>
    simp only [List.mem_cons, not_or] at hb
    have : IndexAttrs.call (some map) {} c =
        (⟨some (some x.map), some x.version, some x.fanout, some x.version⟩, indexExpected x c) := by
      have hset := (hl {} (.inl rfl)).2
      cases c with
      | version => simp only [IndexAttrs.call, lazyGet, hset]; rfl
      | size => simp only [IndexAttrs.call, lazyGet, hset]; rfl
      | sha i => simp only [IndexAttrs.call, lazyGet, hset, IndexAttrs.getCursor, indexExpected, IndexFile.sha]
      | close => exact absurd rfl hb.1
    simp only [List.cons_append, IndexAttrs.calls, this, full cs hb.2 _ rfl, List.map_cons, List.isEmpty_cons, Bool.not_false]

example : (IndexAttrs.calls none {} [.sha 3, .version, .size]).2 =
    [.error .fileNotFound, .error .fileNotFound, .error .fileNotFound] := by decide
example := C61_index_closed (indexV2 exEntries [] []) _ (v2_load exEntries [] [] exEntries_valid) [.sha 1] [.size, .sha 1]
  (by decide)

/-- **C61** finding: after a failure, `version()` of every index that was refused answers. -/
theorem C61_index_version (map : Bytes) (e : Err) (h : IndexFile.load map = .error e) :
    ∃ v, (IndexAttrs.calls (some map) {} [.version, .version]).2 = [.error e, .ok (.number v)] := by
  obtain ⟨s', e1, _, hv⟩ := indexLoad_error h {} ⟨.inl rfl, rfl⟩
  refine ⟨if map.take 4 = [0xff, 0x74, 0x4f, 0x63] then 2 else 1, ?_⟩
  simp only [IndexAttrs.calls, IndexAttrs.call, lazyGet, e1, hv]
  rfl

/-- **C61** is false as stated. -/
theorem C61_not_full : ¬ C61_full := by
  rintro ⟨h, _⟩
  have hw : WrongSignature (List.replicate 12 0) 0 0 := ⟨0, by decide, by decide, by decide, by decide⟩
  obtain ⟨h1, h2⟩ := C61_pack_wrong_signature _ 0 0 hw .version (by decide) [.version] (by decide)
  obtain ⟨e', h3, _⟩ := h _ _ h1 [.version, .version] (by decide) (.ok (.number 0))
    (by rw [h2]; simp [packExpected])
  cases h3

/-- **C61** of any object with such attributes: an attribute that was obtained once is the same at the next
access, and nothing is computed again. -/
theorem C61_lazy {S V : Type} (get : S → Option V) (setCache : S → S × Res Unit) (s s' : S) (v : V)
    (h : lazyGet get setCache s = (s', .ok v)) (setCache' : S → S × Res Unit) :
    lazyGet get setCache' s' = (s', .ok v) := by
  have hg : get s' = some v := by
    unfold lazyGet at h
    rcases h1 : get s with _ | w
    · rw [h1] at h
      simp only at h
      rcases h2 : setCache s with ⟨s2, e | u⟩
      · rw [h2] at h; cases h
      · rw [h2] at h
        simp only at h
        rcases h3 : get s2 with _ | w
        · rw [h3] at h; cases h
        · rw [h3] at h; cases h; exact h3
    · rw [h1] at h; cases h; exact h1
  unfold lazyGet
  rw [hg]

-- a pack of version 2 with 7 objects; a file which is no pack
example : PackFile.load [0x50, 0x41, 0x43, 0x4b, 0, 0, 0, 2, 0, 0, 0, 7] =
    .ok ⟨[0x50, 0x41, 0x43, 0x4b, 0, 0, 0, 2, 0, 0, 0, 7], 2, 7⟩ := by decide
example : WrongSignature [0x50, 0x41, 0x43, 0x4c, 0, 0, 0, 2, 0, 0, 0, 7] 2 7 :=
  ⟨0x5041434c, by decide, by decide, by decide, by decide⟩
-- an index which claims to be of version 3, asked three times
example : (IndexAttrs.calls (some [0xff, 0x74, 0x4f, 0x63, 0, 0, 0, 3]) {} [.version, .version, .size]).2 =
    [.error .assertionError, .ok (.number 2), .error .assertionError] := by decide
-- a truncated index of version 1: names are handed out after the first failure
example : (IndexAttrs.calls (some [1, 2, 3]) {} [.sha 0, .sha 0]).2 =
    [.error .structError, .ok (.name [])] := by decide

end GitDB.Props
