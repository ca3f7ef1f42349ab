import Verif.Proofs.DeltaRetry
import Verif.Proofs.PackStream
import Verif.Props.DeltaReader
import Verif.Props.Caught
/-!
# C95: delta streams after an exception
-/
set_option autoImplicit false

namespace GitDB.Props

open GitDB Spec

variable {σ : Type}

/-- What a stream of the object `content` that is positioned at `pos` should return in a sequence of calls. -/
def expected (content : Bytes) : Nat → List DeltaCall → List (Res DeltaOut)
  | _, [] => []
  | pos, .read n :: cs =>
    let d := if n < 1 then content.drop pos else (content.drop pos).take n.toNat
    .ok (.data d) :: expected content (pos + d.length) cs
  | pos, .seek o w :: cs =>
    if o = 0 ∧ w = 0 then .ok .done :: expected content 0 cs else .error .valueError :: expected content pos cs
  | pos, .size :: cs => .ok (.num content.length) :: expected content pos cs

/-- **C95** all or nothing: if the topmost delta stream is intact – the other deltas and the base can be anything, and
memory can be missing at any time –, then in every sequence of calls either every call that needs the object succeeds, or
all calls raise.  So after the first exception no call returns anything, whatever the circumstances are then. -/
theorem C95_all_or_nothing (read : σ → Int → σ × Res Bytes) (Rep : σ → Bytes → Prop) (hr : ObjectReadsFrom 512 read Rep)
    (s : σ) (delta : Bytes) (n : Nat) (hs : Rep s delta) (hn : delta.length ≤ n) (rest : List (σ × Nat)) (base : σ × Nat)
    (fuel : Nat) (as : List Alloc) (cs : List DeltaCall) :
    (∀ (i : Nat) (c : DeltaCall), cs[i]? = some c → c.Needs → ∃ o : DeltaOut, (LazyDelta.calls fuel read as ⟨(s, n) :: rest, base, 0, none⟩ cs).2[i]? = some (.ok o)) ∨
      ∀ o ∈ (LazyDelta.calls fuel read as ⟨(s, n) :: rest, base, 0, none⟩ cs).2, ∃ e, o = .error e := by
  have key : ∀ (cs : List DeltaCall) (as : List Alloc) (r : LazyDelta σ), FreshReader Rep r →
      (∀ (i : Nat) (c : DeltaCall), cs[i]? = some c → c.Needs → ∃ o : DeltaOut, (r.calls fuel read as cs).2[i]? = some (.ok o)) ∨
        ∀ o ∈ (r.calls fuel read as cs).2, ∃ e, o = .error e := by
    intro cs
    induction cs with
    | nil => intro as r _; exact .inl fun i c hc => by simp at hc
    | cons c cs ih =>
      intro as r h
      unfold LazyDelta.calls
      rcases call_fresh hr fuel as r h c with ⟨h1, h2, h3⟩ | ⟨h1, h2⟩ | ⟨⟨o, h1⟩, x, h2⟩
      · rcases ih (r.call fuel read as c).1 _ h3 with h4 | h4
        · left
          intro i c' hc hn
          cases i with
          | zero =>
            simp only [List.getElem?_cons_zero, Option.some.injEq] at hc
            subst hc
            exact absurd hn h1
          | succ i =>
            obtain ⟨o, ho⟩ := h4 i c' (by simpa using hc) hn
            exact ⟨o, by simpa using ho⟩
        · right
          intro o ho
          rcases List.mem_cons.mp ho with rfl | ho
          · exact ⟨_, h2⟩
          · exact h4 o ho
      · right
        intro o ho
        rcases List.mem_cons.mp ho with rfl | ho
        · exact h1
        · exact calls_failed hr fuel cs _ _ h2 o ho
      · left
        intro i c' hc hn
        cases i with
        | zero => exact ⟨o, by simp [h1]⟩
        | succ i =>
          obtain ⟨o, ho⟩ := calls_loaded (read := read) fuel cs (r.call fuel read as c).1 _ x h2 i c' (by simpa using hc) hn
          exact ⟨o, by simpa using ho⟩
  exact key cs as _ ⟨rfl, s, n, rest, rfl, delta, hs, hn⟩

/-- **C95** for streams of packs: the topmost delta is an entry of a pack. -/
theorem C95_packed (zl : Zlib) (L : ZlibLaws zl) (pack : Bytes) (off : Nat) (e : Packed) (h : EntryAt zl pack off e)
    (hf : Flows zl 512 e.zip) (rest : List (Reader × Nat)) (base : Reader × Nat)
    (fuel : Nat) (as : List Alloc) (cs : List DeltaCall) :
    (∀ (i : Nat) (c : DeltaCall), cs[i]? = some c → c.Needs → ∃ o : DeltaOut, (LazyDelta.calls fuel (Reader.read zl) as
        ⟨((entryObj pack off e).stream, e.content.length) :: rest, base, 0, none⟩ cs).2[i]? = some (.ok o)) ∨
      ∀ o ∈ (LazyDelta.calls fuel (Reader.read zl) as
        ⟨((entryObj pack off e).stream, e.content.length) :: rest, base, 0, none⟩ cs).2, ∃ e, o = .error e :=
  C95_all_or_nothing (Reader.read zl) (AnyFlow zl) (anyFlow_reads L) _ e.content _ (anyFlow_entry L h hf) (Nat.le_refl _) rest base fuel as cs

/-- **C95** the exception: if the topmost delta has (announces) at most 512 bytes, then every attempt after the first raises
`AssertionError` (in `msb_size`, which gets no bytes). -/
theorem C95_assertion (read : σ → Int → σ × Res Bytes) (Rep : σ → Bytes → Prop) (hr : ObjectReadsFrom 512 read Rep)
    (s : σ) (delta : Bytes) (n : Nat) (hs : Rep s delta) (hn : delta.length ≤ n) (h512 : n ≤ 512) (rest : List (σ × Nat))
    (base : σ × Nat) (fuel : Nat) (as : List Alloc) (c : DeltaCall) (hc : c.Needs) (e : Err) (cs : List DeltaCall)
    (he : (LazyDelta.call fuel read as ⟨(s, n) :: rest, base, 0, none⟩ c).2.2 = .error e) (i : Nat) (c' : DeltaCall)
    (hi : cs[i]? = some c') (hn' : c'.Needs) :
    (LazyDelta.calls fuel read as ⟨(s, n) :: rest, base, 0, none⟩ (c :: cs)).2[i + 1]? = some (.error .assertionError) := by
  -- the topmost stream is at its end
  have empty : ∀ (fuel : Nat) (as : List Alloc) (r : LazyDelta σ) (s : σ) (n : Nat) (rest : List (σ × Nat)), r.cache = none →
      r.dstreams = (s, n) :: rest → Rep s [] → ∃ s', Rep s' [] ∧
        trySetCache fuel read as r = (as, { r with dstreams := (s', n) :: rest }, .error .assertionError) := by
    intro fuel as r s n rest h0 hd h
    obtain ⟨s', e, h3⟩ := hr.read_pos s [] 512 h (by omega) (.inl (by omega))
    have h4 : tryHead read s n = (s', .error .assertionError) := by
      unfold tryHead; rw [e]; rfl
    exact ⟨s', by simpa using h3, by unfold trySetCache; rw [hd]; unfold tryHeads; rw [h4]⟩
  have later : ∀ (cs : List DeltaCall) (as : List Alloc) (r : LazyDelta σ), r.cache = none →
      (∃ s n rest, r.dstreams = (s, n) :: rest ∧ Rep s []) → ∀ (i : Nat) (c' : DeltaCall), cs[i]? = some c' → c'.Needs →
      (r.calls fuel read as cs).2[i]? = some (.error .assertionError) := by
    intro cs
    induction cs with
    | nil => intro as r _ _ i c' hc; simp at hc
    | cons c0 cs ih =>
      intro as r h0 h1 i c' hc hn
      have stay : (c0.Needs → (r.call fuel read as c0).2.2 = .error .assertionError) ∧ (r.call fuel read as c0).2.1.cache = none ∧
          ∃ s n rest, (r.call fuel read as c0).2.1.dstreams = (s, n) :: rest ∧ Rep s [] := by
        obtain ⟨s, n, rest, hd, hs⟩ := h1
        rcases c0 with n0 | ⟨o, w⟩ | _
        · obtain ⟨s', h2, h3⟩ := empty fuel as r s n rest h0 hd hs
          unfold LazyDelta.call LazyDelta.need
          rw [h0]
          dsimp only
          rw [h3]
          exact ⟨fun _ => rfl, h0, s', n, rest, rfl, h2⟩
        · unfold LazyDelta.call
          dsimp only
          split
          · rename_i hc
            exact ⟨fun hn => by obtain ⟨h1, h2⟩ := hn; omega, h0, s, n, rest, hd, hs⟩
          · obtain ⟨s', h2, h3⟩ := empty fuel as { r with br := 0 } s n rest h0 hd hs
            unfold LazyDelta.need
            dsimp only
            rw [h0]
            dsimp only
            rw [h0] at h3
            rw [h3]
            exact ⟨fun _ => rfl, rfl, s', n, rest, rfl, h2⟩
        · obtain ⟨s', h2, h3⟩ := empty fuel as r s n rest h0 hd hs
          unfold LazyDelta.call LazyDelta.need
          rw [h0]
          dsimp only
          rw [h3]
          exact ⟨fun _ => rfl, h0, s', n, rest, rfl, h2⟩
      obtain ⟨h2, h3, h4⟩ := stay
      unfold LazyDelta.calls
      cases i with
      | zero =>
        simp only [List.getElem?_cons_zero, Option.some.injEq] at hc
        subst hc
        simp [h2 hn]
      | succ i => simpa using ih _ _ h3 h4 i c' (by simpa using hc) hn
  have first : ∀ r : LazyDelta σ, r.cache = none → r.dstreams = (s, n) :: rest → ∀ e, (trySetCache fuel read as r).2.2 = .error e →
      (trySetCache fuel read as r).2.1.cache = none ∧
        ∃ s n rest, (trySetCache fuel read as r).2.1.dstreams = (s, n) :: rest ∧ Rep s [] := by
    intro r h0 hd e he
    obtain ⟨⟨s', rest', h1, rem, h2, h3⟩, _, h4⟩ := attempt_short hr fuel as r s n 0 rest hd delta hs (by omega)
    rw [he] at h4
    refine ⟨by rw [h4, h0], s', n, rest', h1, ?_⟩
    have : rem = [] := by
      rcases h3 with h3 | h3
      · exact h3
      · exact List.length_eq_zero_iff.mp (by omega)
    rw [← this]; exact h2
  have step : (LazyDelta.call fuel read as ⟨(s, n) :: rest, base, 0, none⟩ c).2.1.cache = none ∧
      ∃ s1 n1 rest1, (LazyDelta.call fuel read as ⟨(s, n) :: rest, base, 0, none⟩ c).2.1.dstreams = (s1, n1) :: rest1 ∧ Rep s1 [] := by
    have f := first ⟨(s, n) :: rest, base, 0, none⟩ rfl rfl
    rcases ht : trySetCache fuel read as ⟨(s, n) :: rest, base, 0, none⟩ with ⟨as', r', e' | ⟨t, m⟩⟩
    · rw [ht] at f
      have f := f e' rfl
      rcases c with n0 | ⟨o, w⟩ | _
      · unfold LazyDelta.call LazyDelta.need
        dsimp only
        rw [ht]; exact f
      · obtain ⟨rfl, rfl⟩ := hc
        unfold LazyDelta.call LazyDelta.need
        dsimp only
        rw [if_neg (by omega), ht]; exact f
      · unfold LazyDelta.call LazyDelta.need
        dsimp only
        rw [ht]; exact f
    · exfalso
      rcases c with n0 | ⟨o, w⟩ | _
      · unfold LazyDelta.call LazyDelta.need at he
        dsimp only at he
        rw [ht] at he; cases he
      · obtain ⟨rfl, rfl⟩ := hc
        unfold LazyDelta.call LazyDelta.need at he
        dsimp only at he
        rw [if_neg (by omega), ht] at he; cases he
      · unfold LazyDelta.call LazyDelta.need at he
        dsimp only at he
        rw [ht] at he; cases he
  unfold LazyDelta.calls
  simpa using later cs _ _ step.1 step.2 i c' hi hn'

theorem trySetCache_br (fuel : Nat) (read : σ → Int → σ × Res Bytes) (as : List Alloc) (r : LazyDelta σ) :
    (trySetCache fuel read as r).2.1.br = r.br := by
  unfold trySetCache
  rcases tryHeads read r.dstreams with ⟨ds, e | infos⟩
  · rfl
  · dsimp only
    generalize (if r.dstreams.length > 1 then
        (max r.bstream.2 (infos.foldl (fun m d => max m d.targetSize) 0), max r.bstream.2 (infos.foldl (fun m d => max m d.targetSize) 0))
      else (r.bstream.2, infos.foldl (fun m d => max m d.targetSize) 0)) = sizes
    rcases allocateNext as sizes.1 with ⟨as1, e | bb⟩
    · rfl
    · dsimp only
      rcases streamCopy fuel read Buf.write sizes.1 (256 * PAGESIZE : Nat) r.bstream.1 bb with ⟨s2, bb1, e | m⟩
      · rfl
      · dsimp only
        rcases allocateNext as1 sizes.2 with ⟨as2, e | tb⟩
        · rfl
        · dsimp only
          rcases tryAll fuel read as2 infos.reverse bb1 tb with ⟨as3, ds3, e | ⟨b, t⟩⟩
          · rfl
          · rcases infos with _ | ⟨i, tl⟩ <;> rfl

/-- A reader that has the object. -/
theorem loaded_calls (fuel : Nat) (read : σ → Int → σ × Res Bytes) (content : Bytes) : ∀ (cs : List DeltaCall) (as : List Alloc)
    (r : LazyDelta σ) (t : Buf) (n : Nat), r.cache = some (t, n) → DeltaReader.Delivers content ⟨t, n, r.br⟩ (content.drop r.br) →
    (r.calls fuel read as cs).2 = expected content r.br cs
  | [], _, _, _, _, _, _ => rfl
  | .read k :: cs, as, r, t, n, hc, h => by
    obtain ⟨d, hd, hl⟩ : ∃ d, d = (if k < 1 then content.drop r.br else (content.drop r.br).take k.toNat) ∧
        (DeltaReader.read ⟨t, n, r.br⟩ k).2 = d := by
      refine ⟨_, rfl, ?_⟩
      split
      · obtain ⟨r', e, _⟩ := (deltaReader_objectReads content).read_all _ _ k h (by omega)
        exact (Except.ok.inj (Prod.mk.inj e).2)
      · obtain ⟨r', e, _⟩ := (deltaReader_objectReads content).read_pos _ _ k h (by omega)
        exact (Except.ok.inj (Prod.mk.inj e).2)
    have hdel : DeltaReader.Delivers content (DeltaReader.read ⟨t, n, r.br⟩ k).1 (content.drop (r.br + d.length)) := by
      by_cases hk : k < 1
      · rw [if_pos hk] at hd
        obtain ⟨r', e, h'⟩ := (deltaReader_objectReads content).read_all _ _ k h (by omega)
        have e1 := (Prod.mk.inj e).1
        rw [e1]
        have : content.drop (r.br + d.length) = [] := by
          rw [hd, List.length_drop]
          exact List.drop_eq_nil_of_le (by omega)
        rw [this]; exact h'
      · rw [if_neg hk] at hd
        obtain ⟨r', e, h'⟩ := (deltaReader_objectReads content).read_pos _ _ k h (by omega)
        have e1 := (Prod.mk.inj e).1
        rw [e1]
        have : content.drop (r.br + d.length) = (content.drop r.br).drop k.toNat := by
          rw [hd, List.drop_drop, List.length_take, List.length_drop]
          by_cases hh : k.toNat ≤ content.length - r.br
          · rw [Nat.min_eq_left hh]
          · rw [List.drop_eq_nil_of_le (by omega), List.drop_eq_nil_of_le (by omega)]
        rw [this]; exact h'
    have hbr : (DeltaReader.read ⟨t, n, r.br⟩ k).1.br = r.br + d.length := by rw [← hl]; rfl
    have hsz : (DeltaReader.read ⟨t, n, r.br⟩ k).1.size = n := rfl
    have hcall : r.call fuel read as (.read k) =
        (as, { r with br := r.br + d.length, cache := some ((DeltaReader.read ⟨t, n, r.br⟩ k).1.target, n) }, .ok (.data d)) := by
      unfold LazyDelta.call LazyDelta.need
      rw [hc]
      dsimp only
      rw [hl, hbr]
    unfold LazyDelta.calls expected
    rw [hcall]
    dsimp only
    rw [loaded_calls fuel read content cs as
      { r with br := r.br + d.length, cache := some ((DeltaReader.read ⟨t, n, r.br⟩ k).1.target, n) } _ n rfl (by
        dsimp only
        rw [← hbr] at hdel ⊢
        exact hdel), ← hd]
  | .seek o w :: cs, as, r, t, n, hc, h => by
    unfold LazyDelta.calls expected LazyDelta.call
    dsimp only
    by_cases how : o = 0 ∧ w = 0
    · rw [if_neg (by omega), if_pos how]
      unfold LazyDelta.need
      dsimp only
      rw [hc]
      dsimp only
      rw [loaded_calls fuel read content cs as { r with br := 0, cache := some (t.seek0, n) } _ n rfl
        ⟨h.1, h.2.1, rfl, Nat.zero_le _, by simp⟩]
    · rw [if_pos (by omega), if_neg how]
      dsimp only
      rw [loaded_calls fuel read content cs as r t n hc h]
  | .size :: cs, as, r, t, n, hc, h => by
    unfold LazyDelta.calls expected LazyDelta.call LazyDelta.need
    rw [hc]
    dsimp only
    rw [loaded_calls fuel read content cs as r t n hc h, show n = content.length from h.1]

/-- The call that loads the object is like the same call when the object has been loaded. -/
theorem loading_call (fuel : Nat) (read : σ → Int → σ × Res Bytes) (as as' : List Alloc) (r r' : LazyDelta σ) (x : Buf × Nat)
    (h0 : r.cache = none) (hb : r.br = 0) (ht : trySetCache fuel read as r = (as', r', .ok x)) (hx : r'.cache = some x)
    (c : DeltaCall) (hc : c.Needs) : r.call fuel read as c = r'.call fuel read as' c := by
  have hb' : r'.br = 0 := by
    have := trySetCache_br fuel read as r
    rw [ht, hb] at this
    exact this
  obtain ⟨ds, bs, br, ca⟩ := r
  obtain ⟨ds', bs', br', ca'⟩ := r'
  simp only at h0 hb hx hb'
  subst h0 hb hx hb'
  rcases c with n0 | ⟨o, w⟩ | _
  · unfold LazyDelta.call LazyDelta.need
    dsimp only
    rw [ht]
  · obtain ⟨rfl, rfl⟩ := hc
    unfold LazyDelta.call LazyDelta.need
    dsimp only
    rw [if_neg (by omega), if_neg (by omega), ht]
  · unfold LazyDelta.call LazyDelta.need
    dsimp only
    rw [ht]

/-- **C95** never wrong data: for a chain of deltas that fit, with `mmap` succeeding or not and memory missing at any time,
every sequence of calls returns what a stream of the resolved object should return, or memory was missing and all calls
raise. -/
theorem C95_right (read : σ → Int → σ × Res Bytes) (Rep : σ → Bytes → Prop) (hr : ObjectReadsFrom 512 read Rep)
    (base : Bytes) (ds : List DeltaObj) (hne : ds ≠ []) (hc : ChainFits base ds) (bs : σ) (hbs : Rep bs base) (ss : List (σ × Nat))
    (hss : All2 (fun d (s : σ × Nat) => Rep s.1 d.bytes ∧ s.2 = d.bytes.length) ds.reverse ss) :
    ∃ F, ∀ fuel, F ≤ fuel → ∀ (as : List Alloc) (cs : List DeltaCall),
      (LazyDelta.calls fuel read as ⟨ss, (bs, base.length), 0, none⟩ cs).2 = expected (resolveChain base ds) 0 cs ∨
        (∃ e, .fails e ∈ as) ∧ ∀ o ∈ (LazyDelta.calls fuel read as ⟨ss, (bs, base.length), 0, none⟩ cs).2, ∃ e, o = .error e := by
  obtain ⟨F, hF⟩ := setCacheBrute_spec hr base ds hne hc bs hbs ss hss
  refine ⟨F, fun fuel hf as cs => ?_⟩
  obtain ⟨b, e1, h1, h2⟩ := hF fuel hf
  obtain ⟨b', e2, hA⟩ := setCacheBruteIn_alike (fun j => usesMap (as.drop j)) fuel read ss (bs, base.length) b _ e1
  obtain ⟨s, n, rest, rfl, d, hrep, hlen⟩ : ∃ s n rest, ss = (s, n) :: rest ∧ ∃ d : DeltaObj, Rep s d.bytes ∧ n = d.bytes.length := by
    rcases hdr : ds.reverse with _ | ⟨d, dr⟩
    · exact absurd (by simpa using hdr) hne
    · rw [hdr] at hss
      cases hss with
      | cons h1 h2 => rename_i y ys; exact ⟨y.1, y.2, ys, rfl, d, h1⟩
  generalize hr0 : (⟨(s, n) :: rest, (bs, base.length), 0, none⟩ : LazyDelta σ) = r
  have hfresh : FreshReader Rep r := by
    subst hr0
    exact ⟨rfl, s, n, rest, rfl, d.bytes, hrep, by omega⟩
  have hbr : r.br = 0 := by subst hr0; rfl
  have hlink := trySetCache_link fuel read as r
  rw [show r.dstreams = (s, n) :: rest by subst hr0; rfl, show r.bstream = (bs, base.length) by subst hr0; rfl, e2] at hlink
  induction cs with
  | nil => exact .inl rfl
  | cons c cs ih =>
    by_cases hn : c.Needs
    · rcases ht : trySetCache fuel read as r with ⟨as', r', x⟩
      rcases fresh_attempt hr fuel as r hfresh with ⟨e, h3, h4⟩ | ⟨x', h3, h4⟩
      · right
        have hfail : ∃ e, .fails e ∈ as := by
          rcases hlink with hl | ⟨e, he, _⟩
          · rw [h3] at hl; cases hl
          · exact ⟨e, he⟩
        refine ⟨hfail, ?_⟩
        intro o ho
        unfold LazyDelta.calls at ho
        rcases call_fresh hr fuel as r hfresh c with ⟨g1, _⟩ | ⟨g1, g2⟩ | ⟨⟨o', g1⟩, _⟩
        · exact absurd hn g1
        · rcases List.mem_cons.mp ho with rfl | ho
          · exact g1
          · exact calls_failed hr fuel cs _ _ g2 o ho
        · exfalso
          rw [ht] at h3
          simp only at h3
          subst h3
          obtain ⟨ds0, bs0, br0, ca0⟩ := r
          have hc0 : ca0 = none := hfresh.1
          simp only at hbr
          subst hc0 hbr
          rcases c with n0 | ⟨o, w⟩ | _
          · unfold LazyDelta.call LazyDelta.need at g1
            dsimp only at g1
            rw [ht] at g1; cases g1
          · obtain ⟨rfl, rfl⟩ := hn
            unfold LazyDelta.call LazyDelta.need at g1
            dsimp only at g1
            rw [if_neg (by omega), ht] at g1; cases g1
          · unfold LazyDelta.call LazyDelta.need at g1
            dsimp only at g1
            rw [ht] at g1; cases g1
      · left
        rw [ht] at h3 h4
        simp only at h3 h4
        subst h3
        have hx : x' = (b', (resolveChain base ds).length) := by
          rcases hlink with hl | ⟨e, _, hl⟩
          · rw [ht] at hl; exact Except.ok.inj hl
          · rw [ht] at hl; cases hl
        subst hx
        have hcall := loading_call fuel read as as' r r' _ hfresh.1 hbr ht h4 c hn
        have hb' : r'.br = 0 := by
          have := trySetCache_br fuel read as r
          rw [ht, hbr] at this
          exact this
        have : (r.calls fuel read as (c :: cs)).2 = (r'.calls fuel read as' (c :: cs)).2 := by
          unfold LazyDelta.calls; rw [hcall]
        rw [this, loaded_calls fuel read (resolveChain base ds) (c :: cs) as' r' _ _ h4 ?_, hb']
        rw [hb']
        exact ⟨rfl, by dsimp only; rw [hA.1]; exact h1, by dsimp only; rw [hA.2.1]; exact h2, Nat.zero_le _, rfl⟩
    · -- `seek` to somewhere else
      rcases c with k | ⟨o, w⟩ | _
      · exact absurd trivial hn
      · have how : ¬ (o = 0 ∧ w = 0) := hn
        have hcall : r.call fuel read as (.seek o w) = (as, r, .error .valueError) := by
          unfold LazyDelta.call
          exact if_pos (by omega)
        unfold LazyDelta.calls expected
        rw [hcall, if_neg how]
        dsimp only
        rcases ih with ih | ⟨h3, h4⟩
        · left; rw [ih]
        · right
          refine ⟨h3, fun o ho => ?_⟩
          rcases List.mem_cons.mp ho with rfl | ho
          · exact ⟨_, rfl⟩
          · exact h4 o ho
      · exact absurd trivial hn

/-- **C95** the constructor, and the first access for any streams: the object's size as in the model without
allocation failures, or the exception of an allocation. -/
theorem C95_first (fuel : Nat) (read : σ → Int → σ × Res Bytes) (as : List Alloc) (streams : List (σ × Nat)) :
    (∀ r, newLazyDelta streams = .ok r →
      (r.call fuel read as .size).2.2 = (newDeltaReaderIn (fun j => usesMap (as.drop j)) fuel read streams).map (fun x => .num x.size) ∨
        ∃ e, .fails e ∈ as ∧ (r.call fuel read as .size).2.2 = .error e) ∧
    ∀ e, newLazyDelta streams = .error e → newDeltaReaderIn (fun j => usesMap (as.drop j)) fuel read streams = .error e := by
  unfold newLazyDelta newDeltaReaderIn
  generalize streams.reverse = l
  rcases l with _ | ⟨base, _ | ⟨d, ds⟩⟩
  · exact ⟨fun r hr => (nomatch hr), fun e he => by cases he; rfl⟩
  · exact ⟨fun r hr => (nomatch hr), fun e he => by cases he; rfl⟩
  · refine ⟨fun r hr => ?_, fun e he => nomatch he⟩
    cases hr
    unfold LazyDelta.call LazyDelta.need
    dsimp only
    rcases trySetCache_link fuel read as ⟨(d :: ds).reverse, base, 0, none⟩ with h | ⟨e, he, h⟩
    · left
      dsimp only at h
      rw [← h]
      rcases trySetCache fuel read as ⟨(d :: ds).reverse, base, 0, none⟩ with ⟨as', r', e | ⟨t, n⟩⟩
      · rfl
      · rfl
    · right
      refine ⟨e, he, ?_⟩
      rcases ht : trySetCache fuel read as ⟨(d :: ds).reverse, base, 0, none⟩ with ⟨as', r', e' | ⟨t, n⟩⟩
      · rw [ht] at h; cases h; rfl
      · rw [ht] at h; cases h

/-! The chain of two deltas of `Props/DeltaReader.lean`: memory is missing once, in the third allocation; the calls
before and after. -/

/-- The reader. -/
def twoDeltas : LazyDelta Bytes := ⟨[(exD2.bytes, exD2.bytes.length), (exD1.bytes, exD1.bytes.length)], (exBase, 3), 0, none⟩

example : (twoDeltas.calls 9 objRead [] [.read 3, .seek 1 0, .size, .read 0, .seek 0 0, .read 2]).2 =
    [.ok (.data [88, 66, 67]), .error .valueError, .ok (.num 4), .ok (.data [89]), .ok .done, .ok (.data [88, 66])] := by
  decide +kernel

/-- The failure was temporary, but the object cannot be had from this stream any more. -/
theorem C95_no_retry :
    (twoDeltas.calls 9 objRead [.mapped, .mapped, .fails .osError] [.read 3, .read 3, .seek 0 0, .size]).2 =
      [.error .osError, .error .assertionError, .error .assertionError, .error .assertionError] := by decide +kernel

example : (twoDeltas.calls 9 objRead [.heap, .mapped, .heap] [.read 3, .size]).2 = [.ok (.data [88, 66, 67]), .ok (.num 4)] := by
  decide +kernel

/-- The stream of the topmost delta must not move when it raises: this one raises once and has not moved, and the second
attempt succeeds.  (`ObjectReadsFrom` in `C95_all_or_nothing` says that it does not raise.) -/
example : ((⟨[((true, exD1.bytes), exD1.bytes.length)], ((false, exBase), 3), 0, none⟩ : LazyDelta (Bool × Bytes)).calls 9
    (fun s n => if s.1 then ((false, s.2), .error .osError) else ((false, (objRead s.2 n).1), (objRead s.2 n).2)) [] [.size, .size]).2 =
    [.error .osError, .ok (.num 3)] := by decide +kernel

end GitDB.Props
